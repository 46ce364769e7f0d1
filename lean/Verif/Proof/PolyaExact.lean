import Verif.Proof.PolyaBound
/-
The floating-point count equals the exact one.
-/
namespace Phenum
open Spec MvPolynomial

section
variable {fl : Rat → Rat} (hfl : ExactFl fl) {k : Nat} {flags : List Bool} (hf : flags.length = k) {d : Nat} (hd : 1 ≤ d)
include hfl hf hd

omit hfl hf hd in
theorem colSums_sum {seqs : List (List Nat)} (hne : seqs ≠ [])
    (hl : ∀ s ∈ seqs, s.length = k) {t : List Nat} (ht : t.length = k) (hcol : colSums k seqs = t) :
    t.sum = (seqs.map List.sum).sum := by
  rw [← expo_sum ht, ← hcol, expo_colSums hne]
  clear hcol hne
  induction seqs with
  | nil => simp
  | cons s seqs ih =>
    simp only [List.map_cons, List.sum_cons, Finsupp.add_apply, Finset.sum_add_distrib]
    rw [ih (fun x hx => hl x (List.mem_cons_of_mem _ hx)), expo_sum (hl s (by simp))]

theorem nchoosekmF_ok {m : Multinom} (hp : 1 ≤ m.power) (hm : m.arrowings = flags) (hc : m.coeff ≤ d) {s : List Nat}
    (hs : s.length = k) {n D : Nat} (hn : 1 ≤ n) (hsn : s.sum ≤ n) (hD : allConfs d flags s ≤ D) (hB : n * D ≤ 2 ^ 53) :
    (m.nchoosekmF fl s).val = (nck m s : Nat) := by
  by_cases hall : s.all (fun x => x % m.power = 0) = true
  · obtain ⟨h1, h2, h3⟩ := nck_parts hp (by rw [hm]; exact hf) hd hc hs hall
    rw [hm] at h1 h2 h3
    have hDB : D ≤ 2 ^ 53 := le_trans (Nat.le_mul_of_pos_left _ hn) hB
    exact nchoosekmF_val hfl m hp s (le_trans (Nat.mul_le_mul (by omega) (le_trans h1 hD)) hB)
      (le_trans h2 (le_trans hD hDB)) (le_trans h3 (le_trans hD hDB))
  · unfold Multinom.nchoosekmF nck
    rw [if_neg hall, if_neg hall]
    simp [PyNum.val]

omit hfl hf in
theorem le_prod_of_mem (seqs : List (List Nat)) {s : List Nat} (hs : s ∈ seqs) :
    allConfs d flags s ≤ (seqs.map (allConfs d flags)).prod := by
  apply Nat.le_of_dvd
  · apply List.prod_pos
    intro x hx
    obtain ⟨y, -, rfl⟩ := List.mem_map.mp hx
    exact allConfs_pos hd flags y
  · exact List.dvd_prod (List.mem_map_of_mem hs)

theorem term_ok {ms : List Multinom} (hms : ∀ m ∈ ms, 1 ≤ m.power ∧ m.arrowings = flags ∧ m.coeff ≤ d)
    {seqs : List (List Nat)} (hlen : seqs.length = ms.length) (hne : seqs ≠ []) (hl : ∀ s ∈ seqs, s.length = k)
    {t : List Nat} (ht : t.length = k) (hcol : colSums k seqs = t) (hn : 1 ≤ t.sum) (hB : t.sum * allConfs d flags t ≤ 2 ^ 53) :
    (reduceMulF fl ((ms.zip seqs).map (fun p => p.1.nchoosekmF fl p.2))).val = (((ms.zip seqs).map (fun p => nck p.1 p.2)).prod : Nat) := by
  have hprod := allConfs_prod (d := d) hf hne hl ht hcol
  have hsum := colSums_sum hne hl ht hcol
  have hDB : allConfs d flags t ≤ 2 ^ 53 := le_trans (Nat.le_mul_of_pos_left _ hn) hB
  have hval : ∀ p ∈ ms.zip seqs, (p.1.nchoosekmF fl p.2).val = (nck p.1 p.2 : Nat) ∧ nck p.1 p.2 ≤ allConfs d flags p.2 ∧
      1 ≤ allConfs d flags p.2 := by
    intro p hp
    have h1 := List.of_mem_zip hp
    obtain ⟨m1, m2, m3⟩ := hms p.1 h1.1
    refine ⟨nchoosekmF_ok hfl hf hd m1 m2 m3 (hl _ h1.2) hn ?_ (le_trans (le_prod_of_mem hd seqs h1.2) hprod) hB, ?_,
      allConfs_pos hd _ _⟩
    · rw [hsum]
      exact List.single_le_sum (fun _ _ => Nat.zero_le _) _ (List.mem_map_of_mem h1.2)
    · have := nck_dom m1 (by rw [m2]; exact hf) hd m3 (hl _ h1.2)
      rwa [m2] at this
  have hzip : (ms.zip seqs).map (fun p => allConfs d flags p.2) = seqs.map (allConfs d flags) := by
    rw [show (fun p : Multinom × List Nat => allConfs d flags p.2) = allConfs d flags ∘ Prod.snd from rfl, ← List.map_map,
      List.map_snd_zip (by omega)]
  rw [← hzip] at hprod
  cases hz : ms.zip seqs with
  | nil =>
    exfalso
    have := congrArg List.length hz
    rw [List.length_zip, hlen, min_self, ← hlen] at this
    exact hne (List.length_eq_zero_iff.mp this)
  | cons p ps =>
    rw [hz] at hval hprod
    rw [List.map_cons, List.prod_cons] at hprod
    simp only [reduceMulF, List.map_cons, List.prod_cons]
    rw [List.foldl_map]
    obtain ⟨v1, v2, v3⟩ := hval p (by simp)
    exact foldl_mul_val hfl ps _ (fun p => nck p.1 p.2) (fun p => allConfs d flags p.2)
      (fun q hq => hval q (List.mem_cons_of_mem _ hq)) v1 v2 v3 (le_trans hprod hDB)

/-- the exact value of `_sum_sequences` -/
def seqSum (k : Nat) (ms : List Multinom) (t : List Nat) (mnseq : List (List (List Nat))) : Nat :=
  ((pyProduct mnseq).map (fun seq => if colSums k seq = t then ((ms.zip seq).map (fun p => nck p.1 p.2)).prod else 0)).sum

omit hfl hf hd in
theorem sumSequences_nat (ms : List Multinom) (t : List Nat) (ht : t.length = k) (mnseq : List (List (List Nat))) :
    sumSequences ms t mnseq = (seqSum k ms t mnseq : Nat) := by
  unfold sumSequences seqSum
  rw [Nat.cast_list_sum, List.map_map]
  congr 1
  apply List.map_congr_left
  intro seq _
  simp only [Function.comp, ht]
  split
  · simp only [nchoosekm_eq, Nat.cast_list_prod, List.map_map]
    rfl
  · simp

theorem sumSequencesF_ok {ms : List Multinom} (hms : ∀ m ∈ ms, 1 ≤ m.power ∧ m.arrowings = flags ∧ m.coeff ≤ d) (hne : ms ≠ [])
    {t : List Nat} (ht : t.length = k) (hn : 1 ≤ t.sum) (hB : t.sum * allConfs d flags t ≤ 2 ^ 53)
    {mnseq : List (List (List Nat))} (hml : mnseq.length = ms.length) (hl : ∀ l ∈ mnseq, ∀ s ∈ l, s.length = k)
    (hS : seqSum k ms t mnseq ≤ 2 ^ 53) :
    (sumSequencesF fl ms t mnseq).val = (seqSum k ms t mnseq : Nat) := by
  have hterm : ∀ seq ∈ pyProduct mnseq, colSums k seq = t →
      (reduceMulF fl ((ms.zip seq).map (fun p => p.1.nchoosekmF fl p.2))).val = (((ms.zip seq).map (fun p => nck p.1 p.2)).prod : Nat) := by
    intro seq hseq hc
    have h2 := (mem_pyProduct _ seq).mp hseq
    have hlen : seq.length = ms.length := by rw [h2.length_eq, hml]
    refine term_ok hfl hf hd hms hlen ?_ ?_ ht hc hn hB
    · rintro rfl
      exact hne (List.length_eq_zero_iff.mp hlen.symm)
    · intro s hs
      clear hc hseq hlen hS hml
      induction h2 with
      | nil => cases hs
      | cons h _ ih =>
        rcases List.mem_cons.mp hs with rfl | hs
        · exact hl _ (by simp) _ h
        · exact ih (fun l hl' => hl l (List.mem_cons_of_mem _ hl')) hs
  unfold sumSequencesF
  unfold seqSum at hS ⊢
  rw [ht]
  generalize pyProduct mnseq = P at hterm hS
  have key : ∀ (acc : PyNum) (a : Nat), acc.val = a → a + (P.map (fun seq => if colSums k seq = t then
      ((ms.zip seq).map (fun p => nck p.1 p.2)).prod else 0)).sum ≤ 2 ^ 53 →
      (P.foldl (fun coeffs seq => if colSums k seq = t then coeffs.add fl (reduceMulF fl ((ms.zip seq).map
        (fun p => p.1.nchoosekmF fl p.2))) else coeffs) acc).val = (a + (P.map (fun seq => if colSums k seq = t then
      ((ms.zip seq).map (fun p => nck p.1 p.2)).prod else 0)).sum : Nat) := by
    clear hS
    induction P with
    | nil => intro acc a h _; simpa using h
    | cons q P ih =>
      intro acc a h hb
      have ih' := ih (fun s hs => hterm s (List.mem_cons_of_mem _ hs))
      rw [List.map_cons, List.sum_cons, ← Nat.add_assoc] at hb ⊢
      rw [List.foldl_cons]
      by_cases hc : colSums k q = t
      · simp only [hc, if_true] at hb ⊢
        exact ih' _ _ (add_val hfl h (hterm q (by simp) hc) (by omega)) hb
      · simp only [hc, if_false, Nat.add_zero] at hb ⊢
        exact ih' _ _ h hb
  have := key (.int 0) 0 (by simp [PyNum.val]) (by rwa [Nat.zero_add])
  rwa [Nat.zero_add] at this

omit hfl hf hd in
theorem seqExpand_len (m : Multinom) (ts : List Nat) (root used : Nat) :
    ∀ s ∈ seqExpand m.possible m.powersum ts root used, s.length = ts.length + 1 := by
  induction ts generalizing root used with
  | nil =>
    intro s hs
    simp only [seqExpand, List.mem_singleton] at hs
    rw [hs]; rfl
  | cons t ts ih =>
    intro s hs
    rw [seqExpand_cons] at hs
    split at hs
    · rw [List.mem_singleton] at hs; rw [hs]; simp
    · obtain ⟨s', hs', rfl⟩ := List.mem_map.mp hs
      obtain ⟨q, -, hq⟩ := List.mem_flatMap.mp hs'
      rw [List.length_cons, ih _ _ s' hq, List.length_cons]

/-- what a product must satisfy -/
structure FloatOk (k n d : Nat) (flags : List Bool) (ms : List Multinom) : Prop where
  prod : ProdOk k n ms
  small : ∀ m ∈ ms, m.arrowings = flags ∧ m.coeff ≤ d

theorem productCoeffF_ok {ms : List Multinom} {t : List Nat} (hms : FloatOk k t.sum d flags ms) (ht : t.length = k)
    (hn : 1 ≤ t.sum) (hB : t.sum * allConfs d flags t ≤ 2 ^ 53) {c : Nat} (hc : c * allConfs d flags t ≤ 2 ^ 53) :
    ∃ v, productCoeffF fl c t ms = .ok v ∧ v.val = (c * prodCoeff k t ms : Nat) := by
  have hP := hms.prod
  have hle := prodCoeff_le hP hd hf hms.small ht rfl
  have hD0 := allConfs_pos hd flags t
  have hcB : c ≤ 2 ^ 53 := le_trans (Nat.le_mul_of_pos_right _ hD0) hc
  have hDB : allConfs d flags t ≤ 2 ^ 53 := le_trans (Nat.le_mul_of_pos_left _ hn) hB
  have hgen := explored_general hP.fac hP.ne ht hP.sum.symm
  have hfac : ∀ m ∈ ms, 1 ≤ m.power ∧ m.arrowings = flags ∧ m.coeff ≤ d :=
    fun m hm => ⟨(hP.fac m hm).power, hms.small m hm⟩
  have hk0 : 0 < k := by
    rw [← ht]
    cases t with
    | nil => simp at hn
    | cons => simp
  have general : ∀ t0 ts, t = t0 :: ts → (((((pyProduct (ms.map Multinom.possible)).filter (fun s => decide (s.sum = t0))).foldl
      (fun (coeffs : PyNum) seq => coeffs.add fl (sumSequencesF fl ms t
          ((seq.zip ms).map (fun p => seqExpand p.2.possible p.2.powersum ts p.1 p.1)))) (.int 0))).val =
        (prodCoeff k t ms : Nat)) := by
    intro t0 ts e
    have hg := hgen t0 ts e
    simp only [sumSequences_nat ms t ht] at hg
    have hnat : (((pyProduct (ms.map Multinom.possible)).filter (fun s => decide (s.sum = t0))).map (fun seq =>
        seqSum k ms t ((seq.zip ms).map (fun p => seqExpand p.2.possible p.2.powersum ts p.1 p.1)))).sum = prodCoeff k t ms := by
      have h2 := hg
      rw [show (fun seq : List Nat => ((seqSum k ms t ((seq.zip ms).map (fun p => seqExpand p.2.possible p.2.powersum ts p.1 p.1)) : Nat) : ℚ)) =
        (fun x : Nat => (x : ℚ)) ∘ (fun seq => seqSum k ms t ((seq.zip ms).map (fun p => seqExpand p.2.possible p.2.powersum ts p.1 p.1)))
        from rfl, ← List.map_map, ← Nat.cast_list_sum] at h2
      exact_mod_cast h2
    rw [← hnat]
    have := foldl_add_val hfl ((pyProduct (ms.map Multinom.possible)).filter (fun s => decide (s.sum = t0)))
      (fun seq => sumSequencesF fl ms t ((seq.zip ms).map (fun p => seqExpand p.2.possible p.2.powersum ts p.1 p.1)))
      (fun seq => seqSum k ms t ((seq.zip ms).map (fun p => seqExpand p.2.possible p.2.powersum ts p.1 p.1))) ?_
      (acc := .int 0) (a := 0) (by simp [PyNum.val]) (by rw [Nat.zero_add, hnat]; exact le_trans hle hDB)
    · rwa [Nat.zero_add] at this
    · intro seq hseq
      have hlen : seq.length = ms.length := by
        have := pyProduct_length _ seq (List.mem_filter.mp hseq).1
        simpa using this
      apply sumSequencesF_ok hfl hf hd hfac hP.ne ht hn hB
      · rw [List.length_map, List.length_zip, hlen, min_self]
      · intro l hl s hs
        obtain ⟨p, hp, rfl⟩ := List.mem_map.mp hl
        have hm := List.of_mem_zip hp
        rw [seqExpand_len p.2 ts _ _ s hs, ← ht, e]
        rfl
      · have h1 : seqSum k ms t ((seq.zip ms).map (fun p => seqExpand p.2.possible p.2.powersum ts p.1 p.1)) ≤ prodCoeff k t ms := by
          rw [← hnat]
          exact List.single_le_sum (fun _ _ => Nat.zero_le _) _ (List.mem_map_of_mem (f := fun seq => seqSum k ms t
            ((seq.zip ms).map (fun p => seqExpand p.2.possible p.2.powersum ts p.1 p.1))) hseq)
        exact le_trans h1 (le_trans hle hDB)
  match ms, hP, hfac, hle, general with
  | [], hP, _, _, _ => exact absurd rfl hP.ne
  | [m], hP, hfac, hle, _ =>
    have hm := hP.fac m (by simp)
    have hsum : t.sum = m.powersum := by
      have := hP.sum
      simpa using this.symm
    have hpc : prodCoeff k t [m] = nck m t := by
      unfold prodCoeff
      simp only [List.map_cons, List.map_nil, List.prod_cons, List.prod_nil, mul_one]
      exact mnPoly_coeff_expo hm ht hsum
    rw [hpc] at hle ⊢
    simp only [productCoeffF]
    split
    · rename_i hall
      refine ⟨_, rfl, ?_⟩
      have : nck m t = 0 := by
        unfold nck
        rw [if_neg]
        intro h0
        rw [List.all_eq_true] at hall h0
        simp only [decide_eq_true_eq] at hall h0
        have : t.sum = 0 := by
          apply List.sum_eq_zero
          intro x hx
          have h1 := hall x hx
          have h2 := h0 x hx
          rwa [Nat.mod_eq_of_lt (by omega)] at h2
        omega
      rw [this]; simp [PyNum.val]
    · refine ⟨_, rfl, ?_⟩
      obtain ⟨m1, m2, m3⟩ := hfac m (by simp)
      rw [Nat.mul_comm]
      refine mul_val hfl (nchoosekmF_ok hfl hf hd m1 m2 m3 ht hn le_rfl le_rfl hB) (by simp [PyNum.val]) (le_trans hle hDB) hcB ?_
      rw [Nat.mul_comm]
      exact le_trans (Nat.mul_le_mul_left _ hle) hc
  | m :: m' :: ms', hP, _, _, general =>
    simp only [productCoeffF]
    cases t with
    | nil => simp at hn
    | cons t0 ts =>
      refine ⟨_, rfl, ?_⟩
      rw [toInt_val (general t0 ts rfl)]
      simp only [PyNum.val]
      push_cast
      ring

theorem sumCoeffsF_ok {t : List Nat} (ht : t.length = k) (hn : 1 ≤ t.sum) (hB : t.sum * allConfs d flags t ≤ 2 ^ 53)
    (dict : PolyDict) (hdict : ∀ e ∈ dict, FloatOk k t.sum d flags e.2.1 ∧ e.2.2 * allConfs d flags t ≤ 2 ^ 53)
    {acc : PyNum} {a : Nat} (hacc : acc.val = a) (hS : a + dictVal k t dict ≤ 2 ^ 53) :
    ∃ v, sumCoeffsF fl t dict acc = .ok v ∧ v.val = (a + dictVal k t dict : Nat) := by
  induction dict generalizing acc a with
  | nil => exact ⟨acc, rfl, by simpa [dictVal] using hacc⟩
  | cons x dict ih =>
    obtain ⟨key, p, c⟩ := x
    have hx := hdict (key, p, c) (by simp)
    obtain ⟨v, hv, hval⟩ := productCoeffF_ok hfl hf hd hx.1 ht hn hB hx.2
    have hcons : dictVal k t ((key, p, c) :: dict) = c * prodCoeff k t p + dictVal k t dict := by simp [dictVal]
    rw [hcons, ← Nat.add_assoc] at hS ⊢
    obtain ⟨w, hw, hwv⟩ := ih (fun e he => hdict e (List.mem_cons_of_mem _ he))
      (add_val hfl hacc hval (le_trans (Nat.le_add_right _ _) hS)) hS
    refine ⟨w, ?_, hwv⟩
    simp only [sumCoeffsF]
    rw [hv]
    exact hw

omit hfl hf hd in
theorem addProduct_mem (ms : List Multinom) (dict : PolyDict) :
    (∀ e ∈ addProduct ms dict, e.2.1 = ms ∨ ∃ e' ∈ dict, e'.2.1 = e.2.1) ∧
      ((addProduct ms dict).map (fun e => e.2.2)).sum = (dict.map (fun e => e.2.2)).sum + 1 := by
  induction dict with
  | nil => simp [addProduct]
  | cons x dict ih =>
    obtain ⟨key, p, c⟩ := x
    simp only [addProduct]
    split
    · refine ⟨fun e he => Or.inr ?_, ?_⟩
      · rcases List.mem_cons.mp he with rfl | he
        · exact ⟨(key, p, c), by simp, rfl⟩
        · exact ⟨e, List.mem_cons_of_mem _ he, rfl⟩
      · simp only [List.map_cons, List.sum_cons]; omega
    · refine ⟨fun e he => ?_, ?_⟩
      · rcases List.mem_cons.mp he with rfl | he
        · exact Or.inr ⟨(key, p, c), by simp, rfl⟩
        · rcases ih.1 e he with h | ⟨e', he', h⟩
          · exact Or.inl h
          · exact Or.inr ⟨e', List.mem_cons_of_mem _ he', h⟩
      · simp only [List.map_cons, List.sum_cons, ih.2]; omega

omit hfl hf hd in
theorem addAll_mem (l : List (List Multinom)) (dict : PolyDict) :
    (∀ e ∈ l.foldl (fun d ms => addProduct ms d) dict, e.2.1 ∈ l ∨ ∃ e' ∈ dict, e'.2.1 = e.2.1) ∧
      ((l.foldl (fun d ms => addProduct ms d) dict).map (fun e => e.2.2)).sum = (dict.map (fun e => e.2.2)).sum + l.length := by
  induction l generalizing dict with
  | nil => exact ⟨fun e he => Or.inr ⟨e, he, rfl⟩, by simp⟩
  | cons ms l ih =>
    rw [List.foldl_cons]
    obtain ⟨i1, i2⟩ := ih (addProduct ms dict)
    obtain ⟨a1, a2⟩ := addProduct_mem ms dict
    refine ⟨fun e he => ?_, by rw [i2, a2, List.length_cons]; omega⟩
    rcases i1 e he with h | ⟨e', he', h⟩
    · exact Or.inl (List.mem_cons_of_mem _ h)
    · rcases a1 e' he' with h' | ⟨e'', he'', h'⟩
      · exact Or.inl (by rw [← h, h']; simp)
      · exact Or.inr ⟨e'', he'', h'.trans h⟩

omit hfl hf hd in
theorem opFactors_small (cs : List (List Nat)) (coef : Nat → Nat) (hc : ∀ r, coef r ≤ d) :
    ∀ m ∈ opFactors flags ((cs.map List.length).foldl (fun d r => bumpKey (r, coef r) d) []), m.arrowings = flags ∧ m.coeff ≤ d := by
  intro m hm
  obtain ⟨kv, hkv, rfl⟩ := List.mem_map.mp hm
  refine ⟨rfl, ?_⟩
  have hinv := bumpAll_inv (fun kv => kv.1.2 ≤ d) coef (cs.map List.length) [] (fun r _ => hc r) (fun _ _ h => h) (by simp)
  exact hinv kv hkv

theorem polyaF_of_rad {concs : List Nat} (hk : concs.length = k) (hn : 1 ≤ concs.sum) {group : List Op} (hne : group ≠ [])
    (h1 : ∀ g ∈ group, g.1.Perm (List.range concs.sum)) (h2 : ∀ g ∈ group, ∃ e, e ≤ d ∧ g.2.Perm (List.range e))
    {arrowings : Arrowings} (hfla : arrowings.toFlags concs.length = flags) {N : Nat} (hrad : RadSum concs group flags N)
    (hB : max concs.sum group.length * allConfs d flags concs ≤ 2 ^ 53) :
    polyaF fl concs group arrowings = some (.ok N) := by
  subst hk
  have hB1 : concs.sum * allConfs d flags concs ≤ 2 ^ 53 := le_trans (Nat.mul_le_mul_right _ (le_max_left _ _)) hB
  have hB2 : group.length * allConfs d flags concs ≤ 2 ^ 53 := le_trans (Nat.mul_le_mul_right _ (le_max_right _ _)) hB
  have hD0 := allConfs_pos hd flags concs
  have hP : ∀ g, ∃ cs, g ∈ group → CycleDecomp g.1 cs ∧ opPolynomials g = some (.ok ((cs.map List.length).foldl
      (fun d r => bumpKey (r, fixedDirs g.2 r) d) [])) := by
    intro g
    by_cases hg : g ∈ group
    · obtain ⟨e, -, he⟩ := h2 g hg
      obtain ⟨cs, hcs⟩ := opPolynomials_ok (h1 g hg) he
      exact ⟨cs, fun _ => hcs⟩
    · exact ⟨[], fun h => absurd h hg⟩
  choose cs hcs using hP
  have hr := hrad cs (fun g hg => (hcs g hg).1)
  have hmap : group.map (fun g => (zeroBase g.1, zeroBase g.2)) = group := by
    conv_rhs => rw [← List.map_id group]
    apply List.map_congr_left
    intro g hg
    obtain ⟨e, -, he⟩ := h2 g hg
    rw [zeroBase_perm (h1 g hg), zeroBase_perm he]; rfl
  have hcyc := groupToCyclic_ok hn hne h1 _ (fun g hg => (hcs g hg).2)
  have hok : ∀ ms ∈ group.map (fun g => opFactors flags (((cs g).map List.length).foldl
      (fun d r => bumpKey (r, fixedDirs g.2 r) d) [])), FloatOk concs.length concs.sum d flags ms := by
    intro ms hms
    obtain ⟨g, hg, rfl⟩ := List.mem_map.mp hms
    refine ⟨opFactors_ok hn hf (h1 g hg) (hcs g hg).1 _, opFactors_small _ _ ?_⟩
    intro r
    obtain ⟨e, hle, he⟩ := h2 g hg
    unfold fixedDirs
    refine le_trans List.countP_le_length ?_
    rw [List.length_range, perm_range_length he]
    exact hle
  obtain ⟨a1, a2⟩ := addAll_ok concs _ (fun ms hms => (hok ms hms).prod) [] (by simp)
  obtain ⟨b1, b2⟩ := addAll_mem (group.map (fun g => opFactors flags (((cs g).map List.length).foldl
      (fun d r => bumpKey (r, fixedDirs g.2 r) d) []))) []
  generalize hdict : (group.map (fun g => opFactors flags (((cs g).map List.length).foldl
      (fun d r => bumpKey (r, fixedDirs g.2 r) d) []))).foldl (fun d ms => addProduct ms d) [] = dict at a1 a2 b1 b2
  have hval : dictVal concs.length concs [] = 0 := rfl
  have hdv : dictVal concs.length concs dict = group.length * N := by
    rw [a2, hval, zero_add, List.map_map, ← hr]
    congr 1
    apply List.map_congr_left
    intro g _
    show prodCoeff _ _ _ = _
    unfold prodCoeff
    rw [opFactors_poly]
  have hdvle : dictVal concs.length concs dict ≤ group.length * allConfs d flags concs := by
    rw [a2, hval, zero_add]
    refine le_trans (List.sum_le_card_nsmul _ (allConfs d flags concs) ?_) ?_
    · intro x hx
      obtain ⟨ms, hms, rfl⟩ := List.mem_map.mp hx
      exact prodCoeff_le (hok ms hms).prod hd hf (hok ms hms).small rfl rfl
    · simp
  have hsc := sumCoeffsF_ok hfl hf hd (t := concs) rfl hn hB1 dict (fun e he => ⟨?_, ?_⟩) (acc := .int 0) (a := 0)
    (by simp [PyNum.val]) (by rw [Nat.zero_add]; exact le_trans hdvle hB2)
  rotate_left
  · rcases b1 e he with h | ⟨e', he', -⟩
    · exact hok _ h
    · cases he'
  · refine le_trans (Nat.mul_le_mul_right _ ?_) hB2
    have : e.2.2 ≤ (dict.map (fun e => e.2.2)).sum :=
      List.single_le_sum (fun _ _ => Nat.zero_le _) _ (List.mem_map_of_mem (f := fun e => e.2.2) he)
    rw [b2] at this
    simpa using this
  obtain ⟨v, hv, hvv⟩ := hsc
  rw [Nat.zero_add, hdv] at hvv
  have hg0 : 0 < group.length := List.length_pos_iff.mpr hne
  have hgB : group.length ≤ 2 ^ 53 := le_trans (Nat.le_mul_of_pos_right _ hD0) hB2
  have hdiv := div_val hfl hvv (y := .float (fl group.length)) (b := group.length) (c := N)
    (by simp only [PyNum.val]; exact hfl _ hgB) hg0 (Nat.mul_comm _ _) (by rw [← hdv]; exact le_trans hdvle hB2) hgB
  have hfinal : polyaF fl concs group arrowings = some (.ok (v.div fl (.float (fl group.length))).toInt) := by
    cases group with
    | nil => exact absurd rfl hne
    | cons g0 rest =>
      unfold polyaF
      have hlen : concs.sum = g0.1.length := by rw [perm_range_length (h1 g0 (by simp))]
      simp only [hlen, ne_eq, not_true_eq_false, if_false]
      rw [hmap, hcyc]
      simp only [hfla]
      rw [List.foldl_map]
      rw [List.foldl_map] at hdict
      unfold opFactors at hdict
      rw [hdict, hv]
  rw [hfinal, toInt_val hdiv]

end
end Phenum
