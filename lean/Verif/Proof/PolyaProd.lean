import Verif.Proof.PolyaSeq
/-
`Product.coeff` (C18), assembled.
-/
namespace Phenum
open Spec MvPolynomial

/-- degree of an exponent vector -/
def deg {k : Nat} (b : Fin k →₀ ℕ) : Nat := ∑ j, b j

theorem deg_add {k : Nat} (a b : Fin k →₀ ℕ) : deg (a + b) = deg a + deg b := by
  unfold deg; simp [Finset.sum_add_distrib]

theorem trunc_prod {k : Nat} {ι : Type} (T : Fin k →₀ ℕ) (F F' : ι → MvPolynomial (Fin k) ℕ) (ps : ι → Nat)
    (is : List ι) (H1 : ∀ i ∈ is, ∀ b ≤ T, deg b = ps i → coeff b (F' i) = coeff b (F i))
    (H2 : ∀ i ∈ is, ∀ b, deg b ≠ ps i → coeff b (F i) = 0)
    (H3 : ∀ i ∈ is, ∀ b, ps i < deg b → coeff b (F' i) = 0) :
    (∀ b ≤ T, (is.map ps).sum ≤ deg b → coeff b (is.map F').prod = coeff b (is.map F).prod) ∧
    ∀ b, (is.map ps).sum < deg b → coeff b (is.map F').prod = 0 := by
  induction is with
  | nil =>
    refine ⟨fun _ _ _ => rfl, ?_⟩
    intro b hb
    simp only [List.map_nil, List.prod_nil, coeff_one, List.sum_nil] at hb ⊢
    rw [if_neg]
    rintro rfl
    simp [deg] at hb
  | cons i is ih =>
    obtain ⟨ih1, ih2⟩ := ih (fun j hj => H1 j (List.mem_cons_of_mem _ hj))
      (fun j hj => H2 j (List.mem_cons_of_mem _ hj)) (fun j hj => H3 j (List.mem_cons_of_mem _ hj))
    have h1 := H1 i (by simp)
    have h2 := H2 i (by simp)
    have h3 := H3 i (by simp)
    simp only [List.map_cons, List.prod_cons, List.sum_cons]
    constructor
    · intro b hb hd
      rw [coeff_mul, coeff_mul]
      apply Finset.sum_congr rfl
      rintro ⟨x, y⟩ hxy
      rw [Finset.mem_antidiagonal] at hxy
      have hxT : x ≤ T := le_trans (by rw [← hxy]; exact le_self_add) hb
      have hyT : y ≤ T := le_trans (by rw [← hxy]; exact le_add_self) hb
      have hdd : deg x + deg y = deg b := by rw [← deg_add, hxy]
      rcases lt_trichotomy (deg x) (ps i) with hlt | heq | hgt
      · simp only
        rw [h2 x (by omega), ih2 y (by omega)]
        simp
      · simp only
        rw [h1 x hxT heq, ih1 y hyT (by omega)]
      · simp only
        rw [h3 x hgt, h2 x (by omega)]
        simp
    · intro b hd
      rw [coeff_mul]
      apply Finset.sum_eq_zero
      rintro ⟨x, y⟩ hxy
      rw [Finset.mem_antidiagonal] at hxy
      have hdd : deg x + deg y = deg b := by rw [← deg_add, hxy]
      simp only
      by_cases hx : ps i < deg x
      · rw [h3 x hx, zero_mul]
      · rw [ih2 y (by omega), mul_zero]

theorem expo_inj {k : Nat} {a b : List Nat} (ha : a.length = k) (hb : b.length = k) (h : expo k a = expo k b) :
    a = b := by
  apply List.ext_getElem (by omega)
  intro i h1 h2
  have := DFunLike.congr_fun h ⟨i, by omega⟩
  simpa [expo_apply, h1, h2] using this

/-- the polynomial of the explored sequences -/
noncomputable def seqPoly (k : Nat) (ts : List Nat) (m : Multinom) : MvPolynomial (Fin k) ℕ :=
  ((seqsOf m ts).map (fun a => monomial (expo k a) (nck m a))).sum

theorem coeff_list_sum {k : Nat} {α : Type} (b : Fin k →₀ ℕ) (l : List α) (f : α → MvPolynomial (Fin k) ℕ) :
    coeff b (l.map f).sum = (l.map (fun a => coeff b (f a))).sum := by
  induction l with
  | nil => simp
  | cons a l ih => simp [ih]

theorem sum_map_single {α : Type} (l : List α) (f : α → Nat) (a : α) (hl : l.Nodup) (ha : a ∈ l)
    (h : ∀ x ∈ l, x ≠ a → f x = 0) : (l.map f).sum = f a := by
  induction l with
  | nil => simp at ha
  | cons x l ih =>
    rw [List.nodup_cons] at hl
    rw [List.map_cons, List.sum_cons]
    rcases List.mem_cons.mp ha with rfl | ha
    · have : (l.map f).sum = 0 := by
        apply List.sum_eq_zero
        intro y hy
        obtain ⟨z, hz, rfl⟩ := List.mem_map.mp hy
        apply h z (List.mem_cons_of_mem _ hz)
        rintro rfl
        exact hl.1 hz
      omega
    · have hx : f x = 0 := h x (by simp) (by rintro rfl; exact hl.1 ha)
      rw [ih hl.2 ha (fun y hy => h y (List.mem_cons_of_mem _ hy))]
      omega

theorem mem_seqsOf_length {k : Nat} {m : Multinom} (hm : MnOk k m) {ts a : List Nat} (hts : ts.length + 1 = k)
    (ha : a ∈ seqsOf m ts) : a.length = k ∧ a.sum ≤ m.powersum := by
  obtain ⟨root, r, rfl, -, -, h4, h5⟩ := (mem_seqsOf hm.power hm.exponent ts a).mp ha
  refine ⟨?_, by simpa using h5⟩
  rw [List.length_cons, h4.length_eq, hts]

theorem seqPoly_high {k : Nat} {m : Multinom} (hm : MnOk k m) {ts : List Nat} (hts : ts.length + 1 = k)
    (b : Fin k →₀ ℕ) (hb : m.powersum < deg b) : coeff b (seqPoly k ts m) = 0 := by
  unfold seqPoly
  rw [coeff_list_sum]
  apply List.sum_eq_zero
  intro y hy
  obtain ⟨a, ha, rfl⟩ := List.mem_map.mp hy
  obtain ⟨h1, h2⟩ := mem_seqsOf_length hm hts ha
  rw [coeff_monomial, if_neg]
  rintro rfl
  unfold deg at hb
  rw [expo_sum h1] at hb
  omega

theorem seqPoly_coeff {k : Nat} {m : Multinom} (hm : MnOk k m) {t0 : Nat} {ts : List Nat} (hts : ts.length + 1 = k)
    (b : Fin k →₀ ℕ) (hT : b ≤ expo k (t0 :: ts)) (hb : deg b = m.powersum) :
    coeff b (seqPoly k ts m) = coeff b (mnPoly k m) := by
  -- the exponent vector as a list
  obtain ⟨a, hal, rfl⟩ : ∃ a : List Nat, a.length = k ∧ expo k a = b := by
    refine ⟨List.ofFn (fun j => b j), by simp, ?_⟩
    ext j
    simp [expo_apply]
  have hs : a.sum = m.powersum := by rw [← hb]; unfold deg; rw [expo_sum hal]
  unfold seqPoly
  rw [coeff_list_sum, mnPoly_coeff_expo hm hal hs]
  by_cases hmem : a ∈ seqsOf m ts
  · rw [sum_map_single _ _ a (seqsOf_nodup hm.power ts) hmem]
    · rw [coeff_monomial, if_pos rfl]
    · intro x hx hne
      rw [coeff_monomial, if_neg]
      intro e
      exact hne (expo_inj (mem_seqsOf_length hm hts hx).1 hal e)
  · have h0 : nck m a = 0 := by
      unfold nck
      rw [if_neg]
      intro hall
      apply hmem
      rw [List.all_eq_true] at hall
      simp only [decide_eq_true_eq] at hall
      cases a with
      | nil => simp at hal; omega
      | cons root r =>
        rw [mem_seqsOf hm.power hm.exponent]
        refine ⟨root, r, rfl, Nat.dvd_of_mod_eq_zero (hall root (by simp)),
          fun x hx => Nat.dvd_of_mod_eq_zero (hall x (List.mem_cons_of_mem _ hx)), ?_, ?_⟩
        · rw [List.forall₂_iff_get]
          rw [List.length_cons] at hal
          refine ⟨by omega, ?_⟩
          intro i h1 h2
          have := hT ⟨i + 1, by omega⟩
          simpa [expo_apply, h1, h2] using this
        · rw [List.sum_cons] at hs; omega
    rw [h0]
    apply List.sum_eq_zero
    intro y hy
    obtain ⟨x, hx, rfl⟩ := List.mem_map.mp hy
    rw [coeff_monomial, if_neg]
    intro e
    have := expo_inj (mem_seqsOf_length hm hts hx).1 hal e
    rw [this] at hx
    exact hmem hx

theorem mnPoly_deg {k : Nat} {m : Multinom} (hm : MnOk k m) (b : Fin k →₀ ℕ) (hb : deg b ≠ m.powersum) :
    coeff b (mnPoly k m) = 0 := by
  rw [mnPoly_coeff hm.power, if_neg]
  exact fun h => hb h.2

theorem expo_colSums {k : Nat} {s : List (List Nat)} (hs : s ≠ []) :
    expo k (colSums k s) = (s.map (expo k)).sum := by
  ext j
  rw [expo_apply]
  unfold colSums
  rw [if_neg (by simpa using hs), List.getD_eq_getElem?_getD, List.getElem?_map, List.getElem?_range j.2]
  clear hs
  induction s with
  | nil => simp
  | cons a s ih => simp_all [expo_apply]

theorem prod_monomial {k : Nat} {ι : Type} (w : ι → List Nat → ℕ) (is : List ι) (s : List (List Nat))
    (h : s.length = is.length) :
    ((is.zip s).map (fun p => (monomial (expo k p.2) (w p.1 p.2) : MvPolynomial (Fin k) ℕ))).prod =
      monomial (s.map (expo k)).sum ((is.zip s).map (fun p => w p.1 p.2)).prod := by
  induction is generalizing s with
  | nil =>
    cases s with
    | nil => simp
    | cons => simp at h
  | cons i is ih =>
    cases s with
    | nil => simp at h
    | cons a s =>
      simp only [List.zip_cons_cons, List.map_cons, List.prod_cons, List.sum_cons]
      rw [ih s (by simpa using h), monomial_mul]

/-- The sum over all explored combinations, as a natural number. -/
theorem explored_eq {k : Nat} {ms : List Multinom} (hne : ms ≠ []) (t0 : Nat) {ts : List Nat}
    (hts : ts.length + 1 = k) :
    ((pyProduct (ms.map (fun m => seqsOf m ts))).map (fun s =>
      if colSums k s = t0 :: ts then ((ms.zip s).map (fun p => nck p.1 p.2)).prod else 0)).sum =
    coeff (expo k (t0 :: ts)) (ms.map (seqPoly k ts)).prod := by
  unfold seqPoly
  rw [← pyProduct_sum (fun m a => (monomial (expo k a) (nck m a) : MvPolynomial (Fin k) ℕ)) (fun m => seqsOf m ts),
    coeff_list_sum]
  congr 1
  apply List.map_congr_left
  intro s hs
  have hl := pyProduct_length _ s hs
  rw [List.length_map] at hl
  have hsne : s ≠ [] := by
    rintro rfl
    exact hne (List.length_eq_zero_iff.mp hl.symm)
  rw [prod_monomial nck ms s hl, coeff_monomial, ← expo_colSums hsne]
  have hcl : (colSums k s).length = k := by
    unfold colSums
    rw [if_neg (by simpa using hsne)]
    simp
  by_cases h : colSums k s = t0 :: ts
  · rw [if_pos h, if_pos (by rw [h])]
  · rw [if_neg h, if_neg (fun e => h (expo_inj hcl (by simpa using hts) e))]

theorem sumSequences_head {ms : List Multinom} (hne : ms ≠ []) {t0 : Nat} {ts : List Nat} {seq : List Nat}
    (hl : seq.length = ms.length) (hsum : seq.sum ≠ t0) :
    sumSequences ms (t0 :: ts)
      ((seq.zip ms).map (fun p => seqExpand p.2.possible p.2.powersum ts p.1 p.1)) = 0 := by
  unfold sumSequences
  apply List.sum_eq_zero
  intro y hy
  obtain ⟨s, hs, rfl⟩ := List.mem_map.mp hy
  rw [if_neg]
  intro hc
  apply hsum
  have hf := (mem_pyProduct _ s).mp hs
  have hsl := hf.length_eq
  have hsne : s ≠ [] := by
    rintro rfl
    rw [List.length_map, List.length_zip] at hsl
    apply hne
    apply List.length_eq_zero_iff.mp
    simp at hsl
    omega
  have hhead : s.map (fun x => x.getD 0 0) = seq := by
    clear hc hsum hsl hy hs hsne hne
    induction seq generalizing ms s with
    | nil =>
      simp only [List.zip_nil_left, List.map_nil] at hf
      cases hf
      rfl
    | cons v seq ih =>
      cases ms with
      | nil => simp at hl
      | cons m ms =>
        rw [List.zip_cons_cons, List.map_cons] at hf
        cases hf with
        | @cons a _ s' _ h1 h2 =>
          have hh := seqExpand_head m ts v v a h1
          rw [List.map_cons, ih (by simpa using hl) s' h2]
          congr 1
          cases a with
          | nil => simp at hh
          | cons a as => simpa using hh
  unfold colSums at hc
  rw [if_neg (by simpa using hsne), List.length_cons, List.range_succ_eq_map, List.map_cons] at hc
  rw [hhead] at hc
  exact (List.cons.inj hc).1

theorem sum_filter_zero {α : Type} (l : List α) (p : α → Bool) (f : α → Rat) (h : ∀ a ∈ l, p a = false → f a = 0) :
    ((l.filter p).map f).sum = (l.map f).sum := by
  induction l with
  | nil => rfl
  | cons a l ih =>
    have ih' := ih (fun x hx => h x (List.mem_cons_of_mem _ hx))
    by_cases hp : p a = true
    · rw [List.filter_cons_of_pos hp, List.map_cons, List.map_cons, List.sum_cons, List.sum_cons, ih']
    · rw [List.filter_cons_of_neg hp, List.map_cons, List.sum_cons, ih', h a (by simp) (by simpa using hp), zero_add]

/-- the sum over all explored combinations is the coefficient -/
theorem explored_general {k : Nat} {ms : List Multinom} (hms : ∀ m ∈ ms, MnOk k m) (hne : ms ≠ [])
    {targets : List Nat} (hk : targets.length = k) (hsum : targets.sum = (ms.map Multinom.powersum).sum) :
    ∀ t0 ts, targets = t0 :: ts →
      (((pyProduct (ms.map Multinom.possible)).filter (fun s => decide (s.sum = t0))).map (fun seq =>
        sumSequences ms targets
          ((seq.zip ms).map (fun p => seqExpand p.2.possible p.2.powersum ts p.1 p.1)))).sum =
      ((coeff (expo k targets) (ms.map (mnPoly k)).prod : ℕ) : ℚ) := by
    rintro t0 ts rfl
    have hts : ts.length + 1 = k := by simpa using hk
    rw [sum_filter_zero]
    · have e := pyProduct_flatMap_sum (fun m : Multinom => m.possible)
        (fun m root => seqExpand m.possible m.powersum ts root root) ms
        (fun seq => if colSums (t0 :: ts).length seq = t0 :: ts then
          ((ms.zip seq).map (fun p => p.1.nchoosekm p.2)).prod else 0)
      unfold sumSequences
      rw [e]
      have hF : (fun seq => if colSums (t0 :: ts).length seq = t0 :: ts then
            ((ms.zip seq).map (fun p => p.1.nchoosekm p.2)).prod else 0) =
          fun seq => (((if colSums k seq = t0 :: ts then ((ms.zip seq).map (fun p => nck p.1 p.2)).prod else 0 : ℕ)) : ℚ) := by
        funext seq
        rw [hk]
        split
        · simp only [nchoosekm_eq, Nat.cast_list_prod, List.map_map]
          rfl
        · simp
      rw [hF]
      have e2 := explored_eq hne t0 hts
      have htr := (trunc_prod (expo k (t0 :: ts)) (mnPoly k) (seqPoly k ts) Multinom.powersum ms
        (fun m hm b hb hd => seqPoly_coeff (hms m hm) hts b hb hd)
        (fun m hm b hb => mnPoly_deg (hms m hm) b hb)
        (fun m hm b hb => seqPoly_high (hms m hm) hts b hb)).1 (expo k (t0 :: ts)) le_rfl
        (by unfold deg; rw [expo_sum hk, hsum])
      rw [← htr, ← e2, Nat.cast_list_sum, List.map_map]
      rfl
    · intro seq hseq hp
      have hl := pyProduct_length _ seq hseq
      rw [List.length_map] at hl
      exact sumSequences_head hne hl (by simpa using hp)

/-- C18 in terms of the polynomials -/
theorem productCoeff_eq {k : Nat} {ms : List Multinom} (hms : ∀ m ∈ ms, MnOk k m) (hne : ms ≠ []) (c : Nat)
    {targets : List Nat} (hk : targets.length = k) (hk0 : 0 < k) (hsum : targets.sum = (ms.map Multinom.powersum).sum) :
    productCoeff c targets ms = .ok (((c * coeff (expo k targets) (ms.map (mnPoly k)).prod : ℕ) : ℚ)) := by
  have general := explored_general hms hne hk hsum
  match ms, hne, hms, hsum, general with
  | [m], _, hms, hsum, _ =>
    have hm := hms m (by simp)
    simp only [List.map_cons, List.map_nil, List.sum_cons, List.sum_nil, add_zero, List.prod_cons, List.prod_nil,
      mul_one] at hsum ⊢
    rw [mnPoly_coeff_expo hm hk hsum]
    simp only [productCoeff]
    split
    · rename_i hall
      have : nck m targets = 0 := by
        unfold nck
        rw [if_neg]
        intro h0
        rw [List.all_eq_true] at hall h0
        simp only [decide_eq_true_eq] at hall h0
        have : targets.sum = 0 := by
          apply List.sum_eq_zero
          intro t ht
          have h1 := hall t ht
          have h2 := h0 t ht
          rwa [Nat.mod_eq_of_lt (by omega)] at h2
        have h3 : 1 * 1 ≤ m.powersum := Nat.mul_le_mul hm.power hm.exponent
        omega
      rw [this]; simp
    · rw [nchoosekm_eq]
      push_cast
      rw [mul_comm]
  | m1 :: m2 :: ms', _, _, _, general =>
    match targets, hk, general with
    | [], hk, _ => simp at hk; omega
    | t0 :: ts, _, general =>
      simp only [productCoeff]
      rw [general t0 ts rfl]
      rw [show ((coeff (expo k (t0 :: ts)) ((m1 :: m2 :: ms').map (mnPoly k)).prod : ℕ) : ℚ) =
        (((coeff (expo k (t0 :: ts)) ((m1 :: m2 :: ms').map (mnPoly k)).prod : ℕ) : ℤ) : ℚ) by push_cast; rfl,
        Rat.floor_intCast]
      push_cast
      rw [mul_comm]

end Phenum
