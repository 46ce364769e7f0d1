import Verif.Proof.PolyaProd
import Verif.Proof.Fixed
import Verif.Proof.Burnside
/-
`polya` counts orbits: the generic statement.
-/
namespace Phenum
open Spec MvPolynomial

/-! the dictionary of one operation -/

theorem bumpKey_prod {M : Type} [CommMonoid M] (G : Nat × Nat → M) (key : Nat × Nat) (d : List ((Nat × Nat) × Nat)) :
    ((bumpKey key d).map (fun kv => G kv.1 ^ kv.2)).prod = (d.map (fun kv => G kv.1 ^ kv.2)).prod * G key := by
  induction d with
  | nil => simp [bumpKey]
  | cons kv d ih =>
    obtain ⟨k, v⟩ := kv
    simp only [bumpKey]
    split
    · rename_i h
      subst h
      simp only [List.map_cons, List.prod_cons, pow_succ]
      rw [mul_right_comm]
    · simp only [List.map_cons, List.prod_cons]
      rw [ih, mul_assoc]

theorem bumpAll_prod {M : Type} [CommMonoid M] (G : Nat × Nat → M) (coef : Nat → Nat) (lens : List Nat)
    (d : List ((Nat × Nat) × Nat)) :
    ((lens.foldl (fun d r => bumpKey (r, coef r) d) d).map (fun kv => G kv.1 ^ kv.2)).prod =
      (d.map (fun kv => G kv.1 ^ kv.2)).prod * (lens.map (fun r => G (r, coef r))).prod := by
  induction lens generalizing d with
  | nil => simp
  | cons r lens ih => rw [List.foldl_cons, ih, bumpKey_prod, List.map_cons, List.prod_cons, mul_assoc]

theorem bumpKey_sum (key : Nat × Nat) (d : List ((Nat × Nat) × Nat)) :
    ((bumpKey key d).map (fun kv => kv.1.1 * kv.2)).sum = (d.map (fun kv => kv.1.1 * kv.2)).sum + key.1 := by
  induction d with
  | nil => simp [bumpKey]
  | cons kv d ih =>
    obtain ⟨k, v⟩ := kv
    simp only [bumpKey]
    split
    · rename_i h
      subst h
      simp only [List.map_cons, List.sum_cons, Nat.mul_add, Nat.mul_one]
      omega
    · simp only [List.map_cons, List.sum_cons]
      rw [ih]; omega

theorem bumpAll_sum (coef : Nat → Nat) (lens : List Nat) (d : List ((Nat × Nat) × Nat)) :
    ((lens.foldl (fun d r => bumpKey (r, coef r) d) d).map (fun kv => kv.1.1 * kv.2)).sum =
      (d.map (fun kv => kv.1.1 * kv.2)).sum + lens.sum := by
  induction lens generalizing d with
  | nil => simp
  | cons r lens ih => rw [List.foldl_cons, ih, bumpKey_sum, List.sum_cons]; simp only; omega

theorem bumpKey_inv (P : (Nat × Nat) × Nat → Prop) (key : Nat × Nat) (d : List ((Nat × Nat) × Nat))
    (h1 : P (key, 1)) (h2 : ∀ k v, P (k, v) → P (k, v + 1)) (hd : ∀ kv ∈ d, P kv) : ∀ kv ∈ bumpKey key d, P kv := by
  induction d with
  | nil => intro kv hkv; simp only [bumpKey, List.mem_singleton] at hkv; rw [hkv]; exact h1
  | cons a d ih =>
    obtain ⟨k, v⟩ := a
    intro kv hkv
    simp only [bumpKey] at hkv
    split at hkv
    · rcases List.mem_cons.mp hkv with rfl | hkv
      · exact h2 _ _ (hd (k, v) (by simp))
      · exact hd kv (List.mem_cons_of_mem _ hkv)
    · rcases List.mem_cons.mp hkv with rfl | hkv
      · exact hd _ (by simp)
      · exact ih (fun kv hkv => hd kv (List.mem_cons_of_mem _ hkv)) kv hkv

theorem bumpAll_inv (P : (Nat × Nat) × Nat → Prop) (coef : Nat → Nat) (lens : List Nat) (d : List ((Nat × Nat) × Nat))
    (h1 : ∀ r ∈ lens, P ((r, coef r), 1)) (h2 : ∀ k v, P (k, v) → P (k, v + 1)) (hd : ∀ kv ∈ d, P kv) :
    ∀ kv ∈ lens.foldl (fun d r => bumpKey (r, coef r) d) d, P kv := by
  induction lens generalizing d with
  | nil => exact hd
  | cons r lens ih =>
    rw [List.foldl_cons]
    exact ih _ (fun r' hr' => h1 r' (List.mem_cons_of_mem _ hr'))
      (bumpKey_inv P (r, coef r) d (h1 r (by simp)) h2 hd)

/-- number of directions fixed by the `r`-th power of an arrow permutation -/
def fixedDirs (τ : List Nat) (r : Nat) : Nat := (List.range τ.length).countP (fun d => decide ((pf τ)^[r] d = d))

/-- The polynomial dict of one operation in terms of its cycles. -/
theorem opPolynomials_ok {n d : Nat} {op : Op} (h1 : op.1.Perm (List.range n)) (h2 : op.2.Perm (List.range d)) :
    ∃ cs, CycleDecomp op.1 cs ∧ opPolynomials op = some (.ok ((cs.map List.length).foldl
      (fun d r => bumpKey (r, fixedDirs op.2 r) d) [])) := by
  obtain ⟨cs, e1, hc⟩ := opCycles_ok h1
  obtain ⟨ca, e2, ha⟩ := opCycles_ok h2
  refine ⟨cs, hc, ?_⟩
  unfold opPolynomials
  rw [e1, e2]
  simp only
  congr 2
  congr 1
  funext d' r
  congr 2
  rw [decomp_count h2 ha r]
  unfold fixedDirs
  rw [perm_range_length h2]

/-- the factors of one operation -/
def opFactors (flags : List Bool) (poly : List ((Nat × Nat) × Nat)) : List Multinom :=
  poly.map (fun kv => (⟨kv.1.1, kv.1.2, flags, kv.2⟩ : Multinom))

/-- a product of factors for `n` sites and `k` colours -/
structure ProdOk (k n : Nat) (ms : List Multinom) : Prop where
  fac : ∀ m ∈ ms, MnOk k m
  ne : ms ≠ []
  sum : (ms.map Multinom.powersum).sum = n

theorem opFactors_ok {k n : Nat} (hn : 1 ≤ n) {flags : List Bool} (hf : flags.length = k) {σ : List Nat}
    (hσ : σ.Perm (List.range n)) {cs : List (List Nat)} (hc : CycleDecomp σ cs) (coef : Nat → Nat) :
    ProdOk k n (opFactors flags ((cs.map List.length).foldl (fun d r => bumpKey (r, coef r) d) [])) := by
  have hlen : (cs.map List.length).sum = n := by
    rw [← List.length_flatten, hc.1.length_eq, List.length_range, perm_range_length hσ]
  have hinv := bumpAll_inv (fun kv => 1 ≤ kv.1.1 ∧ 1 ≤ kv.2) coef (cs.map List.length) []
    (by
      intro r hr
      obtain ⟨c, hcm, rfl⟩ := List.mem_map.mp hr
      exact ⟨List.length_pos_iff.mpr (hc.2 c hcm).1, le_rfl⟩)
    (fun k v h => ⟨h.1, by simp⟩) (by simp)
  have hsum := bumpAll_sum coef (cs.map List.length) []
  simp only [List.map_nil, List.sum_nil, zero_add] at hsum
  have hsum' : ((opFactors flags ((cs.map List.length).foldl (fun d r => bumpKey (r, coef r) d) [])).map
      Multinom.powersum).sum = n := by
    unfold opFactors
    rw [List.map_map, ← hlen, ← hsum]
    rfl
  refine ⟨?_, ?_, hsum'⟩
  · intro m hm
    obtain ⟨kv, hkv, rfl⟩ := List.mem_map.mp hm
    exact ⟨(hinv kv hkv).1, (hinv kv hkv).2, hf⟩
  · intro h
    rw [h] at hsum'
    simp at hsum'
    omega

/-- the wanted coefficient -/
noncomputable def prodCoeff (k : Nat) (t : List Nat) (ms : List Multinom) : ℕ :=
  coeff (expo k t) (ms.map (mnPoly k)).prod

theorem opFactors_poly (k : Nat) (flags : List Bool) (cs : List (List Nat)) (coef : Nat → Nat) :
    ((opFactors flags ((cs.map List.length).foldl (fun d r => bumpKey (r, coef r) d) [])).map (mnPoly k)).prod =
      (cs.map (fun c => ∑ j : Fin k, C (if flags.getD j false then coef c.length else 1) *
        (X j : MvPolynomial (Fin k) ℕ) ^ c.length)).prod := by
  have := bumpAll_prod (fun key : Nat × Nat => ∑ j : Fin k, C (if flags.getD j false then key.2 else 1) *
        (X j : MvPolynomial (Fin k) ℕ) ^ key.1) coef (cs.map List.length) []
  simp only [List.map_nil, List.prod_nil, one_mul, List.map_map] at this
  unfold opFactors
  rw [List.map_map]
  exact this

/-! merging equal products -/

theorem insertMn_perm (m : Multinom) (l : List Multinom) : (insertMn m l).Perm (m :: l) := by
  induction l with
  | nil => exact List.Perm.refl _
  | cons x l ih =>
    simp only [insertMn]
    split
    · exact List.Perm.refl _
    · exact (List.Perm.cons x ih).trans (List.Perm.swap m x l)

theorem sortMns_perm (ms : List Multinom) : (sortMns ms).Perm ms := by
  unfold sortMns
  have : ∀ acc, (ms.foldl (fun acc m => insertMn m acc) acc).Perm (acc ++ ms) := by
    induction ms with
    | nil => intro acc; simp
    | cons m ms ih =>
      intro acc
      rw [List.foldl_cons]
      refine (ih _).trans ?_
      refine ((insertMn_perm m acc).append_right ms).trans ?_
      rw [List.cons_append]
      exact List.perm_middle.symm
  simpa using this []

/-- the polynomial that is displayed -/
noncomputable def shownPoly (k : Nat) (s : List (Nat × Nat) × Nat) : MvPolynomial (Fin k) ℕ :=
  (∑ j : Fin k, C ((s.1.getD j (0, 0)).1) * X j ^ (s.1.getD j (0, 0)).2) ^ s.2

theorem mnPoly_shown {k : Nat} {m : Multinom} (hf : m.arrowings.length = k) : mnPoly k m = shownPoly k m.shown := by
  unfold mnPoly shownPoly factor Multinom.shown
  simp only
  congr 1
  apply Finset.sum_congr rfl
  intro j _
  have hj : j.1 < m.arrowings.length := by rw [hf]; exact j.2
  simp [hj]

theorem prodCoeff_key {k : Nat} (t : List Nat) {ms ms' : List Multinom} (h : ∀ m ∈ ms, m.arrowings.length = k)
    (h' : ∀ m ∈ ms', m.arrowings.length = k) (e : productKey ms = productKey ms') :
    prodCoeff k t ms = prodCoeff k t ms' := by
  have key : ∀ l : List Multinom, (∀ m ∈ l, m.arrowings.length = k) →
      (l.map (mnPoly k)).prod = ((productKey l).map (shownPoly k)).prod := by
    intro l hl
    unfold productKey
    rw [List.map_map, ← ((sortMns_perm l).map (mnPoly k)).prod_eq]
    congr 1
    apply List.map_congr_left
    intro m hm
    exact mnPoly_shown (hl m ((sortMns_perm l).mem_iff.mp hm))
  unfold prodCoeff
  rw [key ms h, key ms' h', e]

/-- the value of the dictionary of products -/
noncomputable def dictVal (k : Nat) (t : List Nat) (d : PolyDict) : ℕ :=
  (d.map (fun e => e.2.2 * prodCoeff k t e.2.1)).sum

theorem addProduct_ok {k n : Nat} (t : List Nat) {ms : List Multinom} (hms : ProdOk k n ms) (d : PolyDict)
    (hd : ∀ e ∈ d, e.1 = productKey e.2.1 ∧ ProdOk k n e.2.1) :
    (∀ e ∈ addProduct ms d, e.1 = productKey e.2.1 ∧ ProdOk k n e.2.1) ∧
      dictVal k t (addProduct ms d) = dictVal k t d + prodCoeff k t ms := by
  induction d with
  | nil =>
    refine ⟨?_, by simp [addProduct, dictVal]⟩
    intro e he
    simp only [addProduct, List.mem_singleton] at he
    subst he
    exact ⟨rfl, hms⟩
  | cons x d ih =>
    obtain ⟨key, p, c⟩ := x
    have hx := hd (key, p, c) (by simp)
    obtain ⟨ih1, ih2⟩ := ih (fun e he => hd e (List.mem_cons_of_mem _ he))
    simp only [addProduct]
    split
    · rename_i hk
      constructor
      · intro e he
        rcases List.mem_cons.mp he with rfl | he
        · exact hx
        · exact hd e (List.mem_cons_of_mem _ he)
      · have : prodCoeff k t p = prodCoeff k t ms := by
          apply prodCoeff_key t (fun m hm => (hx.2.fac m hm).flags) (fun m hm => (hms.fac m hm).flags)
          rw [← hx.1]; exact hk
        unfold dictVal
        simp only [List.map_cons, List.sum_cons, this]
        ring
    · constructor
      · intro e he
        rcases List.mem_cons.mp he with rfl | he
        · exact hx
        · exact ih1 e he
      · unfold dictVal at ih2 ⊢
        simp only [List.map_cons, List.sum_cons, ih2]
        ring

theorem addAll_ok {k n : Nat} (t : List Nat) (l : List (List Multinom)) (hl : ∀ ms ∈ l, ProdOk k n ms) (d : PolyDict)
    (hd : ∀ e ∈ d, e.1 = productKey e.2.1 ∧ ProdOk k n e.2.1) :
    (∀ e ∈ l.foldl (fun d ms => addProduct ms d) d, e.1 = productKey e.2.1 ∧ ProdOk k n e.2.1) ∧
      dictVal k t (l.foldl (fun d ms => addProduct ms d) d) = dictVal k t d + (l.map (prodCoeff k t)).sum := by
  induction l generalizing d with
  | nil => exact ⟨hd, by simp⟩
  | cons ms l ih =>
    rw [List.foldl_cons]
    obtain ⟨a1, a2⟩ := addProduct_ok t (hl ms (by simp)) d hd
    obtain ⟨b1, b2⟩ := ih (fun m hm => hl m (List.mem_cons_of_mem _ hm)) _ a1
    refine ⟨b1, ?_⟩
    rw [b2, a2, List.map_cons, List.sum_cons]
    ring

theorem sumCoeffs_ok {k n : Nat} (hk0 : 0 < k) {t : List Nat} (ht : t.length = k) (hsum : t.sum = n) (d : PolyDict)
    (hd : ∀ e ∈ d, e.1 = productKey e.2.1 ∧ ProdOk k n e.2.1) :
    sumCoeffs t d = .ok ((dictVal k t d : ℕ) : ℚ) := by
  induction d with
  | nil => simp [sumCoeffs, dictVal]
  | cons x d ih =>
    obtain ⟨key, p, c⟩ := x
    have hx := (hd (key, p, c) (by simp)).2
    simp only [sumCoeffs]
    rw [productCoeff_eq hx.fac hx.ne c ht hk0 (by rw [hsum, hx.sum]), ih (fun e he => hd e (List.mem_cons_of_mem _ he))]
    show Except.ok _ = _
    unfold dictVal prodCoeff
    simp only [List.map_cons, List.sum_cons]
    push_cast
    rfl

theorem zeroBase_perm {n : Nat} {l : List Nat} (h : l.Perm (List.range n)) : zeroBase l = l := by
  unfold zeroBase
  split
  · rfl
  · rename_i h0
    cases n with
    | zero =>
      have : l = [] := by simpa using h
      rw [this]; rfl
    | succ n => exact absurd (h.mem_iff.mpr (List.mem_range.mpr (Nat.succ_pos n))) h0

theorem groupToCyclic_ok {n : Nat} (hn : 1 ≤ n) {group : List Op} (hne : group ≠ [])
    (h1 : ∀ g ∈ group, g.1.Perm (List.range n)) (P : Op → List ((Nat × Nat) × Nat))
    (hP : ∀ g ∈ group, opPolynomials g = some (.ok (P g))) :
    groupToCyclic group = some (.ok (group.map P)) := by
  cases group with
  | nil => exact absurd rfl hne
  | cons g0 rest =>
    unfold groupToCyclic
    have h0 : 0 ∈ g0.1 := (h1 g0 (by simp)).mem_iff.mpr (List.mem_range.mpr (by omega))
    simp only [if_pos h0]
    generalize g0 :: rest = group at hP
    clear h1 h0 hne
    induction group with
    | nil => rfl
    | cons g group ih =>
      rw [List.foldr_cons, ih (fun x hx => hP x (List.mem_cons_of_mem _ hx)), hP g (by simp)]
      rfl

/-- `polya` as a sum over the operations -/
theorem polya_sum {n : Nat} (hn : 1 ≤ n) {concs : List Nat} (hsum : concs.sum = n) {group : List Op} (hne : group ≠ [])
    (h1 : ∀ g ∈ group, g.1.Perm (List.range n)) (h2 : ∀ g ∈ group, ∃ d, g.2.Perm (List.range d))
    {arrowings : Arrowings} {flags : List Bool} (hfl : arrowings.toFlags concs.length = flags)
    (hflen : flags.length = concs.length) :
    ∃ cs : Op → List (List Nat), (∀ g ∈ group, CycleDecomp g.1 (cs g)) ∧
      polya concs group arrowings = some (.ok
        ((((group.map (fun g => coeff (expo concs.length concs)
          ((cs g).map (fun c => ∑ j : Fin concs.length, C (if flags.getD j false then fixedDirs g.2 c.length else 1) *
            (X j : MvPolynomial (Fin concs.length) ℕ) ^ c.length)).prod)).sum : ℕ) : ℚ) / (group.length : ℚ)).floor) := by
  have hk0 : 0 < concs.length := by
    cases concs with
    | nil => simp at hsum; omega
    | cons => simp
  have hP : ∀ g, ∃ cs, g ∈ group → CycleDecomp g.1 cs ∧ opPolynomials g = some (.ok ((cs.map List.length).foldl
      (fun d r => bumpKey (r, fixedDirs g.2 r) d) [])) := by
    intro g
    by_cases hg : g ∈ group
    · obtain ⟨d, hd⟩ := h2 g hg
      obtain ⟨cs, hcs⟩ := opPolynomials_ok (h1 g hg) hd
      exact ⟨cs, fun _ => hcs⟩
    · exact ⟨[], fun h => absurd h hg⟩
  choose cs hcs using hP
  refine ⟨cs, fun g hg => (hcs g hg).1, ?_⟩
  have hmap : group.map (fun g => (zeroBase g.1, zeroBase g.2)) = group := by
    conv_rhs => rw [← List.map_id group]
    apply List.map_congr_left
    intro g hg
    obtain ⟨d, hd⟩ := h2 g hg
    rw [zeroBase_perm (h1 g hg), zeroBase_perm hd]; rfl
  have hcyc := groupToCyclic_ok hn hne h1 _ (fun g hg => (hcs g hg).2)
  have hok : ∀ ms ∈ group.map (fun g => opFactors flags (((cs g).map List.length).foldl
      (fun d r => bumpKey (r, fixedDirs g.2 r) d) [])), ProdOk concs.length n ms := by
    intro ms hms
    obtain ⟨g, hg, rfl⟩ := List.mem_map.mp hms
    exact opFactors_ok hn hflen (h1 g hg) (hcs g hg).1 _
  obtain ⟨a1, a2⟩ := addAll_ok concs _ hok [] (by simp)
  have hsc := sumCoeffs_ok hk0 rfl hsum _ a1
  have hval : dictVal concs.length concs [] = 0 := rfl
  rw [a2, hval, zero_add, List.map_map, List.foldl_map] at hsc
  cases group with
  | nil => exact absurd rfl hne
  | cons g0 rest =>
    unfold polya
    have hlen : concs.sum = g0.1.length := by rw [hsum, perm_range_length (h1 g0 (by simp))]
    simp only [hlen, ne_eq, not_true_eq_false, if_false]
    rw [hmap, hcyc]
    simp only [hfl]
    rw [List.foldl_map]
    unfold opFactors at hsc
    rw [hsc]
    simp only
    have := fun g : Op => opFactors_poly concs.length flags (cs g) (fixedDirs g.2)
    unfold opFactors at this
    congr 6
    apply List.map_congr_left
    intro g _
    show prodCoeff _ _ _ = _
    unfold prodCoeff
    rw [this]

/-! the fixed configurations of one operation -/

section
variable {α : Type} [DecidableEq α] [Inhabited α]

/-- the exponent vector of one site -/
noncomputable def siteExpo (k : Nat) (col : α → Nat) (a : α) : Fin k →₀ ℕ :=
  Finsupp.equivFunOnFinite.symm (fun j => if col a = j + 1 then 1 else 0)

theorem siteExpo_single {k : Nat} (col : α → Nat) (a : α) (j : Fin k) (h : col a = j + 1) :
    siteExpo k col a = Finsupp.single j 1 := by
  ext i
  simp only [siteExpo, Finsupp.equivFunOnFinite_symm_apply_apply, Finsupp.single_apply]
  by_cases hij : j = i
  · subst hij; simp [h]
  · rw [if_neg, if_neg hij]
    intro hc
    apply hij
    ext
    omega

theorem prod_siteExpo (k : Nat) (col : α → Nat) (z : List α) :
    (z.map (fun a => (monomial (siteExpo k col a) 1 : MvPolynomial (Fin k) ℕ))).prod =
      monomial (z.map (siteExpo k col)).sum 1 := by
  induction z with
  | nil => simp
  | cons a z ih => rw [List.map_cons, List.prod_cons, ih, monomial_mul, List.map_cons, List.sum_cons, mul_one]

theorem sum_siteExpo (k : Nat) (col : α → Nat) (z : List α) (j : Fin k) :
    (z.map (siteExpo k col)).sum j = z.countP (fun a => decide (col a = j + 1)) := by
  induction z with
  | nil => simp
  | cons a z ih =>
    rw [List.map_cons, List.sum_cons, Finsupp.add_apply, ih, List.countP_cons, Nat.add_comm]
    congr 1
    simp [siteExpo]

/-- the composition asked for -/
def HasContent (col : α → Nat) (concs : List Nat) (z : List α) : Prop :=
  ∀ j (h : j < concs.length), z.countP (fun a => decide (col a = j + 1)) = concs[j]

instance (col : α → Nat) (concs : List Nat) (z : List α) : Decidable (HasContent col concs z) := by
  unfold HasContent; infer_instance

theorem hasContent_iff (col : α → Nat) (concs : List Nat) (z : List α) :
    (z.map (siteExpo concs.length col)).sum = expo concs.length concs ↔ HasContent col concs z := by
  constructor
  · intro h j hj
    have := DFunLike.congr_fun h ⟨j, hj⟩
    rw [sum_siteExpo, expo_apply] at this
    simpa [hj] using this
  · intro h
    ext j
    rw [sum_siteExpo, expo_apply, h j.1 j.2]
    simp

/-- the generating function of the values fixed by `T^r` -/
theorem fixed_values {k : Nat} {A : List α} {col : α → Nat} (hcol : ∀ a ∈ A, 1 ≤ col a ∧ col a ≤ k) (T : α → α)
    (r : Nat) (w : Nat → Nat)
    (hw : ∀ j < k, A.countP (fun a => decide (col a = j + 1 ∧ T^[r] a = a)) = w j) :
    (A.map (fun a => if T^[r] a = a then (monomial (siteExpo k col a) 1 : MvPolynomial (Fin k) ℕ) ^ r else 0)).sum =
      ∑ j : Fin k, C (w j) * X j ^ r := by
  have hrhs : ∑ j : Fin k, C (w j) * (X j : MvPolynomial (Fin k) ℕ) ^ r =
      ∑ j : Fin k, C (A.countP (fun a => decide (col a = j + 1 ∧ T^[r] a = a))) * X j ^ r := by
    apply Finset.sum_congr rfl
    intro j _
    rw [hw j.1 j.2]
  rw [hrhs]
  clear hw hrhs
  induction A with
  | nil => simp
  | cons a A ih =>
    rw [List.map_cons, List.sum_cons, ih (fun b hb => hcol b (List.mem_cons_of_mem _ hb))]
    simp only [List.countP_cons, C_add, add_mul, Finset.sum_add_distrib]
    rw [add_comm]
    congr 1
    have ha := hcol a (by simp)
    let j0 : Fin k := ⟨col a - 1, by omega⟩
    have hj0 : col a = j0 + 1 := by simp [j0]; omega
    rw [Finset.sum_eq_single j0]
    · by_cases h : T^[r] a = a
      · rw [if_pos h, siteExpo_single col a j0 hj0]
        simp [h, ← hj0, X]
      · rw [if_neg h]
        simp [h]
    · intro j _ hj
      have : ¬ (col a = j + 1) := by
        intro hc
        apply hj
        ext
        omega
      simp [this]
    · simp

/-- all configurations with the given composition -/
def confs (A : List α) (col : α → Nat) (concs : List Nat) : Finset (List α) :=
  (words A concs.sum).toFinset.filter (fun z => HasContent col concs z)

theorem fixed_count {A : List α} (hA : A.Nodup) {col : α → Nat} {concs : List Nat} {σ : List Nat}
    (hσ : σ.Perm (List.range concs.sum)) {cs : List (List Nat)} (hd : CycleDecomp σ cs)
    (hcol : ∀ a ∈ A, 1 ≤ col a ∧ col a ≤ concs.length) (T : α → α)
    (hT : ∀ a ∈ A, T a ∈ A ∧ col (T a) = col a) (w : Nat → Nat → Nat)
    (hw : ∀ r, 1 ≤ r → ∀ j < concs.length, A.countP (fun a => decide (col a = j + 1 ∧ T^[r] a = a)) = w r j) :
    coeff (expo concs.length concs) (cs.map (fun c => ∑ j : Fin concs.length, C (w c.length j) *
      (X j : MvPolynomial (Fin concs.length) ℕ) ^ c.length)).prod =
    ((confs A col concs).filter (fun z => (permute σ z).map T = z)).card := by
  have hx : ∀ a ∈ A, (monomial (siteExpo concs.length col (T a)) 1 : MvPolynomial (Fin concs.length) ℕ) =
      monomial (siteExpo concs.length col a) 1 := by
    intro a ha
    unfold siteExpo
    rw [(hT a ha).2]
  have hgen := fixed_gen hσ hd hA T (fun a ha => (hT a ha).1)
    (fun a => (monomial (siteExpo concs.length col a) 1 : MvPolynomial (Fin concs.length) ℕ)) hx
  have hcs : cs.map (fun c => (A.map (fun a => if T^[c.length] a = a then
      (monomial (siteExpo concs.length col a) 1 : MvPolynomial (Fin concs.length) ℕ) ^ c.length else 0)).sum) =
      cs.map (fun c => ∑ j : Fin concs.length, C (w c.length j) * X j ^ c.length) := by
    apply List.map_congr_left
    intro c hc
    exact fixed_values hcol T c.length (w c.length) (hw c.length (List.length_pos_iff.mpr (hd.2 c hc).1))
  rw [hcs] at hgen
  rw [← hgen, coeff_list_sum, ← List.sum_toFinset _ (words_nodup hA _)]
  unfold confs
  rw [Finset.filter_filter, Finset.card_filter]
  apply Finset.sum_congr rfl
  intro z _
  by_cases h1 : (permute σ z).map T = z
  · rw [if_pos h1, prod_siteExpo, coeff_monomial]
    by_cases h2 : HasContent col concs z
    · rw [if_pos ((hasContent_iff col concs z).mpr h2), if_pos ⟨h2, h1⟩]
    · rw [if_neg (fun h => h2 ((hasContent_iff col concs z).mp h)), if_neg (fun h => h2 h.1)]
  · rw [if_neg h1, if_neg (fun h => h1 h.2), coeff_zero]

/-- The numbers of configurations fixed by the operations add up to `N` times the number of operations. -/
def RadSum (concs : List Nat) (group : List Op) (flags : List Bool) (N : Nat) : Prop :=
  ∀ cs : Op → List (List Nat), (∀ g ∈ group, CycleDecomp g.1 (cs g)) →
    (group.map (fun g => coeff (expo concs.length concs)
      ((cs g).map (fun c => ∑ j : Fin concs.length, C (if flags.getD j false then fixedDirs g.2 c.length else 1) *
        (X j : MvPolynomial (Fin concs.length) ℕ) ^ c.length)).prod)).sum = group.length * N

theorem polya_of_rad {concs : List Nat} (hn : 1 ≤ concs.sum) {group : List Op} (hne : group ≠ [])
    (h1 : ∀ g ∈ group, g.1.Perm (List.range concs.sum)) (h2 : ∀ g ∈ group, ∃ d, g.2.Perm (List.range d))
    {arrowings : Arrowings} {flags : List Bool} (hfl : arrowings.toFlags concs.length = flags)
    (hflen : flags.length = concs.length) {N : Nat} (hrad : RadSum concs group flags N) :
    polya concs group arrowings = some (.ok N) := by
  obtain ⟨cs, hcs, hp⟩ := polya_sum hn rfl hne h1 h2 hfl hflen
  rw [hp, hrad cs hcs]
  have hlen : (group.length : ℚ) ≠ 0 := by
    rw [Nat.cast_ne_zero]
    exact fun h => hne (List.length_eq_zero_iff.mp h)
  rw [Nat.cast_mul, mul_div_cancel_left₀ _ hlen]
  congr 2

/-- The generic counting theorem: if the operations act on the configurations like a group (in the sense needed
for orbit counting), the fixed configurations
add up to the number of operations times the length of every list of representatives. -/
theorem rad_generic {A : List α} (hA : A.Nodup) {col : α → Nat} {concs : List Nat}
    (hcol : ∀ a ∈ A, 1 ≤ col a ∧ col a ≤ concs.length) {group : List Op}
    (h1 : ∀ g ∈ group, g.1.Perm (List.range concs.sum)) {flags : List Bool} (T : Op → α → α)
    (hT : ∀ g ∈ group, ∀ a ∈ A, T g a ∈ A ∧ col (T g a) = col a)
    (hw : ∀ g ∈ group, ∀ r, 1 ≤ r → ∀ j < concs.length,
      A.countP (fun a => decide (col a = j + 1 ∧ (T g)^[r] a = a)) =
        if flags.getD j false then fixedDirs g.2 r else 1)
    (hcount : ∀ x ∈ confs A col concs, ∀ h ∈ group,
      group.countP (fun g => decide ((permute g.1 x).map (T g) = (permute h.1 x).map (T h))) =
      group.countP (fun g => decide ((permute g.1 ((permute h.1 x).map (T h))).map (T g) = (permute h.1 x).map (T h))))
    (L : List (List α)) (hL : L.Nodup) (hLX : ∀ z ∈ L, z ∈ confs A col concs)
    (htr : ∀ x ∈ confs A col concs, ∃! z, z ∈ L ∧ ∃ g ∈ group, (permute g.1 z).map (T g) = x) :
    RadSum concs group flags L.length := by
  intro cs hcs
  have hfix : group.map (fun g => coeff (expo concs.length concs)
          ((cs g).map (fun c => ∑ j : Fin concs.length, C (if flags.getD j false then fixedDirs g.2 c.length else 1) *
            (X j : MvPolynomial (Fin concs.length) ℕ) ^ c.length)).prod) =
      group.map (fun g => ((confs A col concs).filter (fun z => (permute g.1 z).map (T g) = z)).card) := by
    apply List.map_congr_left
    intro g hg
    exact fixed_count hA (h1 g hg) (hcs g hg) hcol (T g) (hT g hg)
      (fun r j => if flags.getD j false then fixedDirs g.2 r else 1) (hw g hg)
  have hX : ∀ g ∈ group, ∀ x ∈ confs A col concs, (permute g.1 x).map (T g) ∈ confs A col concs := by
    intro g hg x hx
    unfold confs at hx ⊢
    rw [Finset.mem_filter, List.mem_toFinset, mem_words] at hx ⊢
    obtain ⟨⟨hl, hm⟩, hc⟩ := hx
    have hpm : (permute g.1 x).Perm x := permute_perm _ _ (by rw [hl]; exact h1 g hg)
    refine ⟨⟨by rw [List.length_map, hpm.length_eq, hl], ?_⟩, ?_⟩
    · intro s hs
      obtain ⟨a, ha, rfl⟩ := List.mem_map.mp hs
      exact (hT g hg a (hm a (hpm.mem_iff.mp ha))).1
    · intro j hj
      rw [List.countP_map, ← hc j hj, ← hpm.countP_eq]
      apply List.countP_congr
      intro a ha
      simp only [Function.comp, decide_eq_true_eq]
      rw [(hT g hg a (hm a (hpm.mem_iff.mp ha))).2]
  have hb := burnside group (fun g z => (permute g.1 z).map (T g)) (confs A col concs) L hX hcount hL hLX htr
  rw [hfix, hb]

end
end Phenum
