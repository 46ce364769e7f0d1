import Verif.Proof.Noise
/-
The point group with rounding errors.
-/
namespace Phenum
open Spec

theorem coord_bound {t : ℤ} {v c : V3} {d maxn eps : ℝ} (h : (t : ℝ) * d = vdot v c) (hd : d ≠ 0)
    (hv : vnorm v ≤ maxn) (he : 0 ≤ eps) : |(t : ℝ)| ≤ maxn * vnorm (fun i => c i / |d| + eps) + maxn * (2 * eps) := by
  have hm0 : 0 ≤ maxn := le_trans (vnorm_nonneg _) hv
  have hd' : 0 < |d| := abs_pos.mpr hd
  have h1 : |(t : ℝ)| ≤ maxn * vnorm (fun i => c i / |d|) := by
    have h2 : vdot v (fun i => c i / |d|) = t * d / |d| := by
      rw [h]; unfold vdot; field_simp
    have h3 : |(t : ℝ)| = |vdot v (fun i => c i / |d|)| := by
      rw [h2, abs_div, abs_mul, abs_abs, mul_div_assoc, div_self hd'.ne', mul_one]
    rw [h3]
    exact le_trans (vdot_le _ _) (mul_le_mul_of_nonneg_right hv (vnorm_nonneg _))
  have h4 := vnorm_shift (fun i => c i / |d|) eps
  rw [abs_of_nonneg he] at h4
  have := mul_le_mul_of_nonneg_left h4 hm0
  rw [mul_add] at this
  linarith

/-- A number of steps that is enough for the coordinate `t`, for all vectors `v` of the sphere. -/
def Enough (A : M3 ℝ) (b c : V3) (n : ℤ) : Prop :=
  0 ≤ n ∧ ∀ (t : ℤ) (v : V3), (t : ℝ) * A.det = vdot v (vcross b c) → vnorm v ≤ maxNorm A → |t| ≤ n

theorem searchRangeN_always {A : M3 ℝ} (hA : A.det ≠ 0) {eps δ : ℝ} (h0 : 0 ≤ δ) (he : 0 ≤ eps) (hm : maxNorm A * (2 * eps) + δ < 1) (b c : V3) :
    Always (searchRangeN δ A b c eps) (Enough A b c) := by
  unfold searchRangeN
  refine (meas_always h0 _).bindA fun x hx => Always.pure ?_
  have hmn := maxNorm_nonneg A
  have hx' := abs_le.mp hx
  rw [cellVolume_eq] at hx'
  constructor
  · have h1 : (0 : ℝ) ≤ maxNorm A * vnorm (fun i => vcross b c i / |A.det| + eps) := mul_nonneg hmn (vnorm_nonneg _)
    have h2 : (0 : ℝ) ≤ maxNorm A * (2 * eps) := by positivity
    have h3 : ((-1 : ℤ) : ℝ) < x := by push_cast; linarith [hx'.1]
    have := Int.lt_ceil.mpr h3
    omega
  · intro t v ht hv
    have h1 := coord_bound ht hA hv he
    have h6 : ((|t| - 1 : ℤ) : ℝ) < x := by
      push_cast
      linarith [hx'.1]
    have := Int.lt_ceil.mpr h6
    omega

theorem searchRange_enough {A : M3 ℝ} (hA : A.det ≠ 0) {eps : ℝ} (he : 0 ≤ eps) (hm : maxNorm A * (2 * eps) < 1) (b c : V3) :
    Enough A b c (searchRange A b c eps) := by
  constructor
  · exact Int.ceil_nonneg (mul_nonneg (maxNorm_nonneg A) (vnorm_nonneg _))
  · intro t v ht hv
    unfold searchRange
    rw [cellVolume_eq]
    exact coord_le ht hA hv he hm

/-! loops over symmetric ranges -/

theorem pyRange_append {a b c : ℤ} (h1 : a ≤ b) (h2 : b ≤ c) : pyRange a c = pyRange a b ++ pyRange b c := by
  unfold pyRange
  obtain ⟨k, hk⟩ := Int.eq_ofNat_of_zero_le (sub_nonneg.mpr h1)
  obtain ⟨l, hl⟩ := Int.eq_ofNat_of_zero_le (sub_nonneg.mpr h2)
  have e1 : (c - a).toNat = k + l := by omega
  have e2 : (b - a).toNat = k := by omega
  have e3 : (c - b).toNat = l := by omega
  rw [e1, e2, e3, List.range_add, List.map_append, List.map_map]
  congr 1
  apply List.map_congr_left
  intro i _
  simp only [Function.comp]
  push_cast
  omega

theorem range_mono {γ : Type} {n m : ℤ} (hn : 0 ≤ n) (hnm : n ≤ m) {f : ℤ → List γ} (h : ∀ i, ¬ |i| ≤ n → f i = []) :
    (pyRange (-m) (m + 1)).flatMap f = (pyRange (-n) (n + 1)).flatMap f := by
  rw [pyRange_append (a := -m) (b := -n) (by omega) (by omega), pyRange_append (a := -n) (b := n + 1) (by omega) (by omega),
    List.flatMap_append, List.flatMap_append]
  have e1 : (pyRange (-m) (-n)).flatMap f = [] := by
    rw [List.flatMap_eq_nil_iff]
    intro i hi
    rw [mem_pyRange] at hi
    exact h i (by rw [abs_le]; omega)
  have e2 : (pyRange (n + 1) (m + 1)).flatMap f = [] := by
    rw [List.flatMap_eq_nil_iff]
    intro i hi
    rw [mem_pyRange] at hi
    exact h i (by rw [abs_le]; omega)
  rw [e1, e2, List.append_nil, List.nil_append]

theorem range_eq {γ : Type} {n m : ℤ} (hn : 0 ≤ n) (hm : 0 ≤ m) {f : ℤ → List γ} (h : ∀ i, f i ≠ [] → |i| ≤ n ∧ |i| ≤ m) :
    (pyRange (-m) (m + 1)).flatMap f = (pyRange (-n) (n + 1)).flatMap f := by
  rcases le_total n m with hle | hle
  · exact range_mono hn hle (fun i hi => by by_contra hc; exact hi (h i hc).1)
  · exact (range_mono hm hle (fun i hi => by by_contra hc; exact hi (h i hc).2)).symm

/-- the lattice vector with these coordinates -/
def comb3 (A : M3 ℝ) (i j k : ℤ) : V3 := fun c => (i : ℝ) * A 0 c + (j : ℝ) * A 1 c + (k : ℝ) * A 2 c

theorem comb3_eq (A : M3 ℝ) (i j k : ℤ) : comb3 A i j k = comb A ![i, j, k] := rfl

/-- a function of vectors that is empty outside the sphere -/
def InSphere {γ : Type} (A : M3 ℝ) (h : V3 → List γ) : Prop := ∀ v, h v ≠ [] → vnorm v ≤ maxNorm A

/-- the loops over a box -/
def boxMap {γ : Type} (A : M3 ℝ) (n1 n2 n3 : ℤ) (h : V3 → List γ) : List γ :=
  (pyRange (-n1) (n1 + 1)).flatMap (fun i => (pyRange (-n2) (n2 + 1)).flatMap (fun j => (pyRange (-n3) (n3 + 1)).flatMap (fun k =>
    h (comb3 A i j k))))

theorem flatMap_ne {β γ : Type} {l : List β} {f : β → List γ} (h : l.flatMap f ≠ []) : ∃ a ∈ l, f a ≠ [] := by
  by_contra hc
  push Not at hc
  exact h (List.flatMap_eq_nil_iff.mpr hc)

theorem boxMap_eq {γ : Type} {A : M3 ℝ} {n1 n2 n3 m1 m2 m3 : ℤ} (hn1 : Enough A (A 1) (A 2) n1) (hn2 : Enough A (A 2) (A 0) n2)
    (hn3 : Enough A (A 0) (A 1) n3) (hm1 : Enough A (A 1) (A 2) m1) (hm2 : Enough A (A 2) (A 0) m2) (hm3 : Enough A (A 0) (A 1) m3)
    {h : V3 → List γ} (hh : InSphere A h) : boxMap A n1 n2 n3 h = boxMap A m1 m2 m3 h := by
  have key : ∀ i j k, h (comb3 A i j k) ≠ [] → (|i| ≤ n1 ∧ |i| ≤ m1) ∧ (|j| ≤ n2 ∧ |j| ≤ m2) ∧ (|k| ≤ n3 ∧ |k| ≤ m3) := by
    intro i j k hne
    have hv := hh _ hne
    obtain ⟨a, b, c⟩ := comb_coord A ![i, j, k]
    rw [comb3_eq] at hv
    exact ⟨⟨hn1.2 _ _ a hv, hm1.2 _ _ a hv⟩, ⟨hn2.2 _ _ b hv, hm2.2 _ _ b hv⟩, ⟨hn3.2 _ _ c hv, hm3.2 _ _ c hv⟩⟩
  unfold boxMap
  have e3 : ∀ i j, (pyRange (-n3) (n3 + 1)).flatMap (fun k => h (comb3 A i j k)) = (pyRange (-m3) (m3 + 1)).flatMap (fun k => h (comb3 A i j k)) :=
    fun i j => range_eq hm3.1 hn3.1 (fun k hk => ⟨(key i j k hk).2.2.2, (key i j k hk).2.2.1⟩)
  simp only [e3]
  have e2 : ∀ i, (pyRange (-n2) (n2 + 1)).flatMap (fun j => (pyRange (-m3) (m3 + 1)).flatMap (fun k => h (comb3 A i j k))) =
      (pyRange (-m2) (m2 + 1)).flatMap (fun j => (pyRange (-m3) (m3 + 1)).flatMap (fun k => h (comb3 A i j k))) := by
    intro i
    refine range_eq hm2.1 hn2.1 (fun j hj => ?_)
    obtain ⟨k, -, hk⟩ := flatMap_ne hj
    exact ⟨(key i j k hk).2.1.2, (key i j k hk).2.1.1⟩
  simp only [e2]
  refine range_eq hm1.1 hn1.1 (fun i hi => ?_)
  obtain ⟨j, -, hj⟩ := flatMap_ne hi
  obtain ⟨k, -, hk⟩ := flatMap_ne hj
  exact ⟨(key i j k hk).1.2, (key i j k hk).1.1⟩

theorem sphereVecs_map {γ : Type} {A : M3 ℝ} {eps : ℝ} (he : 0 ≤ eps) {h : V3 → List γ} (hh : InSphere A h) :
    (sphereVecs A eps).flatMap h = boxMap A (searchRange A (A 1) (A 2) eps) (searchRange A (A 2) (A 0) eps) (searchRange A (A 0) (A 1) eps) h := by
  unfold sphereVecs boxMap
  simp only [List.flatMap_assoc]
  apply List.flatMap_congr
  intro i _
  apply List.flatMap_congr
  intro j _
  apply List.flatMap_congr
  intro k _
  show List.flatMap h (if vnorm (comb3 A i j k) > maxNorm A + eps then [] else [comb3 A i j k]) = h (comb3 A i j k)
  split_ifs with hc
  · by_contra hne
    have := hh _ (fun e => hne (by rw [e]; rfl))
    linarith
  · simp

/-- The vectors found with errors, seen through a function that is empty outside the sphere, are those found without. -/
theorem sphereVecsN_always {γ : Type} {A : M3 ℝ} (hA : A.det ≠ 0) {eps δ : ℝ} (h0 : 0 ≤ δ) (hδ : δ ≤ eps) (hm : maxNorm A * (2 * eps) + δ < 1) :
    Always (sphereVecsN δ A eps) (fun rv => (∀ h : V3 → List γ, InSphere A h → rv.flatMap h = (sphereVecs A eps).flatMap h) ∧
      ∀ v ∈ rv, ∃ x, v = comb A x) := by
  have he : 0 ≤ eps := le_trans h0 hδ
  have hm' : maxNorm A * (2 * eps) < 1 := by linarith
  unfold sphereVecsN
  refine (searchRangeN_always hA h0 he hm _ _).bindA fun n1 hn1 => ?_
  refine (searchRangeN_always hA h0 he hm _ _).bindA fun n2 hn2 => ?_
  refine (searchRangeN_always hA h0 he hm _ _).bindA fun n3 hn3 => ?_
  have hbody : ∀ i j k : ℤ, Always (do
      let v : V3 := fun c => (i : ℝ) * A 0 c + (j : ℝ) * A 1 c + (k : ℝ) * A 2 c
      let d ← meas δ (vnorm v - maxNorm A)
      if d > eps then pure [] else pure [v] : Noisy (List V3)) (fun r => (r = [] ∧ ¬ vnorm (comb3 A i j k) ≤ maxNorm A) ∨ r = [comb3 A i j k]) := by
    intro i j k
    refine (meas_always h0 _).bindA fun d hd => ?_
    split_ifs with hc
    · refine Always.pure (Or.inl ⟨rfl, fun hle => ?_⟩)
      have := (abs_le.mp hd).2
      change d - (vnorm (comb3 A i j k) - maxNorm A) ≤ δ at this
      linarith
    · exact Always.pure (Or.inr rfl)
  have hall : Always (flatMapN (fun i : ℤ => flatMapN (fun j : ℤ => flatMapN (fun k : ℤ => do
      let v : V3 := fun c => (i : ℝ) * A 0 c + (j : ℝ) * A 1 c + (k : ℝ) * A 2 c
      let d ← meas δ (vnorm v - maxNorm A)
      if d > eps then pure [] else pure [v])
    (pyRange (-n3) (n3 + 1))) (pyRange (-n2) (n2 + 1))) (pyRange (-n1) (n1 + 1)))
      (fun r => ∀ h : V3 → List γ, InSphere A h → r.flatMap h = boxMap A n1 n2 n3 h) := by
    refine flatMapN_always (Good := InSphere A) (F := fun h i => _) _ fun i _ => ?_
    refine flatMapN_always (Good := InSphere A) (F := fun h j => _) _ fun j _ => ?_
    refine flatMapN_always (Good := InSphere A) (F := fun h k => h (comb3 A i j k)) _ fun k _ => ?_
    refine (hbody i j k).mono ?_
    rintro r (⟨rfl, hn⟩ | rfl) h hh
    · by_contra hc
      exact hn (hh _ (fun e => hc (by rw [e]; rfl)))
    · simp
  refine Always.and (hall.mono fun r hr h hh => ?_) ?_
  · rw [hr h hh, sphereVecs_map he hh]
    exact boxMap_eq hn1 hn2 hn3 (searchRange_enough hA he hm' _ _) (searchRange_enough hA he hm' _ _) (searchRange_enough hA he hm' _ _) hh
  · refine flatMapN_all _ fun i _ => flatMapN_all _ fun j _ => flatMapN_all _ fun k _ => (hbody i j k).mono ?_
    rintro r (⟨rfl, -⟩ | rfl) v hv
    · simp at hv
    · rw [List.mem_singleton] at hv
      exact ⟨![i, j, k], hv⟩

/-! the triples -/

open Classical in
/-- The rotation, if it is orthogonal. -/
noncomputable def symTriple (A : M3 ℝ) (u v w : V3) : List (M3 ℝ) :=
  let R := A⁻¹ * (show M3 ℝ from ![u, v, w])
  if R * R.transpose = 1 then [R] else []

section
variable {A : M3 ℝ} (hA : A.det ≠ 0)
include hA

theorem symTriple_rows {u v w : V3} (h : symTriple A u v w ≠ []) :
    (A⁻¹ * (show M3 ℝ from ![u, v, w])) * (A⁻¹ * (show M3 ℝ from ![u, v, w])).transpose = 1 ∧
    vnorm u = vnorm (A 0) ∧ vnorm v = vnorm (A 1) ∧ vnorm w = vnorm (A 2) ∧ u ≠ v ∧ u ≠ w ∧ v ≠ w := by
  unfold symTriple at h
  simp only at h
  split_ifs at h with hR
  · obtain ⟨R, hRe⟩ : ∃ R : M3 ℝ, R = A⁻¹ * (show M3 ℝ from ![u, v, w]) := ⟨_, rfl⟩
    have hAR : A * R = (show M3 ℝ from ![u, v, w]) := by
      rw [hRe, ← Matrix.mul_assoc, Matrix.mul_nonsing_inv _ (isUnit_iff_ne_zero.2 hA), Matrix.one_mul]
    rw [← hRe] at hR
    have hn : ∀ i, vnorm ((show M3 ℝ from ![u, v, w]) i) = vnorm (A i) := by
      intro i
      rw [← hAR]
      exact vnorm_vecMul hR (A i)
    have hdet : (show M3 ℝ from ![u, v, w]).det ≠ 0 := by
      rw [← hAR, Matrix.det_mul]
      refine mul_ne_zero hA (fun h0 => ?_)
      have := orth_det hR
      rw [h0] at this
      simp at this
    refine ⟨by rw [← hRe]; exact hR, hn 0, hn 1, hn 2, ?_, ?_, ?_⟩
    · rintro rfl
      exact hdet (Matrix.det_zero_of_row_eq (i := 0) (j := 1) (by decide) rfl)
    · rintro rfl
      exact hdet (Matrix.det_zero_of_row_eq (i := 0) (j := 2) (by decide) rfl)
    · rintro rfl
      exact hdet (Matrix.det_zero_of_row_eq (i := 1) (j := 2) (by decide) rfl)
  · exact absurd rfl h

/-- The loop over the triples is a loop over triples of vectors. -/
theorem triples_map (rv : List V3) :
    (triples rv.length).flatMap (fun t => symTriple A (rv.getD t.1 0) (rv.getD t.2.1 0) (rv.getD t.2.2 0)) =
      rv.flatMap (fun u => rv.flatMap (fun v => rv.flatMap (fun w => symTriple A u v w))) := by
  have hidx : ∀ {γ : Type} (f : V3 → List γ), (List.range rv.length).flatMap (fun i => f (rv.getD i 0)) = rv.flatMap f := by
    intro γ f
    have : rv = (List.range rv.length).map (fun i => rv.getD i 0) := by
      apply List.ext_getElem
      · simp
      · intro i h1 h2
        simp [h1]
    conv_rhs => rw [this, List.flatMap_map]
  unfold triples
  simp only [List.flatMap_assoc]
  have e : ∀ i j k : ℕ, List.flatMap (fun t : ℕ × ℕ × ℕ => symTriple A (rv.getD t.1 0) (rv.getD t.2.1 0) (rv.getD t.2.2 0))
      (if i ≠ j ∧ i ≠ k ∧ j ≠ k then [(i, j, k)] else []) = symTriple A (rv.getD i 0) (rv.getD j 0) (rv.getD k 0) := by
    intro i j k
    split_ifs with hc
    · simp
    · by_contra hne
      have := symTriple_rows hA (fun e => hne (by rw [e]; rfl))
      apply hc
      refine ⟨?_, ?_, ?_⟩
      · rintro rfl; exact this.2.2.2.2.1 rfl
      · rintro rfl; exact this.2.2.2.2.2.1 rfl
      · rintro rfl; exact this.2.2.2.2.2.2 rfl
  simp only [e]
  rw [← hidx]
  apply List.flatMap_congr
  intro i _
  rw [← hidx]
  apply List.flatMap_congr
  intro j _
  rw [← hidx]

/-- Lists of vectors that agree in the sphere give the same rotations. -/
theorem sym_agree {rv sv : List V3} (h : ∀ h : V3 → List (M3 ℝ), InSphere A h → rv.flatMap h = sv.flatMap h) :
    rv.flatMap (fun u => rv.flatMap (fun v => rv.flatMap (fun w => symTriple A u v w))) =
      sv.flatMap (fun u => sv.flatMap (fun v => sv.flatMap (fun w => symTriple A u v w))) := by
  have e3 : ∀ u v, rv.flatMap (fun w => symTriple A u v w) = sv.flatMap (fun w => symTriple A u v w) := by
    intro u v
    refine h _ (fun w hw => ?_)
    rw [(symTriple_rows hA hw).2.2.2.1]
    exact row_le_maxNorm A 2
  simp only [e3]
  have e2 : ∀ u, rv.flatMap (fun v => sv.flatMap (fun w => symTriple A u v w)) = sv.flatMap (fun v => sv.flatMap (fun w => symTriple A u v w)) := by
    intro u
    refine h _ (fun v hv => ?_)
    obtain ⟨w, -, hw⟩ := flatMap_ne hv
    rw [(symTriple_rows hA hw).2.2.1]
    exact row_le_maxNorm A 1
  simp only [e2]
  refine h _ (fun u hu => ?_)
  obtain ⟨v, -, hv⟩ := flatMap_ne hu
  obtain ⟨w, -, hw⟩ := flatMap_ne hv
  rw [(symTriple_rows hA hw).2.1]
  exact row_le_maxNorm A 0

variable {K : ℝ} {g : ℕ} (hg : 0 < g) (hK : ∀ i j, |A i j| ≤ K) (hprod : ∀ i j, ∃ z : ℤ, (A * A.transpose) i j = (z : ℝ) / g)
include hg hK hprod

theorem tryTripleN_ok {eps δ : ℝ} (h0 : 0 ≤ δ) (hδ : δ ≤ eps) (ha : 9 * K ^ 2 * g * (eps + δ) < 1) (x y z : Fin 3 → ℤ) :
    tryTripleN δ A eps (comb A x) (comb A y) (comb A z) = sure (.ok (symTriple A (comb A x) (comb A y) (comb A z))) := by
  have he : 0 ≤ eps := le_trans h0 hδ
  unfold tryTripleN
  simp only
  refine (meas_always h0 _).bind fun d0 hd0 => ?_
  refine (meas_always h0 _).bind fun d1 hd1 => ?_
  refine (meas_always h0 _).bind fun d2 hd2 => ?_
  refine (meas_always h0 _).bind fun d3 hd3 => ?_
  have hrows := rows_eq ![x, y, z] A
  change (![comb A x, comb A y, comb A z] : M3 ℝ) = _ at hrows
  by_cases hsym : symTriple A (comb A x) (comb A y) (comb A z) = []
  · -- not a rotation: the last test fails
    rw [hsym]
    split_ifs
    · rfl
    · refine (measM_always h0 _).bind fun T hT => ?_
      rw [if_neg]
      · rfl
      · intro hc
        unfold symTriple at hsym
        simp only at hsym
        split_ifs at hsym with hR
        apply hR
        refine orth_gap hA hg (by linarith) hK hprod ha (M := ![x, y, z]) (by rw [← hrows]) fun i j => ?_
        have h1 := hT i j
        have h2 := hc i j
        rw [Matrix.sub_apply]
        rw [abs_le] at h1 h2 ⊢
        constructor <;> linarith [h1.1, h1.2, h2.1, h2.2]
  · obtain ⟨hR, n0, n1, n2, -⟩ := symTriple_rows hA hsym
    have hv : cellVolume A - |(show M3 ℝ from ![comb A x, comb A y, comb A z]).det| = 0 := by
      have hAR : A * (A⁻¹ * (show M3 ℝ from ![comb A x, comb A y, comb A z])) = (show M3 ℝ from ![comb A x, comb A y, comb A z]) := by
        rw [← Matrix.mul_assoc, Matrix.mul_nonsing_inv _ (isUnit_iff_ne_zero.2 hA), Matrix.one_mul]
      rw [cellVolume_eq, ← hAR, Matrix.det_mul, abs_mul, orth_det hR, mul_one, sub_self]
    rw [n0, sub_self, sub_zero] at hd0
    rw [n1, sub_self, sub_zero] at hd1
    rw [n2, sub_self, sub_zero] at hd2
    have hd3' : |d3| ≤ δ := by
      have h := hd3
      change |d3 - (cellVolume A - |(show M3 ℝ from ![comb A x, comb A y, comb A z]).det|)| ≤ δ at h
      rwa [hv, sub_zero] at h
    rw [if_neg (by push Not; exact ⟨by linarith, by linarith, by linarith, by linarith⟩)]
    refine (measM_always h0 _).bind fun T hT => ?_
    have hT' : ∀ i j, |T i j - (1 : M3 ℝ) i j| ≤ δ := by
      intro i j
      have h := hT i j
      change |T i j - ((A⁻¹ * (show M3 ℝ from ![comb A x, comb A y, comb A z])) * (A⁻¹ * (show M3 ℝ from ![comb A x, comb A y, comb A z])).transpose) i j| ≤ δ at h
      rwa [hR] at h
    rw [if_pos (show matClose eps T 1 from fun i j => le_trans (hT' i j) hδ)]
    unfold symTriple
    simp only
    rw [if_pos hR]
    rfl

theorem tryTriple_eq {eps : ℝ} (he : 0 ≤ eps) (ha : 9 * K ^ 2 * g * eps < 1) (x y z : Fin 3 → ℤ) :
    tryTriple A eps (comb A x) (comb A y) (comb A z) = symTriple A (comb A x) (comb A y) (comb A z) := by
  have hrows := rows_eq ![x, y, z] A
  change (![comb A x, comb A y, comb A z] : M3 ℝ) = _ at hrows
  by_cases hsym : symTriple A (comb A x) (comb A y) (comb A z) = []
  · rw [hsym]
    unfold tryTriple
    simp only
    split_ifs with h1 h2
    · rfl
    · exfalso
      unfold symTriple at hsym
      simp only at hsym
      split_ifs at hsym with hR
      apply hR
      refine orth_gap hA hg he hK hprod ha (M := ![x, y, z]) (by rw [← hrows]) fun i j => ?_
      exact h2 i j
    · rfl
  · obtain ⟨hR, n0, n1, n2, -⟩ := symTriple_rows hA hsym
    have hv : cellVolume A - |(show M3 ℝ from ![comb A x, comb A y, comb A z]).det| = 0 := by
      have hAR : A * (A⁻¹ * (show M3 ℝ from ![comb A x, comb A y, comb A z])) = (show M3 ℝ from ![comb A x, comb A y, comb A z]) := by
        rw [← Matrix.mul_assoc, Matrix.mul_nonsing_inv _ (isUnit_iff_ne_zero.2 hA), Matrix.one_mul]
      rw [cellVolume_eq, ← hAR, Matrix.det_mul, abs_mul, orth_det hR, mul_one, sub_self]
    unfold tryTriple symTriple
    simp only
    rw [if_neg, if_pos, if_pos hR]
    · intro i j
      change |((A⁻¹ * (show M3 ℝ from ![comb A x, comb A y, comb A z])) * (A⁻¹ * (show M3 ℝ from ![comb A x, comb A y, comb A z])).transpose) i j - (1 : M3 ℝ) i j| ≤ eps
      rw [hR, sub_self, abs_zero]
      exact he
    · rw [n0, n1, n2]
      change ¬ (_ ∨ _ ∨ _ ∨ abs (cellVolume A - |(show M3 ℝ from ![comb A x, comb A y, comb A z]).det|) > eps)
      rw [hv]
      simp only [sub_self, abs_zero]
      push Not
      exact ⟨he, he, he, he⟩

/-- The point group with errors below the tolerance is the one without errors. -/
theorem pointGroupN_ok {eps δ : ℝ} (h0 : 0 ≤ δ) (hδ : δ ≤ eps) (hm : maxNorm A * (2 * eps) + δ < 1) (ha : 9 * K ^ 2 * g * (eps + δ) < 1) :
    latticePointGroupN δ A eps = sure (latticePointGroup A eps) := by
  have he : 0 ≤ eps := le_trans h0 hδ
  have ha' : 9 * K ^ 2 * g * eps < 1 := lt_of_le_of_lt (by
    have : 0 ≤ 9 * K ^ 2 * g := by positivity
    nlinarith) ha
  unfold latticePointGroupN latticePointGroup
  rw [if_neg hA, if_neg hA]
  refine (sphereVecsN_always (γ := M3 ℝ) hA h0 hδ hm).bind fun rv hrv => ?_
  have hget : ∀ rv : List V3, (∀ v ∈ rv, ∃ x, v = comb A x) → ∀ t ∈ triples rv.length, ∃ x y z,
      rv.getD t.1 0 = comb A x ∧ rv.getD t.2.1 0 = comb A y ∧ rv.getD t.2.2 0 = comb A z := by
    rintro rv hrv ⟨i, j, k⟩ ht
    rw [mem_triples] at ht
    have hx : ∀ a, a < rv.length → ∃ x, rv.getD a 0 = comb A x := by
      intro a ha
      rw [getD_lt ha]
      exact hrv _ (List.getElem_mem ha)
    obtain ⟨x, hx1⟩ := hx i ht.1
    obtain ⟨y, hy1⟩ := hx j ht.2.1
    obtain ⟨z, hz1⟩ := hx k ht.2.2.1
    exact ⟨x, y, z, hx1, hy1, hz1⟩
  rw [flatMapN_ok (g := fun t => symTriple A (rv.getD t.1 0) (rv.getD t.2.1 0) (rv.getD t.2.2 0))]
  · congr 2
    rw [triples_map hA, sym_agree hA hrv.1, ← triples_map hA]
    apply List.flatMap_congr
    intro t ht
    obtain ⟨x, y, z, e1, e2, e3⟩ := hget (sphereVecs A eps) (fun v hv => by
      obtain ⟨x, -, e, -⟩ := mem_sphereVecs.mp hv
      exact ⟨x, e.symm⟩) t ht
    rw [e1, e2, e3, tryTriple_eq hA hg hK hprod he ha']
  · intro t ht
    obtain ⟨x, y, z, e1, e2, e3⟩ := hget rv hrv.2 t ht
    rw [e1, e2, e3, tryTripleN_ok hA hg hK hprod h0 hδ ha]

end
end Phenum
