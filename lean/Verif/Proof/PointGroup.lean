import Verif.Model.PointGroup
import Verif.Spec.Lattice
import Mathlib.Data.Int.Interval
import Mathlib.Data.Fintype.BigOperators
import Mathlib.Data.Fintype.Pi
import Mathlib.Tactic.Linarith
import Mathlib.Tactic.Ring
import Mathlib.Tactic.FieldSimp
import Mathlib.Tactic.Positivity
import Mathlib.Tactic.FinCases
/-
The lattice point group: proofs.
-/
namespace Phenum
open Spec

theorem mem_pyRange {a b x : ℤ} : x ∈ pyRange a b ↔ a ≤ x ∧ x < b := by
  unfold pyRange
  rw [List.mem_map]
  constructor
  · rintro ⟨j, hj, rfl⟩
    rw [List.mem_range] at hj
    omega
  · rintro ⟨h1, h2⟩
    refine ⟨(x - a).toNat, ?_, ?_⟩
    · rw [List.mem_range]; omega
    · omega

theorem pyRange_nodup (a b : ℤ) : (pyRange a b).Nodup := by
  unfold pyRange
  refine List.Nodup.map ?_ List.nodup_range
  intro i j h
  simpa using h

theorem vnorm_nonneg (v : V3) : 0 ≤ vnorm v := Real.sqrt_nonneg _

theorem vnorm_sq (v : V3) : vnorm v ^ 2 = v 0 ^ 2 + v 1 ^ 2 + v 2 ^ 2 := Real.sq_sqrt (by positivity)

theorem vdot_le (u v : V3) : |vdot u v| ≤ vnorm u * vnorm v := by
  apply abs_le_of_sq_le_sq _ (mul_nonneg (vnorm_nonneg _) (vnorm_nonneg _))
  rw [mul_pow, vnorm_sq, vnorm_sq, vdot]
  nlinarith [sq_nonneg (u 0 * v 1 - u 1 * v 0), sq_nonneg (u 0 * v 2 - u 2 * v 0), sq_nonneg (u 1 * v 2 - u 2 * v 1)]

theorem vnorm_add (u v : V3) : vnorm (fun i => u i + v i) ≤ vnorm u + vnorm v := by
  apply le_of_sq_le_sq _ (add_nonneg (vnorm_nonneg _) (vnorm_nonneg _))
  have h := le_trans (le_abs_self _) (vdot_le u v)
  rw [add_sq, vnorm_sq, vnorm_sq, vnorm_sq]
  unfold vdot at h
  nlinarith

theorem vnorm_const {e : ℝ} : vnorm (fun _ => e) ≤ 2 * |e| := by
  apply le_of_sq_le_sq _ (by positivity)
  rw [vnorm_sq, mul_pow, sq_abs]
  nlinarith [sq_nonneg e]

theorem vnorm_shift (c : V3) (e : ℝ) : vnorm c ≤ vnorm (fun i => c i + e) + 2 * |e| := by
  have h := vnorm_add (fun i => c i + e) (fun _ => -e)
  have h2 := vnorm_const (e := -e)
  rw [abs_neg] at h2
  simp only [add_neg_cancel_right] at h
  linarith

theorem vnorm_shift_le (c : V3) (e : ℝ) : vnorm (fun i => c i + e) ≤ vnorm c + 2 * |e| := by
  have h := vnorm_add c (fun _ => e)
  have h2 := vnorm_const (e := e)
  linarith

theorem cellVolume_eq (A : M3 ℝ) : cellVolume A = |A.det| := by
  unfold cellVolume
  congr 1
  rw [Matrix.det_fin_three]
  simp [vdot, vcross]
  ring

/-- The search range contains every lattice vector in the sphere. -/
theorem coord_le {t : ℤ} {v c : V3} {d maxn eps : ℝ} (h : (t : ℝ) * d = vdot v c) (hd : d ≠ 0)
    (hv : vnorm v ≤ maxn) (he : 0 ≤ eps) (hm : maxn * (2 * eps) < 1) :
    |t| ≤ ⌈maxn * vnorm (fun i => c i / |d| + eps)⌉ := by
  have hm0 : 0 ≤ maxn := le_trans (vnorm_nonneg _) hv
  have hd' : 0 < |d| := abs_pos.mpr hd
  have h1 : |(t : ℝ)| ≤ maxn * vnorm (fun i => c i / |d|) := by
    have h2 : vdot v (fun i => c i / |d|) = t * d / |d| := by
      rw [h]; unfold vdot; field_simp
    have h3 : |(t : ℝ)| = |vdot v (fun i => c i / |d|)| := by
      rw [h2, abs_div, abs_mul, abs_abs, mul_div_assoc, div_self hd'.ne', mul_one]
    rw [h3]
    exact le_trans (vdot_le _ _) (mul_le_mul_of_nonneg_right hv (vnorm_nonneg _))
  have h4 := vnorm_shift (fun i => c i / |d|) eps
  rw [abs_of_nonneg he] at h4
  have h5 : |(t : ℝ)| < maxn * vnorm (fun i => c i / |d| + eps) + 1 := by
    have := mul_le_mul_of_nonneg_left h4 hm0
    rw [mul_add] at this
    linarith
  have h6 : ((|t| - 1 : ℤ) : ℝ) < maxn * vnorm (fun i => c i / |d| + eps) := by
    push_cast
    linarith
  have := Int.lt_ceil.mpr h6
  omega

/-- The integer combination of the rows. -/
def comb (A : M3 ℝ) (x : Fin 3 → ℤ) : V3 := fun c => (x 0 : ℝ) * A 0 c + (x 1 : ℝ) * A 1 c + (x 2 : ℝ) * A 2 c

theorem comb_eq (A : M3 ℝ) (x : Fin 3 → ℤ) : comb A x = Matrix.vecMul (fun i => (x i : ℝ)) A := by
  funext c
  simp [comb, Matrix.vecMul, dotProduct, Fin.sum_univ_three]

theorem comb_inj {A : M3 ℝ} (hA : A.det ≠ 0) {x y : Fin 3 → ℤ} (h : comb A x = comb A y) : x = y := by
  rw [comb_eq, comb_eq] at h
  have := congrArg (fun v => Matrix.vecMul v A⁻¹) h
  simp only [Matrix.vecMul_vecMul, Matrix.mul_nonsing_inv _ (isUnit_iff_ne_zero.2 hA), Matrix.vecMul_one] at this
  funext i
  exact_mod_cast congrFun this i

theorem comb_coord (A : M3 ℝ) (x : Fin 3 → ℤ) :
    (x 0 : ℝ) * A.det = vdot (comb A x) (vcross (A 1) (A 2)) ∧
    (x 1 : ℝ) * A.det = vdot (comb A x) (vcross (A 2) (A 0)) ∧
    (x 2 : ℝ) * A.det = vdot (comb A x) (vcross (A 0) (A 1)) := by
  rw [Matrix.det_fin_three]
  refine ⟨?_, ?_, ?_⟩ <;> simp [comb, vdot, vcross] <;> ring

/-- Coordinates in the search range. -/
def InBox (A : M3 ℝ) (eps : ℝ) (x : Fin 3 → ℤ) : Prop :=
  |x 0| ≤ searchRange A (A 1) (A 2) eps ∧ |x 1| ≤ searchRange A (A 2) (A 0) eps ∧ |x 2| ≤ searchRange A (A 0) (A 1) eps

theorem mem_sphereVecs {A : M3 ℝ} {eps : ℝ} {v : V3} :
    v ∈ sphereVecs A eps ↔ ∃ x, InBox A eps x ∧ comb A x = v ∧ vnorm v ≤ maxNorm A + eps := by
  unfold sphereVecs
  simp only [List.mem_flatMap, mem_pyRange]
  constructor
  · rintro ⟨i, hi, j, hj, k, hk, h⟩
    split_ifs at h with hn
    · simp at h
    · rw [List.mem_singleton] at h
      refine ⟨![i, j, k], ⟨?_, ?_, ?_⟩, h.symm, ?_⟩
      · rw [abs_le]; simp; omega
      · rw [abs_le]; simp; omega
      · rw [abs_le]; simp; omega
      · rw [h]; exact not_lt.mp hn
  · rintro ⟨x, ⟨h0, h1, h2⟩, rfl, hn⟩
    rw [abs_le] at h0 h1 h2
    refine ⟨x 0, by omega, x 1, by omega, x 2, by omega, ?_⟩
    have : ¬ vnorm (fun c => (x 0 : ℝ) * A 0 c + (x 1 : ℝ) * A 1 c + (x 2 : ℝ) * A 2 c) > maxNorm A + eps := not_lt.mpr hn
    rw [if_neg this]
    simp only [List.mem_singleton]
    rfl

theorem sphereVecs_nodup {A : M3 ℝ} (hA : A.det ≠ 0) (eps : ℝ) : (sphereVecs A eps).Nodup := by
  unfold sphereVecs
  have key : ∀ i j k i' j' k' : ℤ, (fun c => (i : ℝ) * A 0 c + (j : ℝ) * A 1 c + (k : ℝ) * A 2 c : V3) =
      (fun c => (i' : ℝ) * A 0 c + (j' : ℝ) * A 1 c + (k' : ℝ) * A 2 c) → i = i' ∧ j = j' ∧ k = k' := by
    intro i j k i' j' k' h
    have := comb_inj hA (x := ![i, j, k]) (y := ![i', j', k']) (by unfold comb; simpa using h)
    exact ⟨congrFun this 0, congrFun this 1, congrFun this 2⟩
  have hmem : ∀ (v w : V3), v ∈ (if vnorm w > maxNorm A + eps then [] else [w]) → v = w := by
    intro v w h
    split_ifs at h
    · simp at h
    · simpa using h
  simp only [List.nodup_flatMap]
  refine ⟨fun i _ => ⟨fun j _ => ⟨fun k _ => ?_, ?_⟩, ?_⟩, ?_⟩
  · split_ifs <;> simp
  · refine (pyRange_nodup _ _).imp ?_
    intro k k' hne v hv hv'
    exact hne (key _ _ _ _ _ _ ((hmem _ _ hv).symm.trans (hmem _ _ hv'))).2.2
  · refine (pyRange_nodup _ _).imp ?_
    intro j j' hne v hv hv'
    rw [List.mem_flatMap] at hv hv'
    obtain ⟨k, -, hv⟩ := hv
    obtain ⟨k', -, hv'⟩ := hv'
    exact hne (key _ _ _ _ _ _ ((hmem _ _ hv).symm.trans (hmem _ _ hv'))).2.1
  · refine (pyRange_nodup _ _).imp ?_
    intro i i' hne v hv hv'
    simp only [List.mem_flatMap] at hv hv'
    obtain ⟨j, -, k, -, hv⟩ := hv
    obtain ⟨j', -, k', -, hv'⟩ := hv'
    exact hne (key _ _ _ _ _ _ ((hmem _ _ hv).symm.trans (hmem _ _ hv'))).1

theorem mem_triples {n i j k : ℕ} : (i, j, k) ∈ triples n ↔ i < n ∧ j < n ∧ k < n ∧ i ≠ j ∧ i ≠ k ∧ j ≠ k := by
  unfold triples
  simp only [List.mem_flatMap, List.mem_range]
  constructor
  · rintro ⟨a, ha, b, hb, c, hc, h⟩
    split_ifs at h with hd
    · simp only [List.mem_singleton, Prod.mk.injEq] at h
      obtain ⟨rfl, rfl, rfl⟩ := h
      exact ⟨ha, hb, hc, hd⟩
    · simp at h
  · rintro ⟨ha, hb, hc, hd⟩
    refine ⟨i, ha, j, hb, k, hc, ?_⟩
    rw [if_pos hd]
    simp

theorem triples_nodup (n : ℕ) : (triples n).Nodup := by
  unfold triples
  have hmem : ∀ (t u : ℕ × ℕ × ℕ) (p : Prop) [Decidable p], t ∈ (if p then [u] else []) → t = u := by
    intro t u p _ h
    split_ifs at h
    · simpa using h
    · simp at h
  simp only [List.nodup_flatMap]
  refine ⟨fun i _ => ⟨fun j _ => ⟨fun k _ => ?_, ?_⟩, ?_⟩, ?_⟩
  · split_ifs <;> simp
  · refine (List.nodup_range).imp ?_
    intro k k' hne v hv hv'
    have := (hmem _ _ _ hv).symm.trans (hmem _ _ _ hv')
    simp only [Prod.mk.injEq] at this
    exact hne this.2.2
  · refine (List.nodup_range).imp ?_
    intro j j' hne v hv hv'
    rw [List.mem_flatMap] at hv hv'
    obtain ⟨k, -, hv⟩ := hv
    obtain ⟨k', -, hv'⟩ := hv'
    have := (hmem _ _ _ hv).symm.trans (hmem _ _ _ hv')
    simp only [Prod.mk.injEq] at this
    exact hne this.2.1
  · refine (List.nodup_range).imp ?_
    intro i i' hne v hv hv'
    simp only [List.mem_flatMap] at hv hv'
    obtain ⟨j, -, k, -, hv⟩ := hv
    obtain ⟨j', -, k', -, hv'⟩ := hv'
    have := (hmem _ _ _ hv).symm.trans (hmem _ _ _ hv')
    simp only [Prod.mk.injEq] at this
    exact hne this.1

/-- Finitely many nonnegative numbers: below some positive bound only zero. -/
theorem exists_gap {α : Type} {s : Set α} (hs : s.Finite) (f : α → ℝ) :
    ∃ e > 0, ∀ a ∈ s, f a < e → f a ≤ 0 := by
  induction s, hs using Set.Finite.induction_on with
  | empty => exact ⟨1, one_pos, by simp⟩
  | @insert a s _ _ ih =>
    obtain ⟨e, he, h⟩ := ih
    by_cases ha : f a ≤ 0
    · refine ⟨e, he, ?_⟩
      rintro b (rfl | hb) hlt
      · exact ha
      · exact h b hb hlt
    · refine ⟨min e (f a), lt_min he (not_le.mp ha), ?_⟩
      rintro b (rfl | hb) hlt
      · exact absurd (lt_of_lt_of_le hlt (min_le_right _ _)) (lt_irrefl _)
      · exact h b hb (lt_of_lt_of_le hlt (min_le_left _ _))

theorem getD_lt {α : Type} {l : List α} {i : ℕ} {d : α} (h : i < l.length) : l.getD i d = l[i] := by
  simp [List.getD_eq_getElem?_getD, h]

/-- The integer matrices with entries of absolute value at most `B`. -/
theorem boxed_finite (B : ℤ) : {M : M3 ℤ | ∀ i j, |M i j| ≤ B}.Finite := by
  apply Set.Finite.subset (Set.Finite.pi' (fun (_ : Fin 3) => Set.Finite.pi' (fun (_ : Fin 3) => Set.finite_Icc (-B) B)))
  intro M hM i j
  exact abs_le.mp (hM i j)

theorem maxNorm_nonneg (A : M3 ℝ) : 0 ≤ maxNorm A := le_trans (vnorm_nonneg (A 2)) (le_max_right _ _)

theorem row_le_maxNorm (A : M3 ℝ) (i : Fin 3) : vnorm (A i) ≤ maxNorm A := by
  fin_cases i
  · exact le_trans (le_max_left _ _) (le_max_left _ _)
  · exact le_trans (le_max_right _ _) (le_max_left _ _)
  · exact le_max_right _ _

theorem searchRange_le (A : M3 ℝ) (b c : V3) {eps : ℝ} (h0 : 0 ≤ eps) (h1 : eps ≤ 1) :
    searchRange A b c eps ≤ ⌈maxNorm A * (vnorm (fun i => vcross b c i / cellVolume A) + 2)⌉ := by
  apply Int.ceil_le_ceil
  apply mul_le_mul_of_nonneg_left _ (maxNorm_nonneg A)
  have := vnorm_shift_le (fun i => vcross b c i / cellVolume A) eps
  rw [abs_of_nonneg h0] at this
  linarith

/-- A bound for the search range. -/
noncomputable def boxBound (A : M3 ℝ) : ℤ :=
  max (max ⌈maxNorm A * (vnorm (fun i => vcross (A 1) (A 2) i / cellVolume A) + 2)⌉
    ⌈maxNorm A * (vnorm (fun i => vcross (A 2) (A 0) i / cellVolume A) + 2)⌉)
    ⌈maxNorm A * (vnorm (fun i => vcross (A 0) (A 1) i / cellVolume A) + 2)⌉

theorem inBox_bound {A : M3 ℝ} {eps : ℝ} (h0 : 0 ≤ eps) (h1 : eps ≤ 1) {x : Fin 3 → ℤ} (h : InBox A eps x) (j : Fin 3) :
    |x j| ≤ boxBound A := by
  obtain ⟨a, b, c⟩ := h
  unfold boxBound
  fin_cases j
  · exact le_trans a (le_trans (searchRange_le A _ _ h0 h1) (le_trans (le_max_left _ _) (le_max_left _ _)))
  · exact le_trans b (le_trans (searchRange_le A _ _ h0 h1) (le_trans (le_max_right _ _) (le_max_left _ _)))
  · exact le_trans c (le_trans (searchRange_le A _ _ h0 h1) (le_max_right _ _))

theorem inBox_of_norm {A : M3 ℝ} (hA : A.det ≠ 0) {eps : ℝ} (h0 : 0 ≤ eps) (hm : maxNorm A * (2 * eps) < 1)
    {x : Fin 3 → ℤ} (h : vnorm (comb A x) ≤ maxNorm A) : InBox A eps x := by
  obtain ⟨a, b, c⟩ := comb_coord A x
  unfold InBox searchRange
  rw [cellVolume_eq]
  exact ⟨coord_le a hA h h0 hm, coord_le b hA h h0 hm, coord_le c hA h h0 hm⟩

/-- The real matrix with the same entries. -/
def realM (M : M3 ℤ) : M3 ℝ := M.map (fun z => (z : ℝ))

theorem realM_row (M : M3 ℤ) (A : M3 ℝ) (i : Fin 3) : (realM M * A) i = comb A (M i) := by
  funext c
  simp [realM, Matrix.mul_apply, comb, Fin.sum_univ_three]

/-- The quantities compared with `eps`: the error of the lengths, of the volume and of orthogonality. -/
noncomputable def trialErr (A : M3 ℝ) (M : M3 ℤ) : ℝ :=
  max (max (max (max |vnorm (comb A (M 0)) - vnorm (A 0)| |vnorm (comb A (M 1)) - vnorm (A 1)|)
    |vnorm (comb A (M 2)) - vnorm (A 2)|) (abs (cellVolume A - abs (realM M * A).det)))
    (Finset.univ.sup' (Finset.univ_nonempty) (fun p : Fin 3 × Fin 3 =>
      |((A⁻¹ * (realM M * A)) * (A⁻¹ * (realM M * A)).transpose) p.1 p.2 - (1 : M3 ℝ) p.1 p.2|))

theorem rows_eq (M : M3 ℤ) (A : M3 ℝ) : (![comb A (M 0), comb A (M 1), comb A (M 2)] : M3 ℝ) = realM M * A := by
  funext i
  rw [realM_row]
  fin_cases i <;> rfl

theorem mem_tryTriple {A : M3 ℝ} {eps : ℝ} {M : M3 ℤ} {R : M3 ℝ} :
    R ∈ tryTriple A eps (comb A (M 0)) (comb A (M 1)) (comb A (M 2)) ↔
      trialErr A M ≤ eps ∧ R = A⁻¹ * (realM M * A) := by
  unfold tryTriple
  rw [rows_eq]
  simp only
  have hsup : trialErr A M ≤ eps ↔ ¬ (|vnorm (comb A (M 0)) - vnorm (A 0)| > eps ∨ |vnorm (comb A (M 1)) - vnorm (A 1)| > eps ∨
      |vnorm (comb A (M 2)) - vnorm (A 2)| > eps ∨ abs (cellVolume A - abs (realM M * A).det) > eps) ∧
      matClose eps ((A⁻¹ * (realM M * A)) * (A⁻¹ * (realM M * A)).transpose) 1 := by
    unfold trialErr matClose
    simp only [max_le_iff, Finset.sup'_le_iff, Finset.mem_univ, true_implies, Prod.forall, not_or, not_lt, gt_iff_lt]
    tauto
  rw [hsup]
  split_ifs with h1 h2
  · simp only [List.not_mem_nil, false_iff]
    tauto
  · simp only [List.mem_singleton]
    tauto
  · simp only [List.not_mem_nil, false_iff]
    tauto

theorem trialErr_zero {A : M3 ℝ} {M : M3 ℤ} (h : trialErr A M ≤ 0) :
    (A⁻¹ * (realM M * A)) * (A⁻¹ * (realM M * A)).transpose = 1 := by
  unfold trialErr at h
  simp only [max_le_iff, Finset.sup'_le_iff, Finset.mem_univ, true_implies, Prod.forall] at h
  ext i j
  have := h.2 i j
  exact sub_eq_zero.mp (abs_nonpos_iff.mp this)

theorem vnorm_vecMul {R : M3 ℝ} (hR : R * R.transpose = 1) (v : V3) : vnorm (Matrix.vecMul v R) = vnorm v := by
  have h : ∀ w : V3, vnorm w = Real.sqrt (w ⬝ᵥ w) := by
    intro w
    unfold vnorm
    congr 1
    simp [dotProduct, Fin.sum_univ_three]
    ring
  rw [h, h]
  congr 1
  rw [← Matrix.mulVec_transpose]
  nth_rw 1 [Matrix.mulVec_transpose]
  rw [← Matrix.dotProduct_mulVec, Matrix.mulVec_mulVec, hR, Matrix.one_mulVec]

theorem orth_det {R : M3 ℝ} (hR : R * R.transpose = 1) : |R.det| = 1 := by
  have := congrArg Matrix.det hR
  rw [Matrix.det_mul, Matrix.det_transpose, Matrix.det_one] at this
  rcases mul_self_eq_one_iff.mp this with h | h <;> rw [h] <;> simp

theorem trialErr_orth {A : M3 ℝ} (hA : A.det ≠ 0) {M : M3 ℤ} {R : M3 ℝ} (hR : R * R.transpose = 1)
    (h : A * R = realM M * A) : trialErr A M ≤ 0 := by
  have hinv : A⁻¹ * (realM M * A) = R := by
    rw [← h, ← Matrix.mul_assoc, Matrix.nonsing_inv_mul _ (isUnit_iff_ne_zero.2 hA), Matrix.one_mul]
  have hrow : ∀ i, vnorm (comb A (M i)) = vnorm (A i) := by
    intro i
    rw [← realM_row, ← h]
    exact vnorm_vecMul hR (A i)
  unfold trialErr
  rw [hinv, hR, cellVolume_eq, ← h, Matrix.det_mul, abs_mul, orth_det hR]
  simp [hrow, max_le_iff, Finset.sup'_le_iff]

/-- The search for rotations is exact at this tolerance: it lists, each once, the orthogonal matrices that turn the basis
into integer combinations. -/
def PgExact (A : M3 ℝ) (eps : ℝ) : Prop :=
    ∃ L, latticePointGroup A eps = .ok L ∧ L.Nodup ∧
      ∀ R, R ∈ L ↔ R * R.transpose = 1 ∧ ∃ M : M3 ℤ, A * R = realM M * A

/-- The point group at a tolerance that tells nearly orthogonal from orthogonal. -/
theorem pointGroup_at {A : M3 ℝ} (hA : A.det ≠ 0) {eps : ℝ} (h0 : 0 ≤ eps) (hm : maxNorm A * (2 * eps) < 1)
    (hgap : ∀ M : M3 ℤ, (∀ i, InBox A eps (M i)) → trialErr A M ≤ eps →
      (A⁻¹ * (realM M * A)) * (A⁻¹ * (realM M * A)).transpose = 1) : PgExact A eps := by
  have hunit := isUnit_iff_ne_zero.2 hA
  refine ⟨_, if_neg hA, ?_, ?_⟩
  · -- each rotation is found once
    set rv := sphereVecs A eps
    have hrv : rv.Nodup := sphereVecs_nodup hA eps
    rw [List.nodup_flatMap]
    have hmem : ∀ (u v w : V3) R, R ∈ tryTriple A eps u v w → R = A⁻¹ * (show M3 ℝ from ![u, v, w]) := by
      intro u v w R hR
      unfold tryTriple at hR
      simp only at hR
      split_ifs at hR
      · simp at hR
      · simpa using hR
      · simp at hR
    constructor
    · intro t _
      unfold tryTriple
      simp only
      split_ifs <;> simp
    · refine (triples_nodup _).imp_of_mem ?_
      rintro ⟨i, j, k⟩ ⟨i', j', k'⟩ ht ht' hne R hR hR'
      rw [mem_triples] at ht ht'
      have h1 := (hmem _ _ _ _ hR).symm.trans (hmem _ _ _ _ hR')
      have hcancel : ∀ X Y : M3 ℝ, A⁻¹ * X = A⁻¹ * Y → X = Y := by
        intro X Y h
        have := congrArg (fun Z => A * Z) h
        simpa only [← Matrix.mul_assoc, Matrix.mul_nonsing_inv _ hunit, Matrix.one_mul] using this
      have h2 := hcancel _ _ h1
      have hget : ∀ a b, a < rv.length → b < rv.length → rv.getD a 0 = rv.getD b 0 → a = b := by
        intro a b ha hb hab
        rw [getD_lt ha, getD_lt hb] at hab
        exact (List.Nodup.getElem_inj_iff hrv).mp hab
      have e0 := hget i i' ht.1 ht'.1 (congrFun h2 0)
      have e1 := hget j j' ht.2.1 ht'.2.1 (congrFun h2 1)
      have e2 := hget k k' ht.2.2.1 ht'.2.2.1 (congrFun h2 2)
      exact hne (by rw [e0, e1, e2])
  · intro R
    simp only [List.mem_flatMap]
    constructor
    · rintro ⟨⟨i, j, k⟩, ht, hR⟩
      rw [mem_triples] at ht
      simp only at hR
      have hx : ∀ a, a < (sphereVecs A eps).length → ∃ x, InBox A eps x ∧ comb A x = (sphereVecs A eps).getD a 0 := by
        intro a ha
        rw [getD_lt ha]
        obtain ⟨x, hx, e, -⟩ := mem_sphereVecs.mp (List.getElem_mem ha)
        exact ⟨x, hx, e⟩
      obtain ⟨x, bx, ex⟩ := hx i ht.1
      obtain ⟨y, by', ey⟩ := hx j ht.2.1
      obtain ⟨z, bz, ez⟩ := hx k ht.2.2.1
      rw [← ex, ← ey, ← ez] at hR
      have hR' := (mem_tryTriple (M := ![x, y, z])).mp hR
      have hb : ∀ i, InBox A eps ((![x, y, z] : M3 ℤ) i) := by
        intro i
        fin_cases i
        · exact bx
        · exact by'
        · exact bz
      have hz := hgap ![x, y, z] hb hR'.1
      refine ⟨by rw [hR'.2]; exact hz, ![x, y, z], ?_⟩
      rw [hR'.2, ← Matrix.mul_assoc, Matrix.mul_nonsing_inv _ hunit, Matrix.one_mul]
    · rintro ⟨hR, M, hM⟩
      have hrow : ∀ i, vnorm (comb A (M i)) = vnorm (A i) := by
        intro i
        rw [← realM_row, ← hM]
        exact vnorm_vecMul hR (A i)
      have hin : ∀ i, comb A (M i) ∈ sphereVecs A eps := by
        intro i
        have hle : vnorm (comb A (M i)) ≤ maxNorm A := by rw [hrow]; exact row_le_maxNorm A i
        exact mem_sphereVecs.mpr ⟨M i, inBox_of_norm hA h0 hm hle, rfl, by linarith⟩
      have hdet : (realM M).det ≠ 0 := by
        intro h
        have := congrArg Matrix.det hM
        rw [Matrix.det_mul, Matrix.det_mul, h, zero_mul] at this
        rcases mul_eq_zero.mp this with h' | h'
        · exact hA h'
        · have := orth_det hR
          rw [h'] at this
          simp at this
      have hdist : ∀ i j, i ≠ j → comb A (M i) ≠ comb A (M j) := by
        intro i j hij h
        have h' := comb_inj hA h
        apply hdet
        apply Matrix.det_zero_of_row_eq hij
        funext c
        simp [realM, h']
      have hidx : ∀ i, ∃ a, a < (sphereVecs A eps).length ∧ (sphereVecs A eps).getD a 0 = comb A (M i) := by
        intro i
        obtain ⟨a, ha, e⟩ := List.getElem_of_mem (hin i)
        exact ⟨a, ha, by rw [getD_lt ha]; exact e⟩
      choose f hf1 hf2 using hidx
      have hfne : ∀ i j, i ≠ j → f i ≠ f j := by
        intro i j hij h
        apply hdist i j hij
        rw [← hf2, ← hf2, h]
      refine ⟨(f 0, f 1, f 2), mem_triples.mpr ⟨hf1 0, hf1 1, hf1 2, hfne _ _ (by decide), hfne _ _ (by decide),
        hfne _ _ (by decide)⟩, ?_⟩
      simp only [hf2]
      rw [mem_tryTriple]
      refine ⟨le_trans (trialErr_orth hA hR hM) h0, ?_⟩
      rw [← hM, ← Matrix.mul_assoc, Matrix.nonsing_inv_mul _ hunit, Matrix.one_mul]

/-- The point group for a small tolerance: orthogonal matrices that turn the basis into integer combinations. -/
theorem pointGroup_char (A : M3 ℝ) (hA : A.det ≠ 0) : ∃ e > 0, ∀ eps, 0 ≤ eps → eps < e →
    ∃ L, latticePointGroup A eps = .ok L ∧ L.Nodup ∧
      ∀ R, R ∈ L ↔ R * R.transpose = 1 ∧ ∃ M : M3 ℤ, A * R = realM M * A := by
  obtain ⟨e1, he1, hgap⟩ := exists_gap (boxed_finite (boxBound A)) (trialErr A)
  have hmn := maxNorm_nonneg A
  refine ⟨min (min 1 e1) (1 / (2 * maxNorm A + 1)), by positivity, ?_⟩
  intro eps h0 hlt
  obtain ⟨hlt1, hlt3⟩ := lt_min_iff.mp hlt
  obtain ⟨hlt1, hlt2⟩ := lt_min_iff.mp hlt1
  have hm : maxNorm A * (2 * eps) < 1 := by
    rw [lt_div_iff₀ (by positivity)] at hlt3
    nlinarith
  exact pointGroup_at hA h0 hm (fun M hb hR =>
    trialErr_zero (hgap M (fun i j => inBox_bound h0 hlt1.le (hb i) j) (lt_of_le_of_lt hR hlt2)))

end Phenum
