import Verif.Proof.PointGroup
/-
C45: the point group of the lattice.
-/
namespace Phenum
open Spec

theorem realM_mul (M N : M3 ℤ) : realM (M * N) = realM M * realM N := by
  ext i j
  simp [realM, Matrix.mul_apply]

theorem realM_one : realM 1 = 1 := by
  unfold realM
  simp

theorem realM_det (M : M3 ℤ) : (realM M).det = (M.det : ℝ) := by
  unfold realM
  exact (Int.cast_det M).symm

/-- Orthogonal and taking the basis to integer combinations of itself. -/
def IsLatSym (A R : M3 ℝ) : Prop := R * R.transpose = 1 ∧ ∃ M : M3 ℤ, A * R = realM M * A

theorem IsLatSym.inv {A R : M3 ℝ} (hA : A.det ≠ 0) (h : IsLatSym A R) : IsLatSym A R.transpose := by
  obtain ⟨hR, M, hM⟩ := h
  have hd : (realM M).det = R.det := by
    have := congrArg Matrix.det hM
    rw [Matrix.det_mul, Matrix.det_mul, mul_comm] at this
    exact (mul_right_cancel₀ hA this).symm
  have hu : IsUnit M.det := by
    have h1 := orth_det hR
    rw [← hd, realM_det] at h1
    rw [Int.isUnit_iff_abs_eq]
    exact_mod_cast h1
  refine ⟨by rw [Matrix.transpose_transpose]; exact mul_eq_one_comm.mp hR, M⁻¹, ?_⟩
  have h1 : realM M⁻¹ * realM M = 1 := by rw [← realM_mul, Matrix.nonsing_inv_mul _ hu, realM_one]
  calc A * R.transpose = (realM M⁻¹ * realM M) * A * R.transpose := by rw [h1, Matrix.one_mul]
    _ = realM M⁻¹ * (A * R) * R.transpose := by rw [hM]; simp only [Matrix.mul_assoc]
    _ = realM M⁻¹ * A * (R * R.transpose) := by simp only [Matrix.mul_assoc]
    _ = realM M⁻¹ * A := by rw [hR, Matrix.mul_one]

theorem IsLatSym.mul {A R S : M3 ℝ} (h : IsLatSym A R) (h' : IsLatSym A S) : IsLatSym A (R * S) := by
  obtain ⟨hR, M, hM⟩ := h
  obtain ⟨hS, N, hN⟩ := h'
  constructor
  · rw [Matrix.transpose_mul]
    calc R * S * (S.transpose * R.transpose) = R * (S * S.transpose) * R.transpose := by simp only [Matrix.mul_assoc]
      _ = 1 := by rw [hS, Matrix.mul_one, hR]
  · refine ⟨M * N, ?_⟩
    rw [realM_mul, ← Matrix.mul_assoc, hM, Matrix.mul_assoc, hN, Matrix.mul_assoc]

theorem IsLatSym.maps {A R : M3 ℝ} (h : IsLatSym A R) {v : V3} (hv : v ∈ ColLattice A.transpose) :
    R.transpose.mulVec v ∈ ColLattice A.transpose := by
  obtain ⟨x, rfl⟩ := hv
  obtain ⟨-, M, hM⟩ := h
  refine ⟨M.transpose.mulVec x, ?_⟩
  have h1 : (fun i => ((M.transpose.mulVec x i : ℤ) : ℝ)) = (realM M).transpose.mulVec (fun i => (x i : ℝ)) := by
    funext i
    simp [Matrix.mulVec, dotProduct, realM]
  rw [h1, Matrix.mulVec_mulVec, Matrix.mulVec_mulVec, ← Matrix.transpose_mul, ← Matrix.transpose_mul, hM]

theorem isLatSym_iff {A : M3 ℝ} (hA : A.det ≠ 0) (R : M3 ℝ) :
    IsLatSym A R ↔ R * R.transpose = 1 ∧ R.mulVec '' ColLattice A.transpose = ColLattice A.transpose := by
  constructor
  · intro h
    refine ⟨h.1, Set.Subset.antisymm ?_ ?_⟩
    · rintro _ ⟨v, hv, rfl⟩
      have := (h.inv hA).maps hv
      rwa [Matrix.transpose_transpose] at this
    · intro v hv
      refine ⟨R.transpose.mulVec v, h.maps hv, ?_⟩
      rw [Matrix.mulVec_mulVec, h.1, Matrix.one_mulVec]
  · rintro ⟨hR, him⟩
    have hrow : ∀ i, ∃ x : Fin 3 → ℤ, A.transpose.mulVec (fun k => (x k : ℝ)) = R.mulVec (A i) := by
      intro i
      have : R.mulVec (A i) ∈ ColLattice A.transpose := by
        rw [← him]
        refine ⟨A i, ⟨Pi.single i 1, ?_⟩, rfl⟩
        funext c
        simp [Matrix.mulVec, dotProduct, Pi.single_apply]
      exact this
    choose M hM using hrow
    have hT : IsLatSym A R.transpose := by
      refine ⟨by rw [Matrix.transpose_transpose]; exact mul_eq_one_comm.mp hR, M, ?_⟩
      funext i
      refine Eq.trans ?_ (realM_row M A i).symm
      rw [comb_eq, ← Matrix.mulVec_transpose, hM]
      funext c
      simp [Matrix.mul_apply, Matrix.mulVec, dotProduct, mul_comm]
    have := hT.inv hA
    rwa [Matrix.transpose_transpose] at this

/-- C45. For every non-singular set of lattice vectors (the rows of `A`) and every sufficiently small tolerance, the
routine returns exactly the orthogonal matrices that map the lattice onto itself, each once, and they form a group. -/
theorem C45_point_group (A : M3 ℝ) (hA : A.det ≠ 0) : ∃ e > 0, ∀ eps, 0 ≤ eps → eps < e →
    ∃ L, latticePointGroup A eps = .ok L ∧ L.Nodup ∧
      (∀ R, R ∈ L ↔ R * R.transpose = 1 ∧ R.mulVec '' ColLattice A.transpose = ColLattice A.transpose) ∧
      IsMatGroup L := by
  obtain ⟨e, he, h⟩ := pointGroup_char A hA
  refine ⟨e, he, fun eps h0 h1 => ?_⟩
  obtain ⟨L, e1, hn, hm⟩ := h eps h0 h1
  have hm' : ∀ R, R ∈ L ↔ IsLatSym A R := hm
  refine ⟨L, e1, hn, fun R => (hm' R).trans (isLatSym_iff hA R), ⟨?_, ?_, ?_⟩⟩
  · rw [hm']
    refine ⟨by simp, 1, by rw [realM_one, Matrix.one_mul, Matrix.mul_one]⟩
  · intro r hr s hs
    rw [hm'] at hr hs ⊢
    exact hr.mul hs
  · intro r hr
    rw [hm'] at hr
    refine ⟨r.transpose, (hm' _).mpr (hr.inv hA), mul_eq_one_comm.mp hr.1⟩

/-- C45. Linearly dependent vectors are rejected. -/
theorem C45_singular (A : M3 ℝ) (hA : A.det = 0) (eps : ℝ) : latticePointGroup A eps = .error .linAlgError := if_pos hA

/-- The simple cubic lattice has the quarter turn about the z axis. -/
example : ∃ e > 0, ∀ eps, 0 ≤ eps → eps < e → ∃ L, latticePointGroup (1 : M3 ℝ) eps = .ok L ∧
    !![0, -1, 0; 1, 0, 0; 0, 0, 1] ∈ L ∧ !![1, 1, 0; 0, 1, 0; 0, 0, 1] ∉ L := by
  obtain ⟨e, he, h⟩ := pointGroup_char (1 : M3 ℝ) (by simp)
  refine ⟨e, he, fun eps h0 h1 => ?_⟩
  obtain ⟨L, e1, -, hm⟩ := h eps h0 h1
  refine ⟨L, e1, (hm _).mpr ⟨?_, !![0, -1, 0; 1, 0, 0; 0, 0, 1], ?_⟩, fun hR => ?_⟩
  · ext i j; fin_cases i <;> fin_cases j <;> simp [Matrix.mul_apply, Fin.sum_univ_three]
  · rw [Matrix.one_mul, Matrix.mul_one]
    ext i j; fin_cases i <;> fin_cases j <;> simp [realM]
  · have := congrFun (congrFun ((hm _).mp hR).1 0) 0
    simp [Matrix.mul_apply, Fin.sum_univ_three] at this

end Phenum
