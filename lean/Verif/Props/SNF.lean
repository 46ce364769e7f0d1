import Verif.Proof.SNFLoop
/-
C23, C24: the Smith normal form.
-/
namespace Phenum

/-- The example of the docstring tests: an HNF of determinant 8 whose Smith form is not the matrix itself. -/
def exHNF : Matrix (Fin 3) (Fin 3) ℤ := !![1, 0, 0; 0, 2, 0; 1, 2, 4]

theorem exHNF_det : exHNF.det = 8 := by
  simp [exHNF, Matrix.det_fin_three]

/-- C23: whenever `SmithNormalForm` returns `(M, A, B)`, `M = A*HNF*B`, `A` and `B` have determinant 1 or -1, `M` is
diagonal with positive entries, each dividing the next, and their product is the determinant of the input. -/
theorem C23_smith_correct (H : Matrix (Fin 3) (Fin 3) ℤ) (s : SnfState) (h : smithNormalForm H = some (.ok s)) :
    s.M = s.A * H * s.B ∧ (s.A.det = 1 ∨ s.A.det = -1) ∧ (s.B.det = 1 ∨ s.B.det = -1)
      ∧ (∀ i k, i ≠ k → s.M i k = 0) ∧ (∀ i, 0 < s.M i i)
      ∧ s.M 0 0 ∣ s.M 1 1 ∧ s.M 1 1 ∣ s.M 2 2 ∧ s.M 0 0 * s.M 1 1 * s.M 2 2 = H.det := by
  have hd : 1 ≤ H.det := by
    by_contra hlt
    rw [smithNormalForm, if_pos (by omega)] at h
    simp at h
  obtain ⟨r, h1, h2, -⟩ := snf_total H hd
  rw [h] at h1
  simp only [Option.some.injEq] at h1
  subst h1
  rcases h2 with h2 | ⟨s', h2, hr⟩
  · simp at h2
  simp only [Except.ok.injEq] at h2
  subst h2
  have hA := Int.isUnit_iff.1 hr.uA
  have hB := Int.isUnit_iff.1 hr.uB
  refine ⟨hr.eq.symm, hA, hB, hr.diag, hr.pos, hr.d01, hr.d12, ?_⟩
  have hM : s.M.det = s.M 0 0 * s.M 1 1 * s.M 2 2 := by
    rw [Matrix.det_fin_three]
    simp [hr.diag 0 1, hr.diag 0 2, hr.diag 1 0, hr.diag 1 2, hr.diag 2 0, hr.diag 2 1]
  have hpos : 0 < s.M 0 0 * s.M 1 1 * s.M 2 2 := mul_pos (mul_pos (hr.pos 0) (hr.pos 1)) (hr.pos 2)
  have e : s.M.det = s.A.det * H.det * s.B.det := by rw [← hr.eq, Matrix.det_mul, Matrix.det_mul]
  rw [hM] at e
  rcases hA with hA | hA <;> rcases hB with hB | hB <;> rw [hA, hB] at e <;> linarith

/-- C24: for every integer matrix of positive determinant all the reduction loops of `SmithNormalForm` terminate,
no self-check fires and no division by zero happens: the only possible failure is the guard on the number of
iterations. -/
theorem C24_smith_total (H : Matrix (Fin 3) (Fin 3) ℤ) (h : 1 ≤ H.det) :
    (∃ s, smithNormalForm H = some (.ok s)) ∨ smithNormalForm H = some (.error .runtimeError) := by
  obtain ⟨r, h1, h2, -⟩ := snf_total H h
  rcases h2 with rfl | ⟨s, rfl, -⟩
  · exact Or.inr h1
  · exact Or.inl ⟨s, h1⟩

/-- C24: supercells of fewer than 2^24 cells never meet the guard. -/
theorem C24_smith_succeeds (H : Matrix (Fin 3) (Fin 3) ℤ) (h : 1 ≤ H.det) (h' : H.det < 2 ^ 24) :
    ∃ s, smithNormalForm H = some (.ok s) := by
  obtain ⟨r, h1, -, h3⟩ := snf_total H h
  obtain ⟨s, rfl⟩ := h3 h'
  exact ⟨s, h1⟩

/-- C24: a determinant less than one is reported as such. -/
theorem C24_smith_rejects (H : Matrix (Fin 3) (Fin 3) ℤ) (h : H.det < 1) :
    smithNormalForm H = some (.error .valueError) := by
  rw [smithNormalForm, if_pos h]

example : ∃ s, smithNormalForm exHNF = some (.ok s) :=
  C24_smith_succeeds exHNF (by rw [exHNF_det]; decide) (by rw [exHNF_det]; decide)

example : smithNormalForm (0 : Matrix (Fin 3) (Fin 3) ℤ) = some (.error .valueError) :=
  C24_smith_rejects 0 (by simp)

end Phenum
