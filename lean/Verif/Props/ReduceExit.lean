import Verif.Proof.ReduceExit
/-
C39: the only way in which the reduction can give up is one of its limits of ten iterations.
-/
namespace Phenum
open Spec

/-- The size of a lattice (spanned by the rows of `M`) compared with the tolerance: no vector is shorter than 200 tolerances, and the cell
is not larger than a cube with edges of 10^9 tolerances. -/
structure Spec.ModerateLattice (M : M3 ℝ) (eps : ℝ) : Prop where
  pos : 0 < eps
  small : eps ≤ 1 / 100
  det : M.det ≠ 0
  shortest : ∀ w ∈ ColLattice M.transpose, w ≠ 0 → 200 * eps ≤ vnorm w
  volume : |M.det| ≤ (10 ^ 9 * eps) ^ 3

theorem ModerateLattice.congr {M N : M3 ℝ} {eps : ℝ} (h : ModerateLattice M eps) (hN : RowLat N = RowLat M) : ModerateLattice N eps := by
  refine ⟨h.pos, h.small, rowLat_det hN h.det, ?_, ?_⟩
  · intro w hw h0
    refine h.shortest w ?_ h0
    show w ∈ RowLat M
    rw [← hN]
    exact hw
  · rw [rowLat_absdet hN h.det]
    exact h.volume

theorem row_mem {M : M3 ℝ} (i : Fin 3) : M i ∈ RowLat M := by
  rw [mem_rowLat]
  fin_cases i
  · exact ⟨1, 0, 0, fun j => by simp⟩
  · exact ⟨0, 1, 0, fun j => by simp⟩
  · exact ⟨0, 0, 1, fun j => by simp⟩

theorem vnorm_zero_iff {v : V3} (h : vnorm v = 0) : v = 0 := by
  have := vnorm_sq' v
  rw [h] at this
  unfold vdot at this
  have h3 : v 0 = 0 ∧ v 1 = 0 ∧ v 2 = 0 := by
    refine ⟨?_, ?_, ?_⟩ <;> nlinarith [mul_self_nonneg (v 0), mul_self_nonneg (v 1), mul_self_nonneg (v 2)]
  funext i
  fin_cases i
  · exact h3.1
  · exact h3.2.1
  · exact h3.2.2

theorem row_long {M : M3 ℝ} {eps : ℝ} (h : ModerateLattice M eps) (i : Fin 3) : 200 * eps ≤ vnorm (M i) := by
  refine h.shortest _ (row_mem i) ?_
  intro h0
  have := norm_pos_of_det h.det i
  rw [h0] at this
  simp [vnorm] at this

/-- One round: if Gauss's reduction succeeds, so does the whole round, and if the vectors then are sorted they meet the conditions. -/
theorem round_exit {A B C A' B' : V3} {eps : ℝ} (h : ModerateLattice (rows3 A B C) eps) (hg : gaussReduce A B eps = .ok (A', B')) :
    ∃ C', reduceC A B C eps = .ok (A', B', C') ∧ RowLat (rows3 A' B' C') = RowLat (rows3 A B C) ∧
      (vnorm C' ≥ vnorm B' - eps → minkCheck (rows3 A' B' C') eps) := by
  have he := h.pos
  have he1 := h.small
  obtain ⟨hr, hrow, hred, hpair, hgram⟩ := reduceC_full he.le (by linarith) h.det hg
  refine ⟨_, hr, hrow, ?_⟩
  have hm' := ModerateLattice.congr h hrow
  have hA : 200 * eps ≤ vnorm A' := row_long hm' 0
  have hB : 200 * eps ≤ vnorm B' := row_long hm' 1
  obtain ⟨hp1, hp2⟩ := hred
  have hA0 : 0 < vnorm A' := by linarith
  have hB0 : 0 < vnorm B' := by linarith
  have ea := vnorm_sq' A'
  have eb := vnorm_sq' B'
  have hAB : vnorm A' ≤ 1005 / 1000 * vnorm B' := by linarith
  have hform : RedForm (vdot A' A') (vdot B' B') (vdot A' B') := by
    refine ⟨by rw [← ea]; positivity, ?_, ?_⟩
    · rw [← ea, ← eb]
      nlinarith
    · rw [abs_mul, abs_two]
      have : 0 < vdot A' A' := by rw [← ea]; positivity
      linarith
  obtain ⟨p, q, hp, hq, hnb, hclose⟩ := bestC_spec (C := C) hgram he.le he1 hform
  rw [← hp, ← hq]
  intro hexit
  refine minkCheck_exit he ⟨hp1, hp2⟩ ?_ hA0 hnb hexit (by linarith)
  -- the shortest vector is not long, by the volume
  have ec := vnorm_sq' (shiftC A' B' C p q)
  have hC : 99 / 100 * vdot B' B' ≤ vdot (shiftC A' B' C p q) (shiftC A' B' C p q) := by
    rw [← eb, ← ec]
    have h3 : 995 / 1000 * vnorm B' ≤ vnorm (shiftC A' B' C p q) := by linarith
    nlinarith
  have ha := hform.pos
  have hle := hform.le
  have hh : 45 / 100 * vdot A' A' ≤ height2 A' B' C := by linarith
  have hG : 7 / 10 * vdot A' A' ^ 2 ≤ gramDet A' B' := by
    unfold gramDet
    have h5 := hform.small
    rw [abs_mul, abs_two] at h5
    have h6 : vdot A' B' ^ 2 ≤ (101 / 200 * vdot A' A') ^ 2 := by
      rw [← sq_abs (vdot A' B')]
      exact pow_le_pow_left₀ (abs_nonneg _) (by linarith) 2
    nlinarith
  have hV : height2 A' B' C * gramDet A' B' = (rows3 A' B' C).det ^ 2 := by
    unfold height2
    field_simp
  have hdet : |(rows3 A' B' C).det| = |(rows3 A B C).det| := rowLat_absdet (rowLat_pair hpair) h.det
  have hcube : 3 / 10 * vdot A' A' ^ 3 ≤ (rows3 A' B' C).det ^ 2 := by
    rw [← hV]
    have := mul_le_mul hh hG (by positivity) (le_trans (by positivity) hh)
    nlinarith [pow_pos ha 3]
  have hvol : (rows3 A' B' C).det ^ 2 ≤ ((10 ^ 9 * eps) ^ 3) ^ 2 := by
    rw [← sq_abs, hdet]
    exact pow_le_pow_left₀ (abs_nonneg _) h.volume 2
  have h6 : vnorm A' ^ 6 ≤ (10 ^ 9 * (2 * eps)) ^ 6 := by
    have e1 : vnorm A' ^ 6 = vdot A' A' ^ 3 := by rw [← ea]; ring
    have e2 : (10 ^ 9 * (2 * eps)) ^ 6 = 64 * ((10 ^ 9 * eps) ^ 3) ^ 2 := by ring
    rw [e1, e2]
    have : 0 ≤ ((10 ^ 9 * eps) ^ 3) ^ 2 := by positivity
    linarith
  exact le_of_pow_le_pow_left₀ (by norm_num) (by positivity) h6

/-- The loop gives up only in Gauss's reduction, or it ends with vectors that are not sorted, or they meet the conditions. -/
theorem loop_exit {eps : ℝ} : ∀ (k : ℕ) (M : M3 ℝ), ModerateLattice M eps →
    (∃ U V, U ∈ RowLat M ∧ V ∈ RowLat M ∧ vcross U V ≠ 0 ∧ gaussReduce U V eps = .error .sysExit) ∨
    ∃ N, minkLoop eps (k + 1) M = .ok N ∧ RowLat N = RowLat M ∧ (vnorm (N 2) < vnorm (N 1) - eps ∨ minkCheck N eps)
  | k, M, h => by
    obtain ⟨hs, -, -⟩ := sortRows_spec (norm_pos_of_det h.det)
    have hms : ModerateLattice (rows3 (sortRows M 0) (sortRows M 1) (sortRows M 2)) eps := by
      rw [rows3_eta]
      exact ModerateLattice.congr h hs
    have hcr : vcross (sortRows M 0) (sortRows M 1) ≠ 0 := by
      intro h0
      apply hms.det
      rw [rows3_det, h0]
      simp [vdot]
    rcases gaussReduce_spec eps (sortRows M 0) (sortRows M 1) hcr with hg | ⟨A, B, hg, -⟩
    · exact Or.inl ⟨_, _, by rw [← hs]; exact row_mem 0, by rw [← hs]; exact row_mem 1, hcr, hg⟩
    · obtain ⟨C, hr, hrow, hexit⟩ := round_exit hms hg
      rw [rows3_eta, hs] at hrow
      unfold minkLoop
      simp only [bind, Except.bind]
      rw [hr]
      simp only
      by_cases hc : vnorm C ≥ vnorm B - eps
      · rw [if_pos hc]
        exact Or.inr ⟨_, rfl, hrow, Or.inr (hexit hc)⟩
      · rw [if_neg hc]
        match k with
        | 0 => exact Or.inr ⟨_, rfl, hrow, Or.inl (not_le.mp hc)⟩
        | k + 1 =>
          rcases loop_exit k (rows3 A B C) (ModerateLattice.congr h hrow) with ⟨U, V, hU, hV, h1, h2⟩ | ⟨N, h1, h2, h3⟩
          · exact Or.inl ⟨U, V, by rw [← hrow]; exact hU, by rw [← hrow]; exact hV, h1, h2⟩
          · exact Or.inr ⟨N, h1, h2.trans hrow, h3⟩

/-- C39. The reduction gives up only because of one of its limits: either the reduction of some two independent vectors of the lattice does not
converge in ten steps, or after ten rounds the vectors are not yet sorted by length. The conditions checked at the end never fail otherwise. -/
theorem C39_only_limits {M : M3 ℝ} {eps : ℝ} (h : ModerateLattice M eps) (hd : eps < |M.det|) :
    (∃ N, minkReduce M eps = .ok N) ∨
    minkReduce M eps = .error .sysExit ∧
      ((∃ U ∈ ColLattice M.transpose, ∃ V ∈ ColLattice M.transpose, vcross U V ≠ 0 ∧ gaussReduce U V eps = .error .sysExit) ∨
       ∃ N, minkLoop eps 10 M = .ok N ∧ ColLattice N.transpose = ColLattice M.transpose ∧ vnorm (N 2) < vnorm (N 1) - eps) := by
  rcases C39_minkowski M eps h.pos.le (by linarith [h.small]) hd with he | ⟨N, hN, -⟩
  · refine Or.inr ⟨he, ?_⟩
    rcases loop_exit 9 M h with ⟨U, V, hU, hV, h1, h2⟩ | ⟨N, h1, h2, h3 | h3⟩
    · exact Or.inl ⟨U, hU, V, hV, h1, h2⟩
    · exact Or.inr ⟨N, h1, h2, h3⟩
    · exfalso
      unfold minkReduce at he
      rw [if_neg (not_le.mpr hd)] at he
      simp only [bind, Except.bind] at he
      rw [h1] at he
      simp only [h3, not_true_eq_false, if_false] at he
      split_ifs at he
  · exact Or.inl ⟨N, hN⟩

/-- the simple cubic lattice at the tolerance of the code -/
example : ModerateLattice (1 : M3 ℝ) (1 / 10 ^ 7) := by
  refine ⟨by norm_num, by norm_num, by simp, ?_, by norm_num⟩
  rintro _ ⟨x, rfl⟩ h0
  rw [Matrix.transpose_one, Matrix.one_mulVec] at *
  have : ∃ i, x i ≠ 0 := by
    by_contra hc
    push Not at hc
    apply h0
    funext i
    simp [hc i]
  obtain ⟨i, hi⟩ := this
  have h1 : (1 : ℝ) ≤ (x i : ℝ) ^ 2 := by
    have : (1 : ℤ) ≤ x i ^ 2 := by
      have := sq_nonneg (x i)
      have : x i ^ 2 ≠ 0 := pow_ne_zero 2 hi
      omega
    exact_mod_cast this
  have h2 : (1 : ℝ) ≤ vnorm (fun i => (x i : ℝ)) := by
    unfold vnorm
    rw [Real.one_le_sqrt]
    have s0 := sq_nonneg (x 0 : ℝ)
    have s1 := sq_nonneg (x 1 : ℝ)
    have s2 := sq_nonneg (x 2 : ℝ)
    show (1 : ℝ) ≤ (x 0 : ℝ) ^ 2 + (x 1 : ℝ) ^ 2 + (x 2 : ℝ) ^ 2
    match i, h1 with
    | 0, h1 => linarith
    | 1, h1 => linarith
    | 2, h1 => linarith
  refine le_trans ?_ h2
  norm_num

end Phenum
