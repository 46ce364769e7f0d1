import Verif.Proof.Reduce
/-
C39: lattice reduction.
-/
namespace Phenum
open Spec

/-- C39. Gaussian reduction of two linearly independent vectors either gives up (after ten iterations) or returns two
vectors that generate the same lattice and are reduced: the first is not longer than the second (up to the tolerance),
and its projection on the second is at most half as long (up to the code's 10^-10). -/
theorem C39_gauss (U V : V3) (eps : ℝ) (h : vcross U V ≠ 0) :
    gaussReduce U V eps = .error .sysExit ∨ ∃ U' V', gaussReduce U V eps = .ok (U', V') ∧
      {w : V3 | ∃ x y : ℤ, ∀ i, w i = (x : ℝ) * U' i + (y : ℝ) * V' i} =
        {w : V3 | ∃ x y : ℤ, ∀ i, w i = (x : ℝ) * U i + (y : ℝ) * V i} ∧
      vnorm U' ≤ vnorm V' + eps ∧ |vdot U' V'| ≤ (1 / 2 + 1 / 10 ^ 10) * vdot U' U' := by
  rcases gaussReduce_spec eps U V h with h1 | ⟨U', V', h1, h2, -, h3⟩
  · exact Or.inl h1
  · exact Or.inr ⟨U', V', h1, h2, h3.1, h3.2⟩

/-- C39. Reducing the third vector of a basis keeps the lattice. -/
theorem C39_reduce_third (A B C : V3) (eps : ℝ) (h0 : 0 ≤ eps) (h1 : eps < 1) (hd : (rows3 A B C).det ≠ 0) :
    reduceC A B C eps = .error .sysExit ∨ ∃ A' B' C', reduceC A B C eps = .ok (A', B', C') ∧
      ColLattice (rows3 A' B' C').transpose = ColLattice (rows3 A B C).transpose := by
  rcases reduceC_spec h0 h1 hd with h | ⟨A', B', C', h, h2, -⟩
  · exact Or.inl h
  · exact Or.inr ⟨A', B', C', h, h2⟩

theorem rowLat_absdet {M N : M3 ℝ} (h : RowLat M = RowLat N) (hN : N.det ≠ 0) : |M.det| = |N.det| := by
  obtain ⟨T, hT⟩ := colLat_subset.mp (show ColLattice N.transpose ⊆ ColLattice M.transpose from h.symm.subset)
  obtain ⟨S, hS⟩ := colLat_subset.mp (show ColLattice M.transpose ⊆ ColLattice N.transpose from h.subset)
  have e1 := congrArg Matrix.det hT
  have e2 := congrArg Matrix.det hS
  rw [Matrix.det_mul, Matrix.det_transpose, Matrix.det_transpose, castM_det] at e1 e2
  have e3 : ((S.det * T.det : ℤ) : ℝ) = 1 := by
    rw [Int.cast_mul]
    rw [e2] at e1
    have : N.det * ((S.det : ℝ) * T.det) = N.det * 1 := by rw [mul_one, ← mul_assoc]; exact e1.symm
    exact mul_left_cancel₀ hN this
  have e4 : S.det * T.det = 1 := by exact_mod_cast e3
  have e5 : |(S.det : ℝ)| = 1 := by
    rcases Int.isUnit_iff.mp (IsUnit.of_mul_eq_one _ e4) with h | h <;> rw [h] <;> simp
  rw [e2, abs_mul, e5, mul_one]

/-- Minkowski's conditions for three vectors, up to a tolerance. -/
structure IsMinkowski (eps : ℝ) (b1 b2 b3 : V3) : Prop where
  asc12 : vnorm b1 ≤ vnorm b2 + eps
  asc23 : vnorm b2 ≤ vnorm b3 + eps
  second : ∀ x : ℤ, -1 ≤ x → x ≤ 1 → vnorm b2 ≤ vnorm (fun i => b2 i + x * b1 i) + eps
  third : ∀ x y : ℤ, -1 ≤ x → x ≤ 1 → -1 ≤ y → y ≤ 1 → vnorm b3 ≤ vnorm (fun i => b3 i + x * b1 i + y * b2 i) + eps

theorem vnorm_neg (v : V3) : vnorm (fun i => - v i) = vnorm v := by
  unfold vnorm; simp

theorem minkCheck_spec {M : M3 ℝ} {eps : ℝ} (h0 : 0 ≤ eps) (h : minkCheck M eps) : IsMinkowski eps (M 0) (M 1) (M 2) := by
  obtain ⟨c1, c2, c3, c4, c5, c6, c7, c8, c9, c10, c11, c12⟩ := h
  simp only [not_lt, gt_iff_lt] at c1 c2 c3 c4 c5 c6 c7 c8 c9 c10 c11 c12
  have tri : ∀ x : ℤ, -1 ≤ x → x ≤ 1 → x = -1 ∨ x = 0 ∨ x = 1 := by intro x _ _; omega
  have key : ∀ (u v : V3), vnorm u = vnorm v → ∀ w : V3, vnorm w ≤ vnorm v + eps → vnorm w ≤ vnorm u + eps := by
    intro u v h w hw; rw [h]; exact hw
  refine ⟨c1, c2, ?_, ?_⟩
  · intro x hx hx'
    rcases tri x hx hx' with rfl | rfl | rfl
    · refine key _ _ ?_ _ c4
      rw [← vnorm_neg]; congr 1; funext i; push_cast; ring
    · have : (fun i => M 1 i + ((0 : ℤ) : ℝ) * M 0 i) = M 1 := by funext i; simp
      rw [this]; linarith
    · refine key _ _ ?_ _ c3
      congr 1; funext i; push_cast; ring
  · intro x y hx hx' hy hy'
    rcases tri x hx hx' with rfl | rfl | rfl <;> rcases tri y hy hy' with rfl | rfl | rfl
    · refine key _ _ ?_ _ c11
      rw [← vnorm_neg]; congr 1; funext i; push_cast; ring
    · refine key _ _ ?_ _ c6
      congr 1; funext i; push_cast; ring
    · refine key _ _ ?_ _ c12
      rw [← vnorm_neg]; congr 1; funext i; push_cast; ring
    · refine key _ _ ?_ _ c8
      congr 1; funext i; push_cast; ring
    · have : (fun i => M 2 i + ((0 : ℤ) : ℝ) * M 0 i + ((0 : ℤ) : ℝ) * M 1 i) = M 2 := by funext i; simp
      rw [this]; linarith
    · refine key _ _ ?_ _ c7
      congr 1; funext i; push_cast; ring
    · refine key _ _ ?_ _ c10
      congr 1; funext i; push_cast; ring
    · refine key _ _ ?_ _ c5
      congr 1; funext i; push_cast; ring
    · refine key _ _ ?_ _ c9
      congr 1; funext i; push_cast; ring

/-- C39. Minkowski reduction of a basis (the rows of `M`) either gives up or returns a basis of the same lattice with
positive determinant, whose vectors satisfy Minkowski's conditions (the last two possibly in exchanged order). -/
theorem C39_minkowski (M : M3 ℝ) (eps : ℝ) (h0 : 0 ≤ eps) (h1 : eps < 1) (hd : eps < |M.det|) :
    minkReduce M eps = .error .sysExit ∨ ∃ N, minkReduce M eps = .ok N ∧
      ColLattice N.transpose = ColLattice M.transpose ∧ N.det = |M.det| ∧
      (IsMinkowski eps (N 0) (N 1) (N 2) ∨ IsMinkowski eps (N 0) (N 2) (N 1)) := by
  have hM : M.det ≠ 0 := by
    intro h; rw [h, abs_zero] at hd; linarith
  unfold minkReduce
  rw [if_neg (not_le.mpr hd)]
  simp only [bind, Except.bind]
  rcases minkLoop_spec h0 h1 10 M hM with h | ⟨N, h, hN⟩
  · left; rw [h]
  · rw [h]
    simp only
    have habs := rowLat_absdet hN hM
    by_cases hc : minkCheck N eps
    · rw [if_neg (not_not.mpr hc)]
      right
      by_cases hneg : N.det < 0
      · rw [if_pos hneg]
        refine ⟨_, rfl, ?_, ?_, Or.inr (minkCheck_spec h0 hc)⟩
        · have : RowLat (rows3 (N 0) (N 2) (N 1)) = RowLat N := by
            refine rowLat_perm ![0, 2, 1] ?_ ?_
            · rw [← Finite.injective_iff_bijective]; decide
            · intro i; fin_cases i <;> rfl
          exact this.trans hN
        · rw [← habs, abs_of_neg hneg]
          conv_rhs => rw [← rows3_eta N]
          rw [rows3_det, rows3_det]
          simp [vdot, vcross]; ring
      · rw [if_neg hneg]
        refine ⟨_, rfl, hN, ?_, Or.inl (minkCheck_spec h0 hc)⟩
        rw [← habs, abs_of_nonneg (not_lt.mp hneg)]
    · rw [if_pos hc]
      left; rfl

/-- C39. Linearly dependent vectors are reported. -/
theorem C39_dependent (M : M3 ℝ) (eps : ℝ) (h : |M.det| ≤ eps) : minkReduce M eps = .error .valueError := if_pos h

/-! ## The iteration limit -/

/-- The vectors (0,1), (1,0), (2,1), (5,2), (12,5), ... -/
def pellVec : ℕ → V3
  | 0 => ![0, 1, 0]
  | 1 => ![1, 0, 0]
  | n + 2 => fun i => 2 * pellVec (n + 1) i + pellVec n i

theorem pell_inv (n : ℕ) :
    2 / 5 * vdot (pellVec (n + 2)) (pellVec (n + 2)) ≤ vdot (pellVec (n + 2)) (pellVec (n + 1)) ∧
    vdot (pellVec (n + 2)) (pellVec (n + 1)) ≤ 9 / 20 * vdot (pellVec (n + 2)) (pellVec (n + 2)) ∧
    vdot (pellVec (n + 1)) (pellVec (n + 1)) ≤ 3 / 10 * vdot (pellVec (n + 2)) (pellVec (n + 2)) ∧
    5 ≤ vdot (pellVec (n + 2)) (pellVec (n + 2)) := by
  induction n with
  | zero =>
    have e1 : pellVec (0 + 1) = ![1, 0, 0] := rfl
    have e2 : pellVec (0 + 2) = fun i => 2 * (![1, 0, 0] : V3) i + (![0, 1, 0] : V3) i := rfl
    rw [e1, e2]
    simp [vdot]
    norm_num
  | succ n ih =>
    obtain ⟨h1, h2, h3, h4⟩ := ih
    have e : pellVec (n + 1 + 2) = fun i => 2 * pellVec (n + 2) i + pellVec (n + 1) i := rfl
    set u := pellVec (n + 2)
    set w := pellVec (n + 1)
    have e1 : vdot (pellVec (n + 1 + 2)) (pellVec (n + 1 + 2)) = 4 * vdot u u + 4 * vdot u w + vdot w w := by
      rw [e]; unfold vdot; ring
    have e2 : vdot (pellVec (n + 1 + 2)) (pellVec (n + 1 + 1)) = 2 * vdot u u + vdot u w := by
      rw [e]; show vdot _ u = _; unfold vdot; ring
    have e3 : vdot (pellVec (n + 1 + 1)) (pellVec (n + 1 + 1)) = vdot u u := rfl
    have hw : 0 ≤ vdot w w := by unfold vdot; nlinarith [mul_self_nonneg (w 0), mul_self_nonneg (w 1), mul_self_nonneg (w 2)]
    rw [e1, e2, e3]
    refine ⟨?_, ?_, ?_, ?_⟩ <;> linarith

theorem vnorm_eq_sqrt (v : V3) : vnorm v = Real.sqrt (vdot v v) := by
  unfold vnorm vdot; congr 1; ring

theorem pell_shorter (n : ℕ) {eps : ℝ} (h : eps ≤ 1 / 2) :
    vnorm (pellVec (n + 1)) < vnorm (pellVec (n + 2)) - eps := by
  obtain ⟨-, -, h3, h4⟩ := pell_inv n
  rw [vnorm_eq_sqrt, vnorm_eq_sqrt]
  set b := vdot (pellVec (n + 2)) (pellVec (n + 2))
  set a := vdot (pellVec (n + 1)) (pellVec (n + 1))
  have hb : 2 ≤ Real.sqrt b := Real.le_sqrt_of_sq_le (by linarith)
  have hab : Real.sqrt a ≤ 3 / 5 * Real.sqrt b := by
    apply Real.sqrt_le_iff.mpr
    refine ⟨by positivity, ?_⟩
    rw [mul_pow, Real.sq_sqrt (by linarith)]
    linarith
  linarith

theorem pell_step {eps : ℝ} (h : eps ≤ 1 / 2) (k n : ℕ) :
    gaussIter eps (k + 1) (pellVec (n + 2)) (pellVec (n + 3)) = gaussIter eps k (pellVec (n + 1)) (pellVec (n + 2)) := by
  obtain ⟨h1, h2, h3, h4⟩ := pell_inv n
  have e : pellVec (n + 3) = fun i => 2 * pellVec (n + 2) i + pellVec (n + 1) i := rfl
  conv_lhs => unfold gaussIter
  set u := pellVec (n + 2) with hu
  set w := pellVec (n + 1) with hw
  have hne : vdot u u ≠ 0 := by linarith
  have hpos : 0 < vdot u u := by linarith
  rw [if_neg hne]
  simp only
  have hr : npRound (vdot u (pellVec (n + 3)) / vdot u u + 1 / 10 ^ 10) = 2 := by
    have e1 : vdot u (pellVec (n + 3)) / vdot u u = 2 + vdot u w / vdot u u := by
      rw [e]
      field_simp
      unfold vdot; ring
    have b1 : 2 / 5 ≤ vdot u w / vdot u u := (le_div_iff₀ hpos).mpr h1
    have b2 : vdot u w / vdot u u ≤ 9 / 20 := (div_le_iff₀ hpos).mpr h2
    rw [e1]
    set s := vdot u w / vdot u u
    have hfl : ⌊2 + s + 1 / 10 ^ 10⌋ = 2 := by
      rw [Int.floor_eq_iff]; constructor <;> push_cast <;> norm_num <;> linarith
    have hfr : Int.fract (2 + s + 1 / 10 ^ 10) = s + 1 / 10 ^ 10 := by
      have := Int.self_sub_floor (2 + s + 1 / 10 ^ 10)
      rw [hfl] at this
      rw [← this]; push_cast; ring
    unfold npRound
    rw [if_neg (by rw [hfr]; intro h; norm_num at h; linarith), round_eq, Int.floor_eq_iff]
    constructor <;> push_cast <;> norm_num <;> linarith
  rw [hr]
  have hR : (fun i => pellVec (n + 3) i - ((2 : ℤ) : ℝ) * u i) = w := by
    funext i; rw [e]; push_cast; ring
  rw [hR, if_neg (not_le.mpr (pell_shorter n h))]

theorem pell_giveup {eps : ℝ} (h : eps ≤ 1 / 2) : ∀ k n : ℕ, k ≤ n →
    gaussIter eps k (pellVec (n + 1)) (pellVec (n + 2)) = .error .sysExit
  | 0, _, _ => rfl
  | k + 1, n, hk => by
    obtain ⟨m, rfl⟩ : ∃ m, n = m + 1 := ⟨n - 1, by omega⟩
    rw [pell_step h, pell_giveup h k m (by omega)]

/-- C39. Finding: the limit of ten iterations is reached by bases of the square lattice with entries of about 10^4: the
routine gives up (and the program ends) although the vectors are linearly independent. -/
theorem C39_gives_up (n : ℕ) (hn : 10 ≤ n) (eps : ℝ) (h : eps ≤ 1 / 2) :
    gaussReduce (pellVec (n + 1)) (pellVec (n + 2)) eps = .error .sysExit ∧
      PairLat (pellVec (n + 1)) (pellVec (n + 2)) = PairLat ![1, 0, 0] ![0, 1, 0] := by
  constructor
  · unfold gaussReduce
    rw [if_neg (not_lt.mpr (pell_shorter n h).le)]
    exact pell_giveup h 10 n hn
  · clear hn
    induction n with
    | zero =>
      have := pairLat_sub (pellVec 1) (pellVec 2) 2
      rw [← this, pairLat_comm]
      rw [pairLat_comm]
      congr 1
      funext i
      have e : pellVec 2 = fun i => 2 * pellVec 1 i + pellVec 0 i := rfl
      rw [e]
      push_cast
      show 2 * pellVec 1 i + pellVec 0 i - 2 * pellVec 1 i = _
      rw [add_sub_cancel_left]
      rfl
    | succ n ih =>
      rw [← ih]
      have := pairLat_sub (pellVec (n + 1 + 1)) (pellVec (n + 1 + 2)) 2
      rw [← this, pairLat_comm]
      congr 1
      funext i
      have e : pellVec (n + 1 + 2) = fun i => 2 * pellVec (n + 2) i + pellVec (n + 1) i := rfl
      rw [e]
      push_cast
      show 2 * pellVec (n + 2) i + pellVec (n + 1) i - 2 * pellVec (n + 2) i = _
      rw [add_sub_cancel_left]

/-- The vectors (3,1) and (1,0) reduce to a basis of the square lattice. -/
example : ∃ U V, gaussReduce ![1, 0, 0] ![3, 1, 0] 0 = .ok (U, V) ∧ vdot U V = 0 := by
  have hdot : vdot (![1, 0, 0] : V3) ![1, 0, 0] = 1 := by simp [vdot]
  have hn1 : vnorm (![1, 0, 0] : V3) = 1 := by rw [vnorm_eq_sqrt, hdot, Real.sqrt_one]
  have hn2 : 1 ≤ vnorm (![3, 1, 0] : V3) := by
    rw [vnorm_eq_sqrt]; apply Real.le_sqrt_of_sq_le; simp only [vdot]; show (1:ℝ)^2 ≤ 3*3+1*1+0*0; norm_num
  have hr : npRound (vdot (![1, 0, 0] : V3) ![3, 1, 0] / vdot (![1, 0, 0] : V3) ![1, 0, 0] + 1 / 10 ^ 10) = 3 := by
    have : vdot (![1, 0, 0] : V3) ![3, 1, 0] = 3 := by simp [vdot]
    rw [this, hdot]
    unfold npRound
    have hfl : ⌊(3 : ℝ) / 1 + 1 / 10 ^ 10⌋ = 3 := by
      rw [Int.floor_eq_iff]; constructor <;> push_cast <;> norm_num
    have hfr : Int.fract ((3 : ℝ) / 1 + 1 / 10 ^ 10) = 1 / 10 ^ 10 := by
      rw [← Int.self_sub_floor, hfl]; push_cast; norm_num
    rw [if_neg (by rw [hfr]; norm_num), round_eq, Int.floor_eq_iff]
    constructor <;> push_cast <;> norm_num
  have hR : (fun i => (![3, 1, 0] : V3) i - ((3 : ℤ) : ℝ) * (![1, 0, 0] : V3) i) = ![0, 1, 0] := by
    funext i; fin_cases i <;> simp
  refine ⟨![1, 0, 0], ![0, 1, 0], ?_, by simp [vdot]⟩
  unfold gaussReduce
  rw [if_neg (by rw [hn1]; linarith)]
  show gaussIter 0 (9 + 1) _ _ = _
  unfold gaussIter
  rw [if_neg (by rw [hdot]; norm_num)]
  simp only [hr]
  rw [hR, if_pos]
  rw [hn1, vnorm_eq_sqrt]
  simp [vdot]

end Phenum
