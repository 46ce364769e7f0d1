import Verif.Proof.ReduceFull
/-
C39: ten steps of Gauss's reduction are enough unless one vector is very long compared with the shortest one.
-/
namespace Phenum
open Spec

/-- A step that continues makes the squared length smaller by a factor 2.9, except for the first one. -/
theorem gauss_shrinks {U V : V3} {eps : ℝ} (he : 0 < eps) (hU : 0 < vdot U U) (hred : |vdot U V| ≤ (1 / 2 + 1 / 10 ^ 10) * vdot V V)
    (hlt : vnorm U < vnorm V - eps) (hmod : vnorm U ≤ 10 ^ 9 * eps)
    (hgo : vnorm (fun i => V i - (npRound (vdot U V / vdot U U + 1 / 10 ^ 10) : ℝ) * U i) < vnorm U - eps) :
    29 / 10 * vdot U U ≤ vdot V V := by
  set m := npRound (vdot U V / vdot U U + 1 / 10 ^ 10) with hm
  set R : V3 := fun i => V i - (m : ℝ) * U i with hR
  have hnear := npRound_near (vdot U V / vdot U U + 1 / 10 ^ 10)
  rw [← hm] at hnear
  have hn' := abs_le.mp hnear
  have hx : vdot U V / vdot U U * vdot U U = vdot U V := by field_simp
  set x := vdot U V / vdot U U
  have eu := vnorm_sq' U
  have ev := vnorm_sq' V
  have er := vnorm_sq' R
  have hU0 := vnorm_nonneg U
  have hR0 := vnorm_nonneg R
  have eR : vdot R R = vdot V V - 2 * m * vdot U V + (m : ℝ) ^ 2 * vdot U U := by
    rw [hR]; unfold vdot; ring
  have hr := abs_le.mp hred
  by_contra hc
  have hc : vdot V V < 29 / 10 * vdot U U := not_le.mp hc
  have hbig : vdot U U < vdot V V := by
    rw [← eu, ← ev]
    nlinarith
  have hm2 : -1 ≤ m ∧ m ≤ 1 := by
    have h1 : |x| * vdot U U = |vdot U V| := by rw [← hx, abs_mul, abs_of_pos hU]
    have h2 : |x| < 1499 / 1000 := by
      by_contra h
      have h := not_lt.mp h
      nlinarith
    have h3 := abs_lt.mp h2
    constructor
    · have : (-2 : ℝ) < m := by linarith
      have : (-2 : ℤ) < m := by exact_mod_cast this
      omega
    · have : (m : ℝ) < 2 := by linarith
      have : m < 2 := by exact_mod_cast this
      omega
  have hm3 : m = -1 ∨ m = 0 ∨ m = 1 := by omega
  have hRbig : vdot U U - 6 / 10 ^ 10 * vdot U U ≤ vdot R R := by
    rcases hm3 with h | h | h <;> rw [eR, h] <;> push_cast <;> nlinarith
  have hp : vnorm U ^ 2 - vnorm R ^ 2 ≤ 6 / 10 ^ 10 * vnorm U ^ 2 := by rw [eu, er]; linarith
  have h5 : eps * vnorm U ≤ vnorm U ^ 2 - vnorm R ^ 2 := by nlinarith
  have hpos : 0 < vnorm U := by
    rcases hU0.lt_or_eq with h | h
    · exact h
    · rw [← h] at eu; rw [← eu] at hU; norm_num at hU
  have h6 : vnorm U ^ 2 ≤ 10 ^ 9 * eps * vnorm U := by rw [sq]; exact mul_le_mul_of_nonneg_right hmod hU0
  have : 0 < eps * vnorm U := mul_pos he hpos
  linarith

theorem round_reduced {U V : V3} (hU : 0 < vdot U U) :
    |vdot (fun i => V i - (npRound (vdot U V / vdot U U + 1 / 10 ^ 10) : ℝ) * U i) U| ≤ (1 / 2 + 1 / 10 ^ 10) * vdot U U := by
  set m := npRound (vdot U V / vdot U U + 1 / 10 ^ 10) with hm
  have hnear := npRound_near (vdot U V / vdot U U + 1 / 10 ^ 10)
  rw [← hm] at hnear
  have hn' := abs_le.mp hnear
  have hx : vdot U V / vdot U U * vdot U U = vdot U V := by field_simp
  set x := vdot U V / vdot U U
  have e : vdot (fun i => V i - (m : ℝ) * U i) U = (x - m) * vdot U U := by
    rw [sub_mul, hx]; unfold vdot; ring
  rw [e, abs_mul, abs_of_pos hU]
  refine mul_le_mul_of_nonneg_right ?_ hU.le
  rw [abs_le]
  constructor <;> linarith

theorem gauss_giveup {eps s : ℝ} (he : 0 < eps) (hs : 0 < s) : ∀ (k : ℕ) (U V : V3), vcross U V ≠ 0 →
    |vdot U V| ≤ (1 / 2 + 1 / 10 ^ 10) * vdot V V → vnorm U < vnorm V - eps → vnorm U ≤ 10 ^ 9 * eps →
    (∀ w ∈ PairLat U V, w ≠ 0 → s ≤ vnorm w) → gaussIter eps k U V = .error .sysExit → (29 / 10) ^ k * s ^ 2 ≤ vdot V V
  | 0, U, V, hcr, _, _, _, hsh, _ => by
    have h1 : V ∈ PairLat U V := ⟨0, 1, fun i => by simp⟩
    have h2 : V ≠ 0 := by
      intro h; apply hcr; rw [h]; funext i; fin_cases i <;> simp [vcross]
    have := hsh V h1 h2
    rw [pow_zero, one_mul, ← vnorm_sq']
    exact pow_le_pow_left₀ hs.le this 2
  | k + 1, U, V, hcr, hred, hlt, hmod, hsh, herr => by
    have hU : 0 < vdot U U := by
      refine lt_of_le_of_ne ?_ (Ne.symm (vdot_self_ne hcr))
      rw [← vnorm_sq']; positivity
    unfold gaussIter at herr
    rw [if_neg hU.ne'] at herr
    simp only at herr
    split_ifs at herr with hc
    have hgo := not_le.mp hc
    have h1 := gauss_shrinks he hU hred hlt hmod hgo
    set m := npRound (vdot U V / vdot U U + 1 / 10 ^ 10)
    set R : V3 := fun i => V i - (m : ℝ) * U i with hR
    have hcr' : vcross R U ≠ 0 := by
      intro h0
      apply hcr
      rw [← vcross_sub U V m, vcross_neg R U]
      funext i
      have := congrFun h0 i
      rw [this]; simp
    have ih := gauss_giveup he hs k R U hcr' (round_reduced hU) hgo (by linarith) (by
      intro w hw
      apply hsh
      rw [pairLat_comm, pairLat_sub] at hw
      exact hw) herr
    rw [pow_succ]
    nlinarith

/-- C39. Gauss's reduction of two independent vectors converges within its limit of ten steps unless both vectors are longer than 120 times
the shortest vector of the lattice they span. -/
theorem C39_gauss_converges {U V : V3} {eps s : ℝ} (he : 0 < eps) (hs : 0 < s) (hcr : vcross U V ≠ 0)
    (hsh : ∀ x y : ℤ, (fun i => (x : ℝ) * U i + (y : ℝ) * V i) ≠ 0 → s ≤ vnorm (fun i => (x : ℝ) * U i + (y : ℝ) * V i))
    (hlen : min (vnorm U) (vnorm V) + eps ≤ 120 * s) (hmod : vnorm U ≤ 10 ^ 9 * eps ∧ vnorm V ≤ 10 ^ 9 * eps) :
    ∃ U' V', gaussReduce U V eps = .ok (U', V') := by
  have key : ∀ U V : V3, vcross U V ≠ 0 → (∀ w ∈ PairLat U V, w ≠ 0 → s ≤ vnorm w) → vnorm U ≤ 120 * s → vnorm U ≤ 10 ^ 9 * eps →
      gaussIter eps 10 U V ≠ .error .sysExit := by
    intro U V hcr hsh hlen hmod herr
    have hU : 0 < vdot U U := by
      refine lt_of_le_of_ne ?_ (Ne.symm (vdot_self_ne hcr))
      rw [← vnorm_sq']; positivity
    unfold gaussIter at herr
    rw [if_neg hU.ne'] at herr
    simp only at herr
    split_ifs at herr with hc
    have hgo := not_le.mp hc
    set m := npRound (vdot U V / vdot U U + 1 / 10 ^ 10)
    set R : V3 := fun i => V i - (m : ℝ) * U i with hR
    have hcr' : vcross R U ≠ 0 := by
      intro h0
      apply hcr
      rw [← vcross_sub U V m, vcross_neg R U]
      funext i
      have := congrFun h0 i
      rw [this]; simp
    have h2 := gauss_giveup he hs 9 R U hcr' (round_reduced hU) hgo (by linarith) (by
      intro w hw
      apply hsh
      rw [pairLat_comm, pairLat_sub] at hw
      exact hw) herr
    rw [← vnorm_sq'] at h2
    have h3 : vnorm U ^ 2 ≤ (120 * s) ^ 2 := pow_le_pow_left₀ (vnorm_nonneg _) hlen 2
    have h4 : (0 : ℝ) < s ^ 2 := by positivity
    have h5 : (14401 : ℝ) ≤ (29 / 10) ^ 9 := by norm_num
    nlinarith
  have hsh' : ∀ w ∈ PairLat U V, w ≠ 0 → s ≤ vnorm w := by
    rintro w ⟨x, y, hw⟩ h0
    have e : w = fun i => (x : ℝ) * U i + (y : ℝ) * V i := funext hw
    rw [e] at h0 ⊢
    exact hsh x y h0
  rcases gaussReduce_spec eps U V hcr with h | ⟨U', V', h, -⟩
  · exfalso
    unfold gaussReduce at h
    split_ifs at h with hc
    · refine key V U (by rw [vcross_neg]; intro h0; apply hcr; funext i; have := congrFun h0 i; simpa using this) (by rw [pairLat_comm]; exact hsh') ?_ hmod.2 h
      rcases min_choice (vnorm U) (vnorm V) with e | e <;> rw [e] at hlen <;> linarith
    · refine key U V hcr hsh' ?_ hmod.1 h
      rcases min_choice (vnorm U) (vnorm V) with e | e <;> rw [e] at hlen <;> linarith
  · exact ⟨U', V', h⟩

/-- two vectors that meet the hypotheses: a row of seven cells of the square lattice, sheared -/
example : ∃ U' V', gaussReduce ![7, 0, 0] ![3, 1, 0] (1 / 10 ^ 7) = .ok (U', V') := by
  have hn : ∀ x y : ℤ, (fun i => (x : ℝ) * (![7, 0, 0] : V3) i + (y : ℝ) * (![3, 1, 0] : V3) i) = ![7 * (x : ℝ) + 3 * y, y, 0] := by
    intro x y
    funext i
    fin_cases i <;> simp
    ring
  have h10 : vnorm ![3, 1, 0] ≤ 4 := by
    unfold vnorm
    rw [Real.sqrt_le_left (by norm_num)]
    simp
    norm_num
  refine C39_gauss_converges (s := 1) (by norm_num) one_pos ?_ ?_ ?_ ⟨?_, ?_⟩
  · intro h
    have := congrFun h 2
    simp [vcross] at this
  · intro x y h0
    rw [hn] at h0 ⊢
    unfold vnorm
    rw [Real.one_le_sqrt]
    simp only [Matrix.cons_val_zero, Matrix.cons_val_one, Matrix.cons_val]
    have h1 : (1 : ℤ) ≤ (7 * x + 3 * y) ^ 2 + y ^ 2 := by
      by_contra hc
      have s1 := sq_nonneg (7 * x + 3 * y)
      have s2 := sq_nonneg y
      have e2 : y = 0 := by
        apply pow_eq_zero_iff (two_ne_zero) |>.mp
        omega
      have e1 : 7 * x + 3 * y = 0 := by
        apply pow_eq_zero_iff (two_ne_zero) |>.mp
        omega
      have e3 : x = 0 := by omega
      apply h0
      rw [e2, e3]
      funext i
      fin_cases i <;> simp
    have h2 : (1 : ℝ) ≤ (7 * x + 3 * y : ℝ) ^ 2 + (y : ℝ) ^ 2 := by exact_mod_cast h1
    linarith [sq_nonneg (0 : ℝ)]
  · have := min_le_right (vnorm ![7, 0, 0]) (vnorm ![3, 1, 0])
    linarith
  · have : vnorm ![7, 0, 0] ≤ 7 := by
      unfold vnorm
      rw [Real.sqrt_le_left (by norm_num)]
      simp
    linarith
  · linarith

end Phenum
