import Verif.Proof.NoiseSg
/-
Comparing superlattices with rounding errors.
-/
namespace Phenum
open Spec

/-- The comparison of two lattices of which one has index at most `n` in the other. -/
theorem equivN_ok {L1 L2 : M3 ℝ} (h1 : L1.det ≠ 0) {eps δ : ℝ} (h0 : 0 ≤ δ) (hδ : δ < eps) {n : ℕ} (hn : 1 ≤ n) (hne : (eps + δ) * n < 1)
    (hden : ∀ v ∈ ColLattice L2, (n : ℝ) • v ∈ ColLattice L1) : isEquivLatticeN δ L1 L2 eps = sure (isEquivLattice L1 L2 eps) := by
  classical
  have hu : IsUnit L1.det := isUnit_iff_ne_zero.mpr h1
  have hnK : (0 : ℝ) < n := by exact_mod_cast hn
  have hn1 : (1 : ℝ) ≤ n := by exact_mod_cast hn
  have hs1 : eps + δ < 1 := by nlinarith
  unfold isEquivLatticeN isEquivLattice
  rw [if_neg h1, if_neg h1]
  refine (measM_always h0 _).bind fun S hS => ?_
  refine (meas_always h0 _).bind fun d hd => ?_
  rw [noisy_pure]
  congr 2
  rw [decide_eq_decide]
  obtain ⟨T, hT⟩ := colLat_smul hden
  have hnS : (n : ℝ) • (L1⁻¹ * L2) = castM T := by
    have := congrArg (L1⁻¹ * ·) hT
    simpa [← mul_assoc, Matrix.nonsing_inv_mul _ hu] using this
  obtain ⟨X, hX⟩ : ∃ X, X = L1⁻¹ * L2 := ⟨_, rfl⟩
  rw [← hX] at hS hd hnS ⊢
  have hTij : ∀ i j, (n : ℝ) * X i j = ((T i j : ℤ) : ℝ) := fun i j => congrFun (congrFun hnS i) j
  have hgap : ∀ i j (z : ℤ), |X i j - z| ≤ eps + δ → X i j = z := by
    intro i j z hz
    have h2 : |(n : ℝ) * (X i j - z)| < 1 := by
      rw [abs_mul, abs_of_pos hnK]
      calc (n : ℝ) * |X i j - z| ≤ n * (eps + δ) := mul_le_mul_of_nonneg_left hz hnK.le
        _ < 1 := by rw [mul_comm]; exact hne
    rw [mul_sub, hTij] at h2
    have h3 : |((T i j - n * z : ℤ) : ℝ)| < 1 := by push_cast; exact h2
    have h4 : T i j - n * z = 0 := Int.abs_lt_one_iff.mp (by exact_mod_cast h3)
    have h5 : (n : ℝ) * X i j = n * z := by
      rw [hTij]
      have : T i j = n * z := by omega
      rw [this]
      push_cast
      rfl
    exact mul_left_cancel₀ hnK.ne' h5
  by_cases hint : ∀ i j, ∃ z : ℤ, X i j = z
  · choose Z hZ using hint
    have hdet : X.det = ((Matrix.of Z).det : ℤ) := by
      rw [← castM_det (K := ℝ)]
      congr 1
      ext i j
      exact hZ i j
    have e1 : ∀ i j, |S i j - (round (S i j) : ℤ)| ≤ eps := by
      intro i j
      refine le_trans (round_le (S i j) (Z i j)) ?_
      have := hS i j
      rw [hZ] at this
      linarith
    have e2 : ∀ i j, |X i j - (round (X i j) : ℤ)| ≤ eps := by
      intro i j
      rw [hZ, round_intCast, sub_self, abs_zero]
      linarith
    simp only [e1, e2, implies_true, and_true]
    obtain ⟨y, hy⟩ : ∃ y, y = (Matrix.of Z).det := ⟨_, rfl⟩
    rw [hdet, ← hy] at hd ⊢
    have hdd : |(|d| - |(y : ℝ)|)| ≤ δ := le_trans (abs_abs_sub_abs_le _ _) hd
    have key : |(|(y : ℝ)| - 1)| ≤ eps + δ → |(y : ℝ)| - 1 = 0 := by
      intro h
      have h2 : |((|y| - 1 : ℤ) : ℝ)| < 1 := by
        push_cast
        linarith
      have h3 : |y| - 1 = 0 := Int.abs_lt_one_iff.mp (by exact_mod_cast h2)
      have h4 : ((|y| - 1 : ℤ) : ℝ) = 0 := by rw [h3]; simp
      push_cast at h4
      exact h4
    constructor
    · intro h
      rw [key, abs_zero]
      · linarith
      · rw [abs_le] at h hdd ⊢
        constructor <;> linarith [h.1, h.2, hdd.1, hdd.2]
    · intro h
      have := key (by linarith)
      have h5 : |(y : ℝ)| = 1 := by linarith
      rw [h5] at hdd
      linarith
  · push Not at hint
    obtain ⟨i, j, hij⟩ := hint
    constructor
    · rintro ⟨-, h⟩
      exfalso
      apply hij (round (S i j))
      apply hgap
      have h2 := h i j
      have h3 := hS i j
      rw [abs_le] at h2 h3 ⊢
      constructor <;> linarith [h2.1, h2.2, h3.1, h3.2]
    · rintro ⟨-, h⟩
      exfalso
      apply hij (round (X i j))
      apply hgap
      linarith [h i j]

section
variable {A : M3 ℝ} {rots : List (M3 ℝ)} {n : ℕ} {eps δ : ℝ} (h : DedupOk A rots n (eps + δ)) (h0 : 0 ≤ δ) (hδ : δ < eps)
include h h0 hδ

theorem dedupN_test {H H' : M3 ℤ} (hH : H.det.natAbs = n) {r r' : M3 ℝ} (hr : r ∈ rots) (hr' : r' ∈ rots) :
    isEquivLatticeN δ (r * (A * castM H)) (r' * (A * castM H')) eps = sure (isEquivLattice (r * (A * castM H)) (r' * (A * castM H')) eps) := by
  apply equivN_ok _ h0 hδ h.n_pos h.eps_lt (super_den h.det h.grp h.pres hH hr hr')
  rw [Matrix.det_mul, Matrix.det_mul, castM_det]
  apply mul_ne_zero (h.grp.det_ne hr) (mul_ne_zero h.det _)
  have hn := h.n_pos
  have : H.det ≠ 0 := by intro h0; rw [h0] at hH; simp at hH; omega
  exact_mod_cast this

theorem dupWithN_ok {hi hj : M3 ℤ} (hH : hi.det.natAbs = n) : ∀ l : List (M3 ℝ), (∀ r ∈ l, r ∈ rots) →
    dupWithN δ A hi hj eps l = sure (dupWith A hi hj eps l)
  | [], _ => rfl
  | r :: l, hl => by
    unfold dupWithN dupWith
    have e := dedupN_test h h0 hδ (H' := hj) hH (hl r (by simp)) h.grp.one
    rw [one_mul_castM] at e
    rw [e]
    refine sure_bind _ _ _ fun b _ => ?_
    cases b
    · exact dupWithN_ok hH l (fun r hr => hl r (by simp [hr]))
    · rfl

theorem dupAnyN_ok {hi : M3 ℤ} (hH : hi.det.natAbs = n) : ∀ u : List (M3 ℤ), dupAnyN δ A rots eps hi u = sure (dupAny A rots eps hi u)
  | [] => rfl
  | hj :: u => by
    unfold dupAnyN dupAny
    rw [dupWithN_ok h h0 hδ hH rots (fun _ hr => hr)]
    refine sure_bind _ _ _ fun b _ => ?_
    cases b
    · exact dupAnyN_ok hH u
    · rfl

theorem dupLoopN_ok : ∀ (l : List (M3 ℤ)), (∀ H ∈ l, H.det.natAbs = n) → ∀ u : List (M3 ℤ),
    dupLoopN δ A rots eps l u = sure (dupLoop A rots eps l u)
  | [], _, _ => rfl
  | H :: l, hl, u => by
    unfold dupLoopN dupLoop
    rw [dupAnyN_ok h h0 hδ (hl H (by simp))]
    refine sure_bind _ _ _ fun b _ => ?_
    cases b
    · exact dupLoopN_ok l (fun r hr => hl r (by simp [hr])) _
    · exact dupLoopN_ok l (fun r hr => hl r (by simp [hr])) _

theorem removeDuplicatesN_ok (l : List (M3 ℤ)) (hl : ∀ H ∈ l, H.det.natAbs = n) :
    removeDuplicatesN δ l A rots eps = sure (removeDuplicates l A rots eps) := by
  unfold removeDuplicatesN removeDuplicates
  split_ifs
  · rfl
  · exact dupLoopN_ok h h0 hδ l hl []

theorem inDegenN_ok {H : M3 ℤ} (hH : H.det.natAbs = n) {r : M3 ℝ} (hr : r ∈ rots) : ∀ dg : List (M3 ℝ),
    (∀ D ∈ dg, ∃ r' ∈ rots, D = r' * (A * castM H)) →
    inDegenN δ eps (r * (A * castM H)) dg = sure (inDegen eps (r * (A * castM H)) dg)
  | [], _ => rfl
  | D :: dg, hdg => by
    unfold inDegenN inDegen
    obtain ⟨r', hr', rfl⟩ := hdg D (by simp)
    rw [dedupN_test h h0 hδ (H' := H) hH hr' hr]
    refine sure_bind _ _ _ fun b _ => ?_
    cases b
    · exact inDegenN_ok hH hr dg (fun D hD => hdg D (by simp [hD]))
    · rfl

theorem fixLoopN_ok {D : Type} {H : M3 ℤ} (hH : H.det.natAbs = n) : ∀ (ops : List (M3 ℝ × D)), (∀ op ∈ ops, op.1 ∈ rots) →
    ∀ (fixed : List (M3 ℝ × D)) (dg : List (M3 ℝ)), (∀ D ∈ dg, ∃ r' ∈ rots, D = r' * (A * castM H)) →
    fixLoopN δ A H eps ops fixed dg = sure (fixLoop A H eps ops fixed dg)
  | [], _, _, _, _ => rfl
  | op :: ops, hops, fixed, dg, hdg => by
    have hops' : ∀ o ∈ ops, o.1 ∈ rots := fun o ho => hops o (by simp [ho])
    unfold fixLoopN fixLoop
    simp only
    have e := dedupN_test h h0 hδ (H := H) (H' := H) hH (hops op (by simp)) h.grp.one
    rw [one_mul_castM] at e
    rw [e]
    refine sure_bind _ _ _ fun b _ => ?_
    cases b
    · rw [if_neg (by simp), if_neg (by simp), inDegenN_ok h h0 hδ hH (hops op (by simp)) dg hdg]
      refine sure_bind _ _ _ fun b' _ => ?_
      cases b'
      · refine fixLoopN_ok hH ops hops' _ _ ?_
        intro D hD
        rcases List.mem_append.mp hD with hD | hD
        · exact hdg D hD
        · rw [List.mem_singleton] at hD
          exact ⟨op.1, hops op (by simp), hD⟩
      · exact fixLoopN_ok hH ops hops' _ _ hdg
    · exact fixLoopN_ok hH ops hops' _ _ hdg

theorem fixingOperationsN_ok {D : Type} {H : M3 ℤ} (hH : H.det.natAbs = n) (ops : List (M3 ℝ × D)) (hops : ∀ op ∈ ops, op.1 ∈ rots) :
    fixingOperationsN δ A H eps ops = sure (fixingOperations A H eps ops) :=
  fixLoopN_ok h h0 hδ hH ops hops [] [] (by simp)

end
end Phenum
