import Verif.Model.Lattice
import Verif.Proof.HNF
/-
Lattice comparison: the test decides equality of the generated lattices.
-/
namespace Phenum
open Spec

variable {K : Type} [Field K] [LinearOrder K] [IsStrictOrderedRing K]

theorem castM_mul (H G : M3 ℤ) : (castM (H * G) : M3 K) = castM H * castM G := by
  unfold castM
  exact Matrix.map_mul (f := Int.castRingHom K)

theorem castM_det (H : M3 ℤ) : (castM H : M3 K).det = ((H.det : ℤ) : K) := by
  unfold castM
  exact (Int.cast_det H).symm

theorem castM_one : (castM 1 : M3 K) = 1 := by
  unfold castM
  exact Matrix.map_one (fun x : ℤ => (x : K)) (by simp) (by simp)

theorem castM_inj {H G : M3 ℤ} (h : (castM H : M3 K) = castM G) : H = G := by
  apply Matrix.ext
  intro i j
  have : ((H i j : ℤ) : K) = ((G i j : ℤ) : K) := congrFun (congrFun h i) j
  exact_mod_cast this

theorem castM_mulVec (H : M3 ℤ) (x : Fin 3 → ℤ) :
    (castM H : M3 K).mulVec (fun i => (x i : K)) = fun i => ((H.mulVec x i : ℤ) : K) := by
  funext i
  simp [castM, Matrix.mulVec, dotProduct]

theorem colLat_subset {L1 L2 : M3 K} : ColLattice L2 ⊆ ColLattice L1 ↔ ∃ T : M3 ℤ, L2 = L1 * castM T := by
  constructor
  · intro h
    have : ∀ j : Fin 3, ∃ x : Fin 3 → ℤ, L1.mulVec (fun i => (x i : K)) = fun i => L2 i j := by
      intro j
      refine h ⟨Pi.single j 1, ?_⟩
      funext i
      rw [show (fun i => ((Pi.single j (1 : ℤ) : Fin 3 → ℤ) i : K)) = Pi.single j (1 : K) by
        funext k
        by_cases hk : k = j
        · subst hk; simp
        · simp [hk]]
      simp [Matrix.mulVec, dotProduct_single]
    choose x hx using this
    refine ⟨fun i j => x j i, ?_⟩
    apply Matrix.ext
    intro i j
    have := congrFun (hx j) i
    rw [← this]
    rfl
  · rintro ⟨T, rfl⟩ v ⟨x, rfl⟩
    refine ⟨T.mulVec x, ?_⟩
    rw [← castM_mulVec, Matrix.mulVec_mulVec]

theorem colLat_eq {L1 L2 : M3 K} (h1 : L1.det ≠ 0) :
    ColLattice L1 = ColLattice L2 ↔ ∃ T : M3 ℤ, L2 = L1 * castM T ∧ |T.det| = 1 := by
  constructor
  · intro h
    obtain ⟨T, hT⟩ := colLat_subset.mp h.symm.subset
    obtain ⟨U, hU⟩ := colLat_subset.mp h.subset
    refine ⟨T, hT, ?_⟩
    have : L1 * castM (T * U) = L1 * 1 := by
      rw [castM_mul, ← mul_assoc, ← hT, ← hU, mul_one]
    have hTU : (castM (T * U) : M3 K) = 1 := by
      have hu : IsUnit L1.det := isUnit_iff_ne_zero.mpr h1
      have := congrArg (L1⁻¹ * ·) this
      simpa [← mul_assoc, Matrix.nonsing_inv_mul _ hu] using this
    rw [← castM_one] at hTU
    have := congrArg Matrix.det (castM_inj hTU)
    rw [Matrix.det_mul, Matrix.det_one] at this
    have hunit : IsUnit T.det := IsUnit.of_mul_eq_one _ this
    rcases Int.isUnit_iff.mp hunit with h | h <;> rw [h] <;> rfl
  · rintro ⟨T, hT, hd⟩
    apply Set.Subset.antisymm
    · apply colLat_subset.mpr
      have hu : IsUnit T.det := by
        rw [Int.isUnit_iff]
        rcases abs_eq (by norm_num : (0:ℤ) ≤ 1) |>.mp hd with h | h
        · exact Or.inl h
        · exact Or.inr h
      refine ⟨T⁻¹, ?_⟩
      rw [hT, mul_assoc, ← castM_mul, Matrix.mul_nonsing_inv _ hu, castM_one, mul_one]
    · exact colLat_subset.mpr ⟨T, hT⟩

theorem colLat_smul {L1 L2 : M3 K} {N : ℕ} (h : ∀ v ∈ ColLattice L2, (N : K) • v ∈ ColLattice L1) :
    ∃ T : M3 ℤ, (N : K) • L2 = L1 * castM T := by
  apply colLat_subset.mp
  rintro v ⟨x, rfl⟩
  rw [Matrix.smul_mulVec]
  exact h _ ⟨x, rfl⟩

variable [FloorRing K]

theorem equiv_test {L1 L2 : M3 K} (h1 : L1.det ≠ 0) {eps : K} (h0 : 0 ≤ eps) {N : ℕ} (hN : 1 ≤ N) (hNe : eps * N < 1)
    (hden : eps = 0 ∨ ∀ v ∈ ColLattice L2, (N : K) • v ∈ ColLattice L1) :
    ∃ b, isEquivLattice L1 L2 eps = .ok b ∧ (b = true ↔ ColLattice L1 = ColLattice L2) := by
  have hu : IsUnit L1.det := isUnit_iff_ne_zero.mpr h1
  unfold isEquivLattice
  rw [if_neg h1]
  refine ⟨_, rfl, ?_⟩
  rw [decide_eq_true_eq, colLat_eq h1]
  have hNK : (0 : K) < N := by exact_mod_cast hN
  have hN1 : (1 : K) ≤ N := by exact_mod_cast hN
  have heps1 : eps < 1 := by nlinarith
  constructor
  · rintro ⟨hd, hr⟩
    -- entries are integers
    have hint : ∀ i j, (L1⁻¹ * L2) i j = ((round ((L1⁻¹ * L2) i j) : ℤ) : K) := by
      intro i j
      have hrij := hr i j
      rcases hden with he | hden
      · rw [he] at hrij
        have := abs_nonpos_iff.mp hrij
        exact sub_eq_zero.mp this
      · obtain ⟨T, hT⟩ := colLat_smul hden
        have hS : (N : K) • (L1⁻¹ * L2) = castM T := by
          have := congrArg (L1⁻¹ * ·) hT
          simpa [← mul_assoc, Matrix.nonsing_inv_mul _ hu] using this
        have hSij : (N : K) * (L1⁻¹ * L2) i j = ((T i j : ℤ) : K) := congrFun (congrFun hS i) j
        set s := (L1⁻¹ * L2) i j with hs
        have hz : |(N : K) * (s - (round s : ℤ))| < 1 := by
          rw [abs_mul, abs_of_pos hNK]
          calc (N : K) * |s - (round s : ℤ)| ≤ N * eps := mul_le_mul_of_nonneg_left hrij hNK.le
            _ < 1 := by rw [mul_comm]; exact hNe
        rw [mul_sub, hSij] at hz
        have hz' : |(((T i j - N * round s : ℤ)) : K)| < 1 := by
          have e : (((T i j - N * round s : ℤ)) : K) = ((T i j : ℤ) : K) - N * (round s : ℤ) := by push_cast; ring
          rw [e]; exact hz
        have hz0 : T i j - N * round s = 0 := by
          have : |(T i j - N * round s : ℤ)| < 1 := by exact_mod_cast hz'
          exact Int.abs_lt_one_iff.mp this
        have : (N : K) * s = N * ((round s : ℤ) : K) := by
          rw [hSij]
          have : T i j = N * round s := by omega
          rw [this]; push_cast; ring
        exact mul_left_cancel₀ hNK.ne' this
    obtain ⟨T, e⟩ : ∃ T : M3 ℤ, L1⁻¹ * L2 = castM T := ⟨fun i j => round ((L1⁻¹ * L2) i j), Matrix.ext hint⟩
    refine ⟨T, ?_, ?_⟩
    · rw [← e, ← mul_assoc, Matrix.mul_nonsing_inv _ hu, one_mul]
    · rw [e, castM_det] at hd
      set t := T.det
      have : |((|t| - 1 : ℤ) : K)| < 1 := by
        push_cast
        exact lt_of_le_of_lt hd heps1
      have h2 : |(|t| - 1 : ℤ)| < 1 := by exact_mod_cast this
      have := Int.abs_lt_one_iff.mp h2
      show |t| = 1
      omega
  · rintro ⟨T, hT, hd⟩
    have e : L1⁻¹ * L2 = castM T := by rw [hT, ← mul_assoc, Matrix.nonsing_inv_mul _ hu, one_mul]
    rw [e, castM_det]
    refine ⟨?_, ?_⟩
    · have : |((T.det : ℤ) : K)| = 1 := by exact_mod_cast hd
      rw [this]; simpa using h0
    · intro i j
      show |((T i j : ℤ) : K) - (round ((T i j : ℤ) : K) : ℤ)| ≤ eps
      rw [round_intCast]; simpa using h0

end Phenum
