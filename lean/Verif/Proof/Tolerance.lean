import Verif.Proof.SymGroup
/-
Tolerances that are small enough, explicitly: for lattices whose scalar products, and atoms whose lattice coordinates,
are multiples of some fraction.
-/
namespace Phenum
open Spec

/-- The tolerance is small compared with the numbers of the crystal. The components of the lattice vectors (rows of `P`) are at
most `K`, those of the inverse matrix at most `K'`; the scalar products of lattice vectors are multiples of `1/g`; the lattice
coordinates of the atoms are multiples of `1/D`. -/
structure Spec.Coarse (P : M3 ℝ) (bas : List V3) (K K' : ℝ) (g D : ℕ) (eps : ℝ) : Prop where
  entries : ∀ i j, |P i j| ≤ K
  inverse : ∀ i j, |P⁻¹ i j| ≤ K'
  products : ∀ i j, ∃ z : ℤ, (P * P.transpose) i j = (z : ℝ) / g
  atoms : ∀ d ∈ bas, ∃ x : Fin 3 → ℤ, d = P.transpose.mulVec (fun i => (x i : ℝ) / D)
  gpos : 0 < g
  dpos : 0 < D
  pos : 0 < eps
  small : 4 * K * eps < 1
  angles : 9 * K ^ 2 * g * eps < 1
  coords : eps * D < 1
  apart : 3 * K' * D * eps < 1

/-- the vectors whose lattice coordinates are multiples of `1/D` -/
def Grid (P : M3 ℝ) (D : ℕ) : Set V3 := {v | ∃ x : Fin 3 → ℤ, v = P.transpose.mulVec (fun i => (x i : ℝ) / D)}

section
variable {P : M3 ℝ} {D : ℕ}

theorem grid_iff (hD : 0 < D) (v : V3) : v ∈ Grid P D ↔ (D : ℝ) • v ∈ ColLattice P.transpose := by
  have hD' : (D : ℝ) ≠ 0 := by positivity
  constructor
  · rintro ⟨x, rfl⟩
    refine ⟨x, ?_⟩
    rw [← Matrix.mulVec_smul]
    congr 1
    funext i
    simp only [Pi.smul_apply, smul_eq_mul]
    field_simp
  · rintro ⟨x, hx⟩
    refine ⟨x, ?_⟩
    have : (fun i => (x i : ℝ) / D) = (D : ℝ)⁻¹ • (fun i => (x i : ℝ)) := by
      funext i
      simp only [Pi.smul_apply, smul_eq_mul]
      field_simp
    rw [this, Matrix.mulVec_smul, hx, smul_smul, inv_mul_cancel₀ hD', one_smul]

theorem grid_isSub (hD : 0 < D) : IsSub (Grid P D) := by
  have hΛ := colLat_isSub P.transpose
  refine ⟨?_, ?_, ?_⟩
  · rw [grid_iff hD, smul_zero]; exact hΛ.zero
  · intro u hu v hv
    rw [grid_iff hD] at *
    rw [smul_add]
    exact hΛ.add _ hu _ hv
  · intro u hu
    rw [grid_iff hD] at *
    rw [smul_neg]
    exact hΛ.neg _ hu

theorem grid_lattice {v : V3} (hD : 0 < D) (hv : v ∈ ColLattice P.transpose) : v ∈ Grid P D := by
  rw [grid_iff hD]
  obtain ⟨x, rfl⟩ := hv
  refine ⟨fun i => D * x i, ?_⟩
  rw [← Matrix.mulVec_smul]
  congr 1
  funext i
  simp

theorem grid_sub (hD : 0 < D) {u v : V3} (hu : u ∈ Grid P D) (hv : v ∈ Grid P D) : u - v ∈ Grid P D := by
  rw [sub_eq_add_neg]
  exact (grid_isSub hD).add _ hu _ ((grid_isSub hD).neg _ hv)

theorem grid_rot (hD : 0 < D) {R : M3 ℝ} (h : R.mulVec '' ColLattice P.transpose = ColLattice P.transpose) {v : V3} (hv : v ∈ Grid P D) :
    R.mulVec v ∈ Grid P D := by
  rw [grid_iff hD] at *
  rw [← Matrix.mulVec_smul, ← h]
  exact ⟨_, hv, rfl⟩

variable (hP : P.det ≠ 0)
include hP

theorem grid_canon (hD : 0 < D) {v : V3} (hv : v ∈ Grid P D) : canonV P v ∈ Grid P D := by
  have := grid_sub hD hv (grid_lattice hD (canonV_sub hP v))
  rwa [sub_sub_cancel] at this

theorem grid_fract (hD : 0 < D) {eps : ℝ} (h : eps * D < 1) {v : V3} (hv : v ∈ Grid P D) (i : Fin 3) :
    Int.fract ((P.transpose)⁻¹.mulVec v i) < 1 - eps := by
  obtain ⟨x, rfl⟩ := hv
  rw [Matrix.mulVec_mulVec, c2l_l2c hP, Matrix.one_mulVec]
  have hD' : (0 : ℝ) < D := by exact_mod_cast hD
  have h1 : Int.fract ((x i : ℝ) / D) = ((x i % (D : ℤ) : ℤ) : ℝ) / D := by
    have := Int.mul_ediv_add_emod (x i) D
    have e : (x i : ℝ) / D = (x i / (D : ℤ) : ℤ) + ((x i % (D : ℤ) : ℤ) : ℝ) / D := by
      rw [eq_comm, add_div' _ _ _ hD'.ne', div_left_inj' hD'.ne']
      have h5 : ((D * (x i / (D : ℤ)) + x i % (D : ℤ) : ℤ) : ℝ) = (x i : ℝ) := by rw [this]
      push_cast at h5
      linarith
    rw [e, Int.fract_intCast_add]
    rw [Int.fract_eq_self]
    have h2 := Int.emod_nonneg (x i) (b := (D : ℤ)) (by positivity)
    have h3 := Int.emod_lt_of_pos (x i) (b := (D : ℤ)) (by exact_mod_cast hD)
    constructor
    · have : (0 : ℝ) ≤ ((x i % (D : ℤ) : ℤ) : ℝ) := by exact_mod_cast h2
      positivity
    · rw [div_lt_one hD']
      exact_mod_cast h3
  rw [h1, div_lt_iff₀ hD']
  have h3 := Int.emod_lt_of_pos (x i) (b := (D : ℤ)) (by exact_mod_cast hD)
  have h4 : ((x i % (D : ℤ) : ℤ) : ℝ) ≤ D - 1 := by
    have : x i % (D : ℤ) ≤ D - 1 := by omega
    exact_mod_cast this
  nlinarith

theorem grid_small (hD : 0 < D) {K' eps : ℝ} (h0 : 0 ≤ eps) (hK : ∀ i j, |P⁻¹ i j| ≤ K') (h : 3 * K' * D * eps < 1) {v : V3}
    (hv : v ∈ Grid P D) (hs : ∀ i, |v i| ≤ eps) : v = 0 := by
  obtain ⟨x, hx⟩ := hv
  have hD' : (0 : ℝ) < D := by exact_mod_cast hD
  have hxz : ∀ j, x j = 0 := by
    intro j
    have h1 : (x j : ℝ) / D = (P.transpose)⁻¹.mulVec v j := by
      rw [hx, Matrix.mulVec_mulVec, c2l_l2c hP, Matrix.one_mulVec]
    have h2 : |(P.transpose)⁻¹.mulVec v j| ≤ 3 * K' * eps := by
      rw [← Matrix.transpose_nonsing_inv]
      simp only [Matrix.mulVec, dotProduct, Fin.sum_univ_three, Matrix.transpose_apply]
      have hm : ∀ i, |P⁻¹ i j * v i| ≤ K' * eps := by
        intro i
        rw [abs_mul]
        exact mul_le_mul (hK i j) (hs i) (abs_nonneg _) (le_trans (abs_nonneg _) (hK i j))
      have a := abs_add_le (P⁻¹ 0 j * v 0 + P⁻¹ 1 j * v 1) (P⁻¹ 2 j * v 2)
      have b := abs_add_le (P⁻¹ 0 j * v 0) (P⁻¹ 1 j * v 1)
      linarith [hm 0, hm 1, hm 2]
    rw [← h1, abs_div, abs_of_pos hD', div_le_iff₀ hD'] at h2
    have h3 : |(x j : ℝ)| < 1 := by
      calc |(x j : ℝ)| ≤ 3 * K' * eps * D := h2
        _ = 3 * K' * D * eps := by ring
        _ < 1 := h
    have h4 : |x j| < 1 := by exact_mod_cast h3
    exact Int.abs_lt_one_iff.mp h4
  rw [hx]
  have : (fun i => ((x i : ℤ) : ℝ) / D) = 0 := by
    funext i
    simp [hxz i]
  rw [this, Matrix.mulVec_zero]

/-- On the grid, `bring_into_cell` and the comparisons are exact. -/
theorem grid_bring (hD : 0 < D) {K' eps : ℝ} (h0 : 0 < eps) (hc : eps * D < 1) (hK : ∀ i j, |P⁻¹ i j| ≤ K') (h : 3 * K' * D * eps < 1) :
    BringExact P (Grid P D) eps := by
  have h1 : eps < 1 := by
    have : (1 : ℝ) ≤ D := by exact_mod_cast hD
    nlinarith
  refine ⟨fun v hv => bring_canon hP h0 h1 (grid_fract hP hD hc hv), fun u hu v hv => ?_⟩
  rw [← canonV_eq_iff hP]
  constructor
  · intro hs
    have := grid_small hP hD h0.le hK h (grid_sub hD (grid_canon hP hD hu) (grid_canon hP hD hv)) hs
    exact sub_eq_zero.mp this
  · intro e i
    rw [e, sub_self, abs_zero]
    exact h0.le

theorem sgVecs_grid (hD : 0 < D) {C : List (ℕ × V3)} (hC : ∀ a ∈ C, a.2 ∈ Grid P D) : sgVecs P C ⊆ Grid P D := by
  have hrot : ∀ R, IsLatSym P R → ∀ v ∈ Grid P D, R.mulVec v ∈ Grid P D := fun R hR v hv =>
    grid_rot hD ((isLatSym_iff hP R).mp hR).2 hv
  rintro v ((⟨a, ha, rfl⟩ | ⟨⟨R, a, b⟩, ⟨hR, ha, hb⟩, rfl⟩) | ⟨⟨R, a, b, c⟩, ⟨hR, ha, hb, hc⟩, rfl⟩)
  · exact hC a ha
  · exact grid_sub hD (grid_canon hP hD (hC a ha)) (hrot R hR _ (grid_canon hP hD (hC b hb)))
  · refine (grid_isSub hD).add _ (hrot R hR _ (grid_canon hP hD (hC b hb))) _ (grid_canon hP hD ?_)
    exact grid_sub hD (grid_canon hP hD (hC a ha)) (hrot R hR _ (grid_canon hP hD (hC c hc)))

theorem dvVecs_grid (hD : 0 < D) {bas : List V3} (hC : ∀ d ∈ bas, d ∈ Grid P D) : dvVecs P bas ⊆ Grid P D := by
  rintro v (⟨⟨⟨R, s⟩, d⟩, ⟨⟨hs, -⟩, hd⟩, rfl⟩ | hv)
  · obtain ⟨h1, h2, h3⟩ := (crystalSym_iff (colLat_isSub P.transpose)).mp hs
    obtain ⟨c, hc, -, hm⟩ := h3 (1, d) (List.mem_map_of_mem hd)
    obtain ⟨c', hc', rfl⟩ := List.mem_map.mp hc
    simp only at hm h1 h2
    have hT : R.transpose.mulVec '' ColLattice P.transpose = ColLattice P.transpose :=
      ((isLatSym_iff hP _).mp (((isLatSym_iff hP R).mpr ⟨h1, h2⟩).inv hP)).2
    refine (grid_isSub hD).add _ (grid_rot hD hT (hC d hd)) _ ?_
    have := (grid_isSub hD).add _ (grid_sub hD (grid_lattice hD hm) (grid_rot hD h2 (hC d hd))) _ (hC c' hc')
    convert this using 1
    simp only
    abel
  · exact hC v hv

/-- A matrix that turns the basis into integer combinations and is nearly orthogonal is orthogonal, if the scalar products are multiples
of `1/g`. -/
theorem orth_gap {K : ℝ} {g : ℕ} (hg : 0 < g) {eps : ℝ} (h0 : 0 ≤ eps) (hK : ∀ i j, |P i j| ≤ K)
    (hprod : ∀ i j, ∃ z : ℤ, (P * P.transpose) i j = (z : ℝ) / g) (ha : 9 * K ^ 2 * g * eps < 1) {M : M3 ℤ} {R : M3 ℝ}
    (hR : R = P⁻¹ * (realM M * P)) (hE : ∀ i j, |(R * R.transpose - 1) i j| ≤ eps) : R * R.transpose = 1 := by
  have hK0 : 0 ≤ K := le_trans (abs_nonneg _) (hK 0 0)
  have hg' : (0 : ℝ) < g := by exact_mod_cast hg
  have hunit := isUnit_iff_ne_zero.2 hP
  choose Z hZ using hprod
  -- the error in the scalar products
  have hPR : P * R = realM M * P := by rw [hR, ← Matrix.mul_assoc, Matrix.mul_nonsing_inv _ hunit, Matrix.one_mul]
  have hkey : P * (R * R.transpose - 1) * P.transpose = realM M * (P * P.transpose) * (realM M).transpose - P * P.transpose := by
    rw [Matrix.mul_sub, Matrix.sub_mul, Matrix.mul_one]
    congr 1
    calc P * (R * R.transpose) * P.transpose = (P * R) * (P * R).transpose := by
          rw [Matrix.transpose_mul]; simp only [Matrix.mul_assoc]
      _ = _ := by rw [hPR, Matrix.transpose_mul]; simp only [Matrix.mul_assoc]
  have hint : ∀ i j, ∃ z : ℤ, (P * (R * R.transpose - 1) * P.transpose) i j = (z : ℝ) / g := by
    intro i j
    have hZ' : P * P.transpose = (g : ℝ)⁻¹ • realM (Matrix.of Z) := by
      ext i j
      rw [hZ]
      simp [realM, div_eq_inv_mul]
    refine ⟨(M * Matrix.of Z * M.transpose - Matrix.of Z) i j, ?_⟩
    have h1 : realM (M * Matrix.of Z * M.transpose - Matrix.of Z) = realM M * realM (Matrix.of Z) * (realM M).transpose - realM (Matrix.of Z) := by
      rw [← realM_mul, show (realM M).transpose = realM M.transpose from rfl, ← realM_mul]
      ext i j
      simp [realM]
    rw [hkey, hZ', Matrix.mul_smul, Matrix.smul_mul, ← smul_sub, ← h1]
    simp [realM, div_eq_inv_mul]
  have hbound : ∀ i j, |(P * (R * R.transpose - 1) * P.transpose) i j| ≤ 9 * K ^ 2 * eps := by
    intro i j
    have h1 : ∀ a b, |P i a * (R * R.transpose - 1) a b * P j b| ≤ K ^ 2 * eps := by
      intro a b
      rw [abs_mul, abs_mul]
      calc |P i a| * |(R * R.transpose - 1) a b| * |P j b| ≤ K * eps * K := by
            apply mul_le_mul _ (hK j b) (abs_nonneg _) (by positivity)
            exact mul_le_mul (hK i a) (hE a b) (abs_nonneg _) hK0
        _ = K ^ 2 * eps := by ring
    have h2 : (P * (R * R.transpose - 1) * P.transpose) i j = ∑ b, ∑ a, P i a * (R * R.transpose - 1) a b * P j b := by
      rw [Matrix.mul_apply]
      apply Finset.sum_congr rfl
      intro b _
      rw [Matrix.mul_apply, Finset.sum_mul]
      rfl
    rw [h2]
    calc |∑ b, ∑ a, P i a * (R * R.transpose - 1) a b * P j b| ≤ ∑ b, ∑ a, |P i a * (R * R.transpose - 1) a b * P j b| := by
          refine (Finset.abs_sum_le_sum_abs _ _).trans (Finset.sum_le_sum fun b _ => Finset.abs_sum_le_sum_abs _ _)
      _ ≤ ∑ _b : Fin 3, ∑ _a : Fin 3, K ^ 2 * eps := Finset.sum_le_sum fun b _ => Finset.sum_le_sum fun a _ => h1 a b
      _ = 9 * K ^ 2 * eps := by simp; ring
  have hzero : P * (R * R.transpose - 1) * P.transpose = 0 := by
    ext i j
    obtain ⟨z, hz⟩ := hint i j
    have hb := hbound i j
    rw [hz, abs_div, abs_of_pos hg', div_le_iff₀ hg'] at hb
    have h3 : |(z : ℝ)| < 1 := by nlinarith
    have h4 : |z| < 1 := by exact_mod_cast h3
    rw [hz, Int.abs_lt_one_iff.mp h4]
    simp
  have hfin : R * R.transpose - 1 = 0 := by
    have h1 := congrArg (fun X => P⁻¹ * X * (P.transpose)⁻¹) hzero
    simp only [Matrix.mul_zero, Matrix.zero_mul] at h1
    rw [← h1]
    have hu2 : IsUnit P.transpose.det := by rw [Matrix.det_transpose]; exact hunit
    rw [Matrix.mul_assoc, Matrix.mul_assoc, Matrix.mul_assoc, Matrix.mul_nonsing_inv _ hu2, Matrix.mul_one, ← Matrix.mul_assoc, Matrix.nonsing_inv_mul _ hunit, Matrix.one_mul]
  exact sub_eq_zero.mp hfin

/-- The rotations are found exactly if the scalar products are multiples of `1/g`. -/
theorem pg_coarse {K : ℝ} {g : ℕ} (hg : 0 < g) {eps : ℝ} (h0 : 0 ≤ eps) (hK : ∀ i j, |P i j| ≤ K)
    (hprod : ∀ i j, ∃ z : ℤ, (P * P.transpose) i j = (z : ℝ) / g) (hs : 4 * K * eps < 1) (ha : 9 * K ^ 2 * g * eps < 1) : PgExact P eps := by
  have hK0 : 0 ≤ K := le_trans (abs_nonneg _) (hK 0 0)
  have hn : ∀ i, vnorm (P i) ≤ 2 * K := by
    intro i
    unfold vnorm
    have hsq : ∀ j, P i j ^ 2 ≤ K ^ 2 := fun j => sq_le_sq' (by linarith [neg_abs_le (P i j), hK i j]) (le_trans (le_abs_self _) (hK i j))
    rw [show 2 * K = Real.sqrt ((2 * K) ^ 2) from (Real.sqrt_sq (by linarith)).symm]
    apply Real.sqrt_le_sqrt
    nlinarith [hsq 0, hsq 1, hsq 2, sq_nonneg K]
  have hmax : maxNorm P ≤ 2 * K := max_le (max_le (hn 0) (hn 1)) (hn 2)
  refine pointGroup_at hP h0 ?_ ?_
  · have := mul_le_mul_of_nonneg_right hmax (by linarith : (0 : ℝ) ≤ 2 * eps)
    nlinarith
  · intro M _ herr
    unfold trialErr at herr
    have hE : ∀ i j, |((P⁻¹ * (realM M * P)) * (P⁻¹ * (realM M * P)).transpose - 1) i j| ≤ eps := by
      intro i j
      simp only [max_le_iff, Finset.sup'_le_iff, Finset.mem_univ, true_implies, Prod.forall] at herr
      exact herr.2 i j
    exact orth_gap hP hg h0 hK hprod ha rfl hE

/-- Tolerances that are small compared with the numbers of the crystal are fine. -/
theorem fineTol_coarse {bas : List V3} {K K' : ℝ} {g D : ℕ} {eps : ℝ} (h : Coarse P bas K K' g D eps) : FineTol P bas eps := by
  have hbr := grid_bring hP h.dpos h.pos h.coords h.inverse h.apart
  have hbas : ∀ d ∈ bas, d ∈ Grid P D := h.atoms
  have hcan : ∀ d ∈ bas.map (canonV P), d ∈ Grid P D := by
    intro d hd
    obtain ⟨b, hb, rfl⟩ := List.mem_map.mp hd
    exact grid_canon hP h.dpos (hbas b hb)
  refine ⟨h.pos, pg_coarse hP h.gpos h.pos.le h.entries h.products h.small h.angles, hbr.mono hbas, hbr.mono (sgVecs_grid hP h.dpos ?_), hbr.mono (dvVecs_grid hP h.dpos hcan)⟩
  intro a ha
  obtain ⟨d, hd, rfl⟩ := List.mem_map.mp ha
  exact hcan d hd

end
end Phenum
