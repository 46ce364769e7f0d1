import Verif.Proof.EnumRun
import Mathlib.LinearAlgebra.FreeModule.PID
import Mathlib.LinearAlgebra.Dimension.Free
import Mathlib.LinearAlgebra.Matrix.Basis
/-
The periods of a periodic decoration form a superlattice.
-/
namespace Phenum
open Spec

/-- a group of integer vectors that contains the columns of an invertible matrix is generated by the columns of a matrix -/
theorem subgroup_matrix (A : Submodule ℤ (Fin 3 → ℤ)) (M : M3 ℤ) (hM : M.det ≠ 0) (h : ∀ x, M.mulVec x ∈ A) :
    ∃ M' : M3 ℤ, (∀ v, v ∈ A ↔ ∃ x, M'.mulVec x = v) ∧ M'.det ∣ M.det := by
  obtain ⟨n, b⟩ := Submodule.basisOfPid (Pi.basisFun ℤ (Fin 3)) A
  have hn : n = 3 := by
    have h1 : Module.finrank ℤ A = n := by rw [Module.finrank_eq_card_basis b, Fintype.card_fin]
    have h2 : Module.finrank ℤ A ≤ 3 := by
      have := Submodule.finrank_le A
      rwa [Module.finrank_fin_fun] at this
    have h3 : 3 ≤ Module.finrank ℤ A := by
      have hinj : Function.Injective (M.mulVecLin.codRestrict A h) := by
        intro x y e
        have e' : M.mulVec x = M.mulVec y := congrArg Subtype.val e
        have := congrArg M.adjugate.mulVec e'
        rw [Matrix.mulVec_mulVec, Matrix.mulVec_mulVec, Matrix.adjugate_mul, Matrix.smul_mulVec, Matrix.smul_mulVec, Matrix.one_mulVec, Matrix.one_mulVec] at this
        funext i
        have hi := congrFun this i
        simp only [Pi.smul_apply, smul_eq_mul] at hi
        exact mul_left_cancel₀ hM hi
      have := LinearMap.finrank_le_finrank_of_injective hinj
      rwa [Module.finrank_fin_fun] at this
    omega
  subst hn
  set M' : M3 ℤ := Matrix.of (fun i j => (b j : Fin 3 → ℤ) i) with hM'
  have hmul : ∀ x, M'.mulVec x = ((∑ j, x j • b j : A) : Fin 3 → ℤ) := by
    intro x
    funext i
    simp only [Matrix.mulVec, dotProduct, hM', Matrix.of_apply, AddSubmonoidClass.coe_finset_sum, Finset.sum_apply, Submodule.coe_smul, Pi.smul_apply, smul_eq_mul]
    exact Finset.sum_congr rfl (fun j _ => mul_comm _ _)
  have hmem : ∀ v, v ∈ A ↔ ∃ x, M'.mulVec x = v := by
    intro v
    constructor
    · intro hv
      refine ⟨fun j => b.repr ⟨v, hv⟩ j, ?_⟩
      rw [hmul, b.sum_repr]
    · rintro ⟨x, rfl⟩
      rw [hmul]
      exact Subtype.property _
  refine ⟨M', hmem, ?_⟩
  have hcol : ∀ j, ∃ x, M'.mulVec x = M.mulVec (Pi.single j 1) := fun j => (hmem _).mp (h _)
  choose Q hQ using hcol
  have e : M = M' * Matrix.of (fun i j => Q j i) := by
    ext i j
    have := congrFun (hQ j) i
    rw [Matrix.mulVec_single_one] at this
    rw [Matrix.mul_apply]
    exact this.symm
  rw [e, Matrix.det_mul]
  exact dvd_mul_right _ _

/-- the lattice of all the periods of a decoration -/
theorem period_lattice {P : M3 ℝ} (hP : P.det ≠ 0) {bas : List V3} {M : M3 ℤ} (hM : M.det ≠ 0) {χ : Decoration}
    (hper : PeriodicOn (CrystalSites (ColLattice P.transpose) bas) (SupLat P M) χ) :
    ∃ M' : M3 ℤ, M'.det ∣ M.det ∧ PeriodicOn (CrystalSites (ColLattice P.transpose) bas) (SupLat P M') χ ∧
      NoFurtherPeriod (ColLattice P.transpose) (CrystalSites (ColLattice P.transpose) bas) (SupLat P M') χ := by
  set S := CrystalSites (ColLattice P.transpose) bas with hS
  have hΛ := colLat_isSub P.transpose
  have hsite : ∀ x ∈ S, ∀ v : Fin 3 → ℤ, x + P.transpose.mulVec (fun i => (v i : ℝ)) ∈ S := by
    rintro x ⟨d, hd, hm⟩ v
    refine ⟨d, hd, ?_⟩
    have := hΛ.add _ hm _ ⟨v, rfl⟩
    convert this using 1
    abel
  set A : Submodule ℤ (Fin 3 → ℤ) := (AddSubgroup.toIntSubmodule (M := Fin 3 → ℤ))
    { carrier := {v | ∀ x ∈ S, χ (x + P.transpose.mulVec (fun i => (v i : ℝ))) = χ x}
      zero_mem' := by
        intro x _
        have : (fun i => ((0 : Fin 3 → ℤ) i : ℝ)) = 0 := by funext i; simp
        rw [this, Matrix.mulVec_zero, add_zero]
      add_mem' := by
        intro v w hv hw x hx
        have : (fun i => ((v + w) i : ℝ)) = (fun i => (v i : ℝ)) + (fun i => (w i : ℝ)) := by funext i; simp
        rw [this, Matrix.mulVec_add, ← add_assoc, hw _ (hsite x hx v), hv x hx]
      neg_mem' := by
        intro v hv x hx
        have e : (fun i => ((-v) i : ℝ)) = -(fun i => (v i : ℝ)) := by funext i; simp
        have := hv _ (hsite x hx (-v))
        rw [e, Matrix.mulVec_neg, neg_add_cancel_right] at this
        rw [e, Matrix.mulVec_neg]
        exact this.symm } with hA
  have hAm : ∀ v, v ∈ A ↔ ∀ x ∈ S, χ (x + P.transpose.mulVec (fun i => (v i : ℝ))) = χ x := fun v => Iff.rfl
  have hcast : ∀ (N : M3 ℤ) (x : Fin 3 → ℤ), (P.transpose * N.map (fun x => (x : ℝ))).mulVec (fun i => (x i : ℝ)) = P.transpose.mulVec (fun i => ((N.mulVec x) i : ℝ)) := by
    intro N x
    rw [← Matrix.mulVec_mulVec]
    congr 1
    funext i
    simp [Matrix.mulVec, dotProduct]
  obtain ⟨M', h1, h2⟩ := subgroup_matrix A M hM (by
    intro v
    rw [hAm]
    intro x hx
    have := hper x hx _ ⟨v, rfl⟩
    rwa [hcast] at this)
  refine ⟨M', h2, ?_, ?_⟩
  · rintro x hx _ ⟨v, rfl⟩
    rw [hcast]
    exact (hAm _).mp ((h1 _).mpr ⟨v, rfl⟩) x hx
  · rintro _ ⟨v, rfl⟩ hp
    obtain ⟨x, e⟩ := (h1 v).mp ((hAm v).mpr hp)
    refine ⟨x, ?_⟩
    rw [hcast, e]

/-- a row describes only one decoration of the sites -/
theorem row_describes_unique {P : M3 ℝ} {bas : List V3} {row : EnumEntry} {ψ ψ' : Decoration} (h : RowDescribes P bas row ψ) (h' : RowDescribes P bas row ψ') :
    ∀ x ∈ CrystalSites (ColLattice P.transpose) bas, ψ x = ψ' x := by
  rintro x ⟨d, hd, v, hv⟩
  obtain ⟨a, ha, rfl⟩ := List.mem_iff_getElem.mp hd
  obtain ⟨l, r, ⟨l1, l2⟩, ⟨r1, r2⟩, e⟩ := h a ha v
  obtain ⟨l', r', ⟨l1', l2'⟩, ⟨r1', r2'⟩, e'⟩ := h' a ha v
  have hdig : ∀ a < 10, ∀ b < 10, some (Char.ofNat (48 + a)) = some (Char.ofNat (48 + b)) → a = b := by decide
  have el := hdig _ l1 _ l1' (l2.symm.trans l2')
  have er := hdig _ r1 _ r1' (r2.symm.trans r2')
  subst el er
  have ex : x = bas.getD a 0 + P.transpose.mulVec (fun i => (v i : ℝ)) := by
    rw [getD_lt ha, hv, add_sub_cancel]
  rw [ex, e, e']

/-- the superlattice of a row is part of the lattice -/
theorem rowLattice_sub (P : M3 ℝ) (row : EnumEntry) : rowLattice P row ⊆ ColLattice P.transpose := by
  have h := supLat_sub P !![row.hnf.getD 0 0, 0, 0; row.hnf.getD 1 0, row.hnf.getD 2 0, 0; row.hnf.getD 3 0, row.hnf.getD 4 0, row.hnf.getD 5 0]
  unfold rowLattice
  convert h using 3
  ext i j
  fin_cases i <;> fin_cases j <;> simp

/-- a symmetry that maps one decoration to the other maps the lattices of their periods to each other -/
theorem same_periods {Λ : Set V3} (hΛ : IsSub Λ) {bas : List V3} {L L' : Set V3} (hL : L ⊆ Λ) (hL' : L' ⊆ Λ) {χ χ' : Decoration}
    (h1 : PeriodicOn (CrystalSites Λ bas) L χ) (h2 : NoFurtherPeriod Λ (CrystalSites Λ bas) L χ)
    (h1' : PeriodicOn (CrystalSites Λ bas) L' χ') (h2' : NoFurtherPeriod Λ (CrystalSites Λ bas) L' χ') :
    SameDecoration Λ bas χ χ' ↔ SameStructure Λ bas L χ L' χ' := by
  constructor
  · rintro ⟨R, s, hs, hx⟩
    refine ⟨R, s, hs, ?_, hx⟩
    have hsite : ∀ x ∈ CrystalSites Λ bas, ∀ t ∈ Λ, x + t ∈ CrystalSites Λ bas := by
      rintro x ⟨d, hd, hm⟩ t ht
      refine ⟨d, hd, ?_⟩
      have := hΛ.add _ hm _ ht
      convert this using 1
      abel
    apply Set.eq_of_subset_of_subset
    · rintro _ ⟨t, ht, rfl⟩
      refine h2' _ (lat_image hs.lattice (hL ht)) (fun y hy => ?_)
      have hu := sites_unmove hs hy
      have e : R.mulVec (unmove R s y) + s = y := by
        unfold unmove
        rw [orthT' hs.orth, sub_add_cancel]
      have a1 := hx _ (hsite _ hu t (hL ht))
      rw [Matrix.mulVec_add, add_right_comm, e, h1 _ hu t ht, ← hx _ hu, e] at a1
      exact a1
    · intro t ht
      refine ⟨R.transpose.mulVec t, ?_, orthT' hs.orth t⟩
      have ht' : R.transpose.mulVec t ∈ Λ := image_maps_inv hs.orth hs.lattice (hL' ht)
      refine h2 _ ht' (fun x hxs => ?_)
      have e1 := hx _ (hsite x hxs _ ht')
      rw [Matrix.mulVec_add, orthT' hs.orth, add_right_comm, h1' _ (sites_move hs hxs) t ht, hx x hxs, Prod.mk.injEq] at e1
      apply Prod.ext
      · exact e1.1.symm
      · have := congrArg R.transpose.mulVec e1.2
        rw [orthT hs.orth, orthT hs.orth] at this
        exact this.symm
  · rintro ⟨R, s, hs, -, hx⟩
    exact ⟨R, s, hs, hx⟩

end Phenum
