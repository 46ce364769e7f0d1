import Verif.Props.SymGroup
import Verif.Props.SymCubic
import Mathlib.NumberTheory.Divisors
import Mathlib.Data.Set.Card
import Mathlib.Algebra.BigOperators.Group.Finset.Basic
/-
C19, C54: how many supercells there are, and that the degeneracies of the unique ones add up to that number.
-/
namespace Phenum
open Spec

theorem length_findAllHNFs (n : ℕ) : (findAllHNFs n).length = ((hnfDiagonals n).map (fun t => t.2.1 * t.2.2 * t.2.2)).sum := by
  unfold findAllHNFs
  rw [List.length_flatMap]
  congr 1
  apply List.map_congr_left
  intro t _
  simp [List.length_flatMap, mul_assoc]

/-- C19. The number of HNFs of determinant `n` is the number of sublattices of index `n` of a three-dimensional lattice: the sum over the
divisors `q` of `n` of `q` times the sum of the divisors of `q`. -/
theorem C19_number (n : ℕ) (hn : 1 ≤ n) : (findAllHNFs n).length = ∑ q ∈ n.divisors, q * ∑ f ∈ q.divisors, f := by
  rw [length_findAllHNFs]
  have h1 : ((hnfDiagonals n).map (fun t => t.2.1 * t.2.2 * t.2.2)).sum = ∑ t ∈ (hnfDiagonals n).toFinset, t.2.1 * t.2.2 * t.2.2 :=
    (List.sum_toFinset _ (nodup_hnfDiagonals n)).symm
  rw [h1]
  have h2 : ∑ q ∈ n.divisors, q * ∑ f ∈ q.divisors, f = ∑ x ∈ n.divisors.sigma (fun q => q.divisors), x.1 * x.2 := by
    rw [Finset.sum_sigma]
    exact Finset.sum_congr rfl (fun q _ => Finset.mul_sum _ _ _)
  rw [h2]
  refine Finset.sum_bij (fun t _ => (⟨t.2.1 * t.2.2, t.2.2⟩ : (_ : ℕ) × ℕ)) ?_ ?_ ?_ ?_
  · rintro ⟨a, c, f⟩ ht
    rw [List.mem_toFinset, mem_hnfDiagonals hn] at ht
    rw [Finset.mem_sigma, Nat.mem_divisors, Nat.mem_divisors]
    have h0 : c * f ≠ 0 := by rintro h0; rw [mul_assoc, h0] at ht; omega
    exact ⟨⟨⟨a, by rw [← ht]; simp only; ring⟩, by omega⟩, ⟨c, by simp only; ring⟩, h0⟩
  · rintro ⟨a, c, f⟩ ht ⟨a', c', f'⟩ ht' h
    rw [List.mem_toFinset, mem_hnfDiagonals hn] at ht ht'
    simp only [Sigma.mk.injEq, heq_eq_eq] at h
    obtain ⟨h, rfl⟩ := h
    have hf : 0 < f := Nat.pos_of_ne_zero (by rintro rfl; omega)
    have hc : c = c' := Nat.eq_of_mul_eq_mul_right hf h
    subst hc
    have hc : 0 < c * f := Nat.pos_of_ne_zero (by rintro h0; rw [mul_assoc, h0] at ht; omega)
    have ha : a = a' := Nat.eq_of_mul_eq_mul_right hc (by rw [← mul_assoc, ← mul_assoc, ht, ht'])
    subst ha
    rfl
  · rintro ⟨q, f⟩ hx
    rw [Finset.mem_sigma, Nat.mem_divisors, Nat.mem_divisors] at hx
    obtain ⟨⟨⟨a, h1⟩, -⟩, ⟨c, h2⟩, -⟩ := hx
    simp only at h1 h2
    refine ⟨(a, c, f), ?_, ?_⟩
    · rw [List.mem_toFinset, mem_hnfDiagonals hn, h1, h2]
      ring
    · simp only [Sigma.mk.injEq, heq_eq_eq, and_true]
      rw [h2, mul_comm]
  · rintro ⟨a, c, f⟩ _
    rfl

/-- 6 = 1 * 1 + 2 * (1 + 2) + 3 * (1 + 3) + 6 * (1 + 2 + 3 + 6) gives 91 cells -/
example : ∑ q ∈ Nat.divisors 6, q * ∑ f ∈ q.divisors, f = 91 := by decide

/-- auxiliary: the classes of a list of representatives partition the superlattices -/
theorem orbits_sum {α : Type} (U : List α) (hU : U.Nodup) {S : Set (Set V3)} (hS : S.Finite) (orb : α → Set (Set V3)) (hsub : ∀ u ∈ U, orb u ⊆ S)
    (hun : ∀ s ∈ S, ∃! u, u ∈ U ∧ s ∈ orb u) : (U.map (fun u => (orb u).ncard)).sum = S.ncard := by
  classical
  induction U generalizing S with
  | nil =>
    have : S = ∅ := by
      rw [Set.eq_empty_iff_forall_notMem]
      intro s hs
      obtain ⟨u, ⟨hu, -⟩, -⟩ := hun s hs
      simp at hu
    simp [this]
  | cons u U ih =>
    have hu := hsub u (by simp)
    have hnot := (List.nodup_cons.mp hU).1
    have h1 := ih (List.nodup_cons.mp hU).2 (S := S \ orb u) (hS.subset Set.diff_subset) (by
      intro v hv s hs
      refine ⟨hsub v (by simp [hv]) hs, fun hs' => ?_⟩
      have e := (hun s (hu hs')).unique ⟨by simp, hs'⟩ ⟨List.mem_cons_of_mem _ hv, hs⟩
      exact hnot (e ▸ hv)) (by
      rintro s ⟨hs, hs'⟩
      obtain ⟨v, ⟨hv, hv'⟩, hvu⟩ := hun s hs
      have hne : v ≠ u := by rintro rfl; exact hs' hv'
      refine ⟨v, ⟨(List.mem_cons.mp hv).resolve_left hne, hv'⟩, ?_⟩
      rintro w ⟨hw, hw'⟩
      exact hvu w ⟨List.mem_cons_of_mem _ hw, hw'⟩)
    rw [List.map_cons, List.sum_cons, h1, add_comm]
    exact Set.ncard_diff_add_ncard_of_subset hu hS

/-- The superlattices of index `n` of the lattice of the columns of `A`. -/
def Spec.superlattices (A : M3 ℝ) (n : ℕ) : Set (Set V3) :=
  {S | ∃ M : M3 ℤ, (M.det = n ∨ M.det = -n) ∧ S = ColLattice (A * M.map (fun x => (x : ℝ)))}

theorem superlattices_eq (A : M3 ℝ) {n : ℕ} (hn : 1 ≤ n) :
    superlattices A n = (fun H : M3 ℤ => ColLattice (A * H.map (fun x => (x : ℝ)))) '' {H | H ∈ findAllHNFs n} := by
  ext S
  constructor
  · rintro ⟨M, hM, rfl⟩
    obtain ⟨H, ⟨hH, hL⟩, -⟩ := C20_every_superlattice_once n hn M hM
    exact ⟨H, hH, colLat_int A hL⟩
  · rintro ⟨H, hH, rfl⟩
    exact ⟨H, Or.inl (findAll_det hn hH), rfl⟩

/-- auxiliary: equal superlattices have equal integer lattices -/
theorem intLat_subset {A : M3 ℝ} (hA : A.det ≠ 0) {H H' : M3 ℤ} (e : ColLattice (A * castM H) ⊆ ColLattice (A * castM H')) :
    IntLattice H ⊆ IntLattice H' := by
  obtain ⟨T, hT⟩ := colLat_subset.mp e
  rw [Matrix.mul_assoc, ← castM_mul] at hT
  have hu : IsUnit A.det := isUnit_iff_ne_zero.mpr hA
  have h1 : (castM H : M3 ℝ) = castM (H' * T) := by
    have := congrArg (A⁻¹ * ·) hT
    simpa [← Matrix.mul_assoc, Matrix.nonsing_inv_mul _ hu] using this
  rw [castM_inj h1]
  rintro v ⟨x, rfl⟩
  exact ⟨T.mulVec x, by rw [Matrix.mulVec_mulVec]⟩

/-- C20. There are as many superlattices of index `n` as HNFs of determinant `n`. -/
theorem C20_number (A : M3 ℝ) (hA : A.det ≠ 0) (n : ℕ) (hn : 1 ≤ n) :
    (superlattices A n).Finite ∧ (superlattices A n).ncard = (findAllHNFs n).length := by
  rw [superlattices_eq A hn]
  have hf : {H | H ∈ findAllHNFs n}.Finite := (findAllHNFs n).finite_toSet
  refine ⟨hf.image _, ?_⟩
  rw [Set.ncard_image_of_injOn]
  · have : {H | H ∈ findAllHNFs n} = ((findAllHNFs n).toFinset : Set (M3 ℤ)) := by ext; simp
    rw [this, Set.ncard_coe_finset, List.toFinset_card_of_nodup (C19_all_hnfs n hn).1]
  · intro H hH H' hH' e
    have e' : ColLattice (A * castM H) = ColLattice (A * castM H') := e
    exact (C20_every_superlattice_once n hn H (Or.inl (findAll_det hn hH))).unique ⟨hH, rfl⟩
      ⟨hH', subset_antisymm (intLat_subset hA e'.superset) (intLat_subset hA e'.subset)⟩

/-- auxiliary: the degeneracies of one representative of each class add up to the number of HNFs -/
theorem degeneracies_sum {P : M3 ℝ} (hP : P.det ≠ 0) {atoms : List (ℕ × V3)} {n : ℕ} (hn : 1 ≤ n) {U : List (M3 ℤ)} (hU : U.Nodup)
    (hmem : ∀ u ∈ U, u.det = n)
    (hun : ∀ M : M3 ℤ, M.det = n ∨ M.det = -n → ∃! u, u ∈ U ∧ ∃ R s, IsCrystalSym (ColLattice P.transpose) atoms R s ∧
        ColLattice (R * (P.transpose * M.map (fun x => (x : ℝ)))) = ColLattice (P.transpose * u.map (fun x => (x : ℝ)))) :
    (U.map (fun u => Set.ncard {S | ∃ R s, IsCrystalSym (ColLattice P.transpose) atoms R s ∧
        S = ColLattice (R * (P.transpose * u.map (fun x => (x : ℝ))))})).sum = (findAllHNFs n).length := by
  have hA : P.transpose.det ≠ 0 := by rwa [Matrix.det_transpose]
  obtain ⟨hfin, hcard⟩ := C20_number P.transpose hA n hn
  rw [← hcard]
  have back : ∀ {R : M3 ℝ} {s : V3}, IsCrystalSym (ColLattice P.transpose) atoms R s → ∀ {M u : M3 ℤ},
      ColLattice (R * (P.transpose * u.map (fun x => (x : ℝ)))) = ColLattice (P.transpose * M.map (fun x => (x : ℝ))) →
      ColLattice (R.transpose * (P.transpose * M.map (fun x => (x : ℝ)))) = ColLattice (P.transpose * u.map (fun x => (x : ℝ))) := by
    intro R s hR M u e
    have h := colLat_mul R.transpose e
    rw [← Matrix.mul_assoc, mul_eq_one_comm.mp hR.orth, Matrix.one_mul] at h
    exact h.symm
  refine orbits_sum U hU hfin _ ?_ ?_
  · rintro u hu S ⟨R, s, hR, rfl⟩
    have hl : ColLattice P.transpose = ColLattice (R * P.transpose) := by rw [colLat_image]; exact hR.lattice.symm
    obtain ⟨T, hT, h1⟩ := (colLat_eq hA).mp hl
    refine ⟨T * u, ?_, ?_⟩
    · rw [Matrix.det_mul, hmem u hu]
      rcases (abs_eq (by norm_num)).mp h1 with h | h <;> rw [h]
      · left; ring
      · right; ring
    · rw [← Matrix.mul_assoc, hT, Matrix.mul_assoc]
      congr 2
      exact (castM_mul T u).symm
  · rintro S ⟨M, hM, rfl⟩
    obtain ⟨u, ⟨hu, R, s, hR, e⟩, huu⟩ := hun M hM
    refine ⟨u, ⟨hu, R.transpose, _, hR.symm, (back hR e).symm⟩, ?_⟩
    rintro v ⟨hv, R', s', hR', e'⟩
    exact huu v ⟨hv, R'.transpose, _, hR'.symm, back hR' e'.symm⟩

/-- C54. The degeneracies reported by `remove_duplicate_lattices` for all HNFs of index `n` add up to their number: nothing is lost or
counted twice when equivalent supercells are dropped. (Conditions as in `C54_remove_duplicates`.) -/
theorem C54_degeneracies_sum (P : M3 ℝ) (hP : P.det ≠ 0) (cell : List V3) (hne : cell ≠ []) (hcell : ∀ d ∈ cell, InCell P d)
    (hd : ∀ i j, i < cell.length → j < cell.length → cell.getD i 0 - cell.getD j 0 ∈ ColLattice P.transpose → i = j)
    (hperm : ∀ R s, IsCrystalSym (ColLattice P.transpose) (cell.map (fun d => (1, d))) R s → ∀ d ∈ cell, ∃ c ∈ cell,
      R.transpose.mulVec d + s - c ∈ ColLattice P.transpose)
    (n : ℕ) (hn : 1 ≤ n) (latDim : ℕ) (hdim : latDim ≠ 2) :
    ∃ e > 0, ∀ eps, 0 < eps → eps < e → ∃ dp U degens, dvectorPermutations P cell latDim eps = some (.ok dp) ∧
      removeDuplicateLattices (findAllHNFs n) P cell dp eps = some (.ok (U, degens)) ∧ degens.length = U.length ∧
      degens.sum = (findAllHNFs n).length := by
  obtain ⟨e, he, h⟩ := C54_remove_duplicates P hP cell hne hcell hd hperm n hn latDim hdim
  refine ⟨e, he, fun eps h0 hlt => ?_⟩
  obtain ⟨dp, U, degens, h1, h2, h3, h4, h5, rfl⟩ := h eps h0 hlt
  refine ⟨dp, U, _, h1, h2, by simp, degeneracies_sum hP hn h3 (fun u hu => ?_) h5⟩
  obtain ⟨a, b, c, d, e, f, h, -, -, -, rfl⟩ := h4 u hu
  rw [Matrix.det_fin_three]
  simp
  rw [← h]; push_cast; ring

/-- the unique supercells with four cells of the body-centred cubic lattice have degeneracies with the sum 35 -/
example : ∃ e > 0, ∀ eps, 0 < eps → eps < e → ∃ dp U degens, dvectorPermutations bccP [0] 3 eps = some (.ok dp) ∧
    removeDuplicateLattices (findAllHNFs 4) bccP [0] dp eps = some (.ok (U, degens)) ∧ degens.sum = 35 := by
  have h0 : (0 : V3) ∈ ColLattice bccP.transpose := colLat_zero _
  obtain ⟨e, he, h⟩ := C54_degeneracies_sum bccP bcc_det [0] (by simp)
    (by intro d hd; simp only [List.mem_singleton] at hd; subst hd; exact ⟨0, fun i => ⟨le_refl _, one_pos⟩, by rw [Matrix.mulVec_zero]⟩)
    (by intro i j hi hj _; simp at hi hj; omega)
    (by
      intro R s h x hx
      simp only [List.mem_singleton] at hx
      subst hx
      rw [crystalSym_iff (colLat_isSub _)] at h
      obtain ⟨c, hc, -, h⟩ := h.2.2 (1, 0) (by simp)
      simp only [List.map_cons, List.map_nil, List.mem_singleton] at hc
      subst hc
      exact ⟨0, by simp, by simpa using h⟩) 4 (by norm_num) 3 (by norm_num)
  refine ⟨e, he, fun eps h0 h1 => ?_⟩
  obtain ⟨dp, U, degens, h1, h2, -, h3⟩ := h eps h0 h1
  exact ⟨dp, U, degens, h1, h2, by rw [h3, C19_number 4 (by norm_num)]; decide⟩

end Phenum
