import Verif.Proof.Dedup
import Mathlib.Tactic.NormNum
import Mathlib.Data.Rat.Floor
/-
C19 - C22, C44: superlattices.
-/
namespace Phenum
open Spec

/-- C19. `find_all_HNFs(n)` lists exactly the matrices `[[a,0,0],[b,c,0],[d,e,f]]` with `acf = n`, `0 <= b < c`,
`0 <= d, e < f`, each once. -/
theorem C19_all_hnfs (n : ℕ) (hn : 1 ≤ n) :
    (findAllHNFs n).Nodup ∧ ∀ H : M3 ℤ, H ∈ findAllHNFs n ↔
      ∃ a b c d e f : ℕ, a * c * f = n ∧ b < c ∧ d < f ∧ e < f ∧
        H = !![(a : ℤ), 0, 0; (b : ℤ), (c : ℤ), 0; (d : ℤ), (e : ℤ), (f : ℤ)] :=
  ⟨nodup_findAllHNFs n, fun H => mem_findAllHNFs hn H⟩

/-- C20. The columns of every integer matrix of determinant `n` or `-n` generate the same lattice as those of
exactly one listed matrix. -/
theorem C20_every_superlattice_once (n : ℕ) (hn : 1 ≤ n) (M : M3 ℤ) (hM : M.det = n ∨ M.det = -n) :
    ∃! H, H ∈ findAllHNFs n ∧ IntLattice H = IntLattice M := by
  have hM' : M.det.natAbs = n := by rcases hM with h | h <;> rw [h] <;> simp
  have hM0 : M.det ≠ 0 := by intro h0; rw [h0] at hM'; simp at hM'; omega
  obtain ⟨a, b, c, d, e, f, h1, h2, h3, h4, h5⟩ := exists_hnf hM0
  refine ⟨hnfMat a b c d e f, ⟨(mem_findAllHNFs hn _).mpr ⟨a, b, c, d, e, f, by rw [h1, hM'], h2, h3, h4, rfl⟩, h5⟩, ?_⟩
  rintro H ⟨hH, hL⟩
  obtain ⟨a', b', c', d', e', f', g1, g2, g3, g4, rfl⟩ := (mem_findAllHNFs hn H).mp hH
  have ha : 1 ≤ a := Nat.one_le_iff_ne_zero.mpr (by rintro rfl; simp at h1; omega)
  have ha' : 1 ≤ a' := Nat.one_le_iff_ne_zero.mpr (by rintro rfl; simp at g1; omega)
  exact hnf_unique ha' g2 g3 g4 ha h2 h3 h4 (hL.trans h5.symm)

section
variable {K : Type} [Field K] [LinearOrder K] [IsStrictOrderedRing K] [FloorRing K]

/-- C21 (exact comparison, `eps = 0`). For two bases, the first non-singular, the test answers true exactly if they
generate the same lattice. -/
theorem C21_equiv_exact (L1 L2 : M3 K) (h1 : L1.det ≠ 0) :
    ∃ b, isEquivLattice L1 L2 0 = .ok b ∧ (b = true ↔ ColLattice L1 = ColLattice L2) :=
  equiv_test h1 le_rfl (le_refl 1) (by simp) (Or.inl rfl)

/-- C21 (with a tolerance). If the `N`-fold of the second lattice is contained in the first, then any tolerance
below `1/N` gives the exact answer. -/
theorem C21_equiv_tolerance (L1 L2 : M3 K) (h1 : L1.det ≠ 0) (N : ℕ) (hN : 1 ≤ N) (eps : K) (h0 : 0 ≤ eps)
    (he : eps * N < 1) (hden : ∀ v ∈ ColLattice L2, (N : K) • v ∈ ColLattice L1) :
    ∃ b, isEquivLattice L1 L2 eps = .ok b ∧ (b = true ↔ ColLattice L1 = ColLattice L2) :=
  equiv_test h1 h0 hN he (Or.inr hden)

/-- C21, consequence: the exact test is reflexive, symmetric and transitive on non-singular bases. -/
theorem C21_equivalence_relation :
    (∀ L : M3 K, L.det ≠ 0 → isEquivLattice L L 0 = .ok true) ∧
    (∀ L M : M3 K, L.det ≠ 0 → M.det ≠ 0 → isEquivLattice L M 0 = .ok true → isEquivLattice M L 0 = .ok true) ∧
    (∀ L M P : M3 K, L.det ≠ 0 → M.det ≠ 0 → isEquivLattice L M 0 = .ok true → isEquivLattice M P 0 = .ok true →
      isEquivLattice L P 0 = .ok true) := by
  have key : ∀ L M : M3 K, L.det ≠ 0 → (isEquivLattice L M 0 = .ok true ↔ ColLattice L = ColLattice M) := by
    intro L M hL
    obtain ⟨b, e, hb⟩ := C21_equiv_exact L M hL
    rw [e, ← hb]
    exact ⟨fun h => by injection h, fun h => by rw [h]⟩
  refine ⟨fun L hL => (key L L hL).mpr rfl, fun L M hL hM h => (key M L hM).mpr ((key L M hL).mp h).symm,
    fun L M P hL hM h h' => (key L P hL).mpr (((key L M hL).mp h).trans ((key M P hM).mp h'))⟩

/-- C22. Let the columns of `A` generate the parent lattice, `rots` be a group of operations mapping the parent
lattice to itself, and the tolerance be below `1/n`. Then the unique HNFs are among the candidates, and for every
superlattice of index `n` of the parent (given by any integer matrix of determinant `n` or `-n`) exactly one of them
generates a superlattice that is a rotation of it. -/
theorem C22_unique_hnfs (A : M3 K) (hA : A.det ≠ 0) (rots : List (M3 K)) (hG : IsMatGroup rots)
    (hpres : ∀ r ∈ rots, ColLattice (r * A) = ColLattice A) (n : ℕ) (hn : 1 ≤ n) (eps : K) (h0 : 0 ≤ eps)
    (he : eps * n < 1) :
    ∃ U, removeDuplicates (findAllHNFs n) A rots eps = .ok U ∧ U.Sublist (findAllHNFs n) ∧
      ∀ M : M3 ℤ, M.det = n ∨ M.det = -n → ∃! u, u ∈ U ∧ ∃ r ∈ rots,
        ColLattice (r * (A * M.map (fun x => (x : K)))) = ColLattice (A * u.map (fun x => (x : K))) := by
  obtain ⟨U, e, s, h⟩ := removeDuplicates_unique ⟨hA, hG, hpres, hn, h0, he⟩
  refine ⟨U, e, s, ?_⟩
  intro M hM
  exact h M (by rcases hM with h | h <;> rw [h] <;> simp)

open Classical in
/-- C44. Under the same conditions, for a superlattice `H` of index `n`: the operations kept are exactly those which
map the superlattice to itself (in the given order), they form a group, and the reported degeneracy plus one is the
number of different rotated superlattices. -/
theorem C44_fixing_operations {D : Type} (A : M3 K) (hA : A.det ≠ 0) (ops : List (M3 K × D))
    (hG : IsMatGroup (ops.map (·.1))) (hpres : ∀ op ∈ ops, ColLattice (op.1 * A) = ColLattice A) (n : ℕ) (hn : 1 ≤ n)
    (eps : K) (h0 : 0 ≤ eps) (he : eps * n < 1) (H : M3 ℤ) (hH : H.det = n ∨ H.det = -n) :
    ∃ kept degeneracy, fixingOperations A H eps ops = .ok (kept, degeneracy) ∧
      kept = ops.filter (fun op => decide (ColLattice (op.1 * (A * H.map (fun x => (x : K)))) =
        ColLattice (A * H.map (fun x => (x : K))))) ∧
      IsMatGroup (kept.map (·.1)) ∧
      degeneracy + 1 = Set.ncard {L | ∃ op ∈ ops, L = ColLattice (op.1 * (A * H.map (fun x => (x : K))))} := by
  have hok : DedupOk A (ops.map (·.1)) n eps := ⟨hA, hG, fun r hr => by
    obtain ⟨op, ho, rfl⟩ := List.mem_map.mp hr
    exact hpres op ho, hn, h0, he⟩
  have hH' : H.det.natAbs = n := by rcases hH with h | h <;> rw [h] <;> simp
  obtain ⟨dg, e, nd, no, mem⟩ := fixLoop_ok hok hH' ops (fun op ho => List.mem_map_of_mem ho) [] [] (by simp) (by simp)
    (by simp)
  refine ⟨_, _, e, rfl, ?_, ?_⟩
  · rw [List.nil_append]
    have memk : ∀ r, r ∈ (ops.filter (fun op => decide (ColLattice (op.1 * (A * castM H)) =
        ColLattice (A * castM H)))).map (·.1) ↔
        r ∈ ops.map (·.1) ∧ ColLattice (r * (A * castM H)) = ColLattice (A * castM H) := by
      intro r
      simp only [List.mem_map, List.mem_filter, decide_eq_true_eq]
      constructor
      · rintro ⟨op, ⟨h1, h2⟩, rfl⟩; exact ⟨⟨op, h1, rfl⟩, h2⟩
      · rintro ⟨⟨op, h1, rfl⟩, h2⟩; exact ⟨op, ⟨h1, h2⟩, rfl⟩
    constructor
    · rw [memk]; exact ⟨hG.one, by rw [one_mul]⟩
    · intro r hr s hs
      rw [memk] at hr hs ⊢
      refine ⟨hG.mul r hr.1 s hs.1, ?_⟩
      rw [mul_assoc, colLat_mul r hs.2, hr.2]
    · intro r hr
      rw [memk] at hr
      obtain ⟨s, hs, hsr⟩ := hG.inv r hr.1
      refine ⟨s, ?_, hsr⟩
      rw [memk]
      refine ⟨hs, ?_⟩
      rw [colLat_mul s hr.2.symm, ← mul_assoc, hsr, one_mul]
  · have hset : {L | ∃ op ∈ ops, L = ColLattice (op.1 * (A * H.map (fun x => (x : K))))} =
        ((ColLattice (A * castM H) :: dg.map ColLattice).toFinset : Set (Set (Fin 3 → K))) := by
      ext L
      rw [List.coe_toFinset, Set.mem_setOf_eq, Set.mem_setOf_eq, List.mem_cons, mem]
      simp only [List.map_nil, List.not_mem_nil, false_or]
      constructor
      · intro h
        by_cases hL : L = ColLattice (A * castM H)
        · exact Or.inl hL
        · exact Or.inr ⟨hL, h⟩
      · rintro (h | ⟨-, h⟩)
        · obtain ⟨op, ho, h1⟩ := List.mem_map.mp hG.one
          refine ⟨op, ho, ?_⟩
          rw [h1, one_mul]; exact h
        · exact h
    rw [hset, Set.ncard_coe_finset, List.toFinset_card_of_nodup, List.length_cons, List.length_map]
    rw [List.nodup_cons]
    refine ⟨?_, nd⟩
    rw [List.mem_map]
    rintro ⟨D, hD, h⟩
    exact no D hD h

end

/-! Non-vacuity: the simple cubic lattice over the rationals with the group {1, rotation by 180 degrees about z},
index 2. -/

example : findAllHNFs 2 = [!![1, 0, 0; 0, 1, 0; 0, 0, 2], !![1, 0, 0; 0, 1, 0; 0, 1, 2], !![1, 0, 0; 0, 1, 0; 1, 0, 2],
    !![1, 0, 0; 0, 1, 0; 1, 1, 2], !![1, 0, 0; 0, 2, 0; 0, 0, 1], !![1, 0, 0; 1, 2, 0; 0, 0, 1],
    !![2, 0, 0; 0, 1, 0; 0, 0, 1]] := by decide +kernel

example : (!![0, 2, 1; 1, 0, 0; 0, 0, 1] : M3 ℤ).det = -2 := by decide +kernel

/-- rotation by 180 degrees about the z axis -/
def exRot : M3 ℚ := !![-1, 0, 0; 0, -1, 0; 0, 0, 1]

theorem exRot_sq : exRot * exRot = 1 := by
  unfold exRot
  apply Matrix.ext
  intro i j
  fin_cases i <;> fin_cases j <;> simp [Matrix.mul_apply, Fin.sum_univ_three]

theorem exRot_pres : ∀ r ∈ [1, exRot], ColLattice (r * (1 : M3 ℚ)) = ColLattice (1 : M3 ℚ) := by
  intro r hr
  rw [mul_one]
  rcases List.mem_pair.mp hr with rfl | rfl
  · rfl
  · symm
    rw [colLat_eq (by simp)]
    refine ⟨!![-1, 0, 0; 0, -1, 0; 0, 0, 1], ?_, by decide +kernel⟩
    rw [one_mul]
    apply Matrix.ext
    intro i j
    fin_cases i <;> fin_cases j <;> simp [exRot, castM]

example : (1 : M3 ℚ).det ≠ 0 ∧ IsMatGroup [1, exRot] ∧
    (∀ r ∈ [1, exRot], ColLattice (r * (1 : M3 ℚ)) = ColLattice (1 : M3 ℚ)) ∧ (1 / 10000000 : ℚ) * (2 : ℕ) < 1 := by
  refine ⟨by simp, ⟨by simp, ?_, ?_⟩, exRot_pres, by norm_num⟩
  · intro r hr s hs
    rcases List.mem_pair.mp hr with rfl | rfl <;> rcases List.mem_pair.mp hs with rfl | rfl <;> simp [exRot_sq]
  · intro r hr
    refine ⟨r, hr, ?_⟩
    rcases List.mem_pair.mp hr with rfl | rfl <;> simp [exRot_sq]

end Phenum
