import Verif.Props.Moved
/-
C98: an orthorhombic crystal with two atoms per cell, the second of which is given outside of the cell.
-/
namespace Phenum
open Spec

/-- the cell: edges 1, 2 and 3 -/
def boxP0 : Matrix (Fin 3) (Fin 3) ℚ := Matrix.of ![![1, 0, 0], ![0, 2, 0], ![0, 0, 3]]

/-- the same as a real matrix -/
noncomputable def boxP : M3 ℝ := !![1, 0, 0; 0, 2, 0; 0, 0, 3]

theorem realMat_box : realMat boxP0 = boxP := by
  ext i j
  fin_cases i <;> fin_cases j <;> simp [realMat, boxP0, boxP]

theorem realVecs_box : realVecs [![0, 0, 0], ![0, 0, 1]] = [0, ![0, 0, 1]] := by
  unfold realVecs
  simp only [List.map_cons, List.map_nil, List.cons.injEq, and_true]
  constructor <;> funext i <;> fin_cases i <;> simp

theorem realVecs_moved : realVecs [![0, 0, 0], ![1, 0, 1]] = [0, ![1, 0, 1]] := by
  unfold realVecs
  simp only [List.map_cons, List.map_nil, List.cons.injEq, and_true]
  constructor <;> funext i <;> fin_cases i <;> simp

theorem box_det : boxP.det = 6 := by
  rw [Matrix.det_fin_three]
  simp [boxP]
  norm_num

theorem box_vec (x : Fin 3 → ℝ) : boxP.transpose.mulVec x = ![x 0, 2 * x 1, 3 * x 2] := by
  funext i
  fin_cases i <;> simp [boxP, Matrix.mulVec, dotProduct, Fin.sum_univ_three]

theorem box_lat (v : V3) : v ∈ ColLattice boxP.transpose ↔ ∃ x y z : ℤ, v = ![(x : ℝ), 2 * y, 3 * z] := by
  constructor
  · rintro ⟨x, rfl⟩
    exact ⟨x 0, x 1, x 2, by rw [box_vec]⟩
  · rintro ⟨x, y, z, rfl⟩
    exact ⟨![x, y, z], by rw [box_vec]; simp⟩

/-- the sites: `t` is 0 for the first atom of the cell, 1 for the second -/
theorem box_site (v : V3) : v ∈ CrystalSites (ColLattice boxP.transpose) [0, ![0, 0, 1]] ↔ ∃ x y z t : ℤ, (t = 0 ∨ t = 1) ∧ v = ![(x : ℝ), 2 * y, 3 * z + t] := by
  constructor
  · rintro ⟨d, hd, hm⟩
    obtain ⟨x, y, z, e⟩ := (box_lat _).mp hm
    simp only [List.mem_cons, List.not_mem_nil, or_false] at hd
    rcases hd with rfl | rfl
    · exact ⟨x, y, z, 0, Or.inl rfl, by rw [sub_zero] at e; simpa using e⟩
    · refine ⟨x, y, z, 1, Or.inr rfl, ?_⟩
      rw [sub_eq_iff_eq_add] at e
      rw [e]
      funext i
      fin_cases i <;> simp
  · rintro ⟨x, y, z, t, ht, rfl⟩
    rcases ht with rfl | rfl
    · exact ⟨0, by simp, (box_lat _).mpr ⟨x, y, z, by simp⟩⟩
    · refine ⟨![0, 0, 1], by simp, (box_lat _).mpr ⟨x, y, z, ?_⟩⟩
      funext i
      fin_cases i <;> simp

theorem sq_int_one {x : ℤ} (h : x * x = 1) : x = 1 ∨ x = -1 := by
  have : (x - 1) * (x + 1) = 0 := by linarith
  rcases mul_eq_zero.mp this with h | h
  · left; omega
  · right; omega

/-- the rotations of the box -/
theorem box_rot {R : M3 ℝ} (h1 : R * R.transpose = 1) (h2 : R.mulVec '' ColLattice boxP.transpose = ColLattice boxP.transpose) :
    ∃ a b c : ℤ, (a = 1 ∨ a = -1) ∧ (b = 1 ∨ b = -1) ∧ (c = 1 ∨ c = -1) ∧ R = Matrix.diagonal ![(a : ℝ), b, c] := by
  have h1' := mul_eq_one_comm.mp h1
  have dot : ∀ i j, R 0 i * R 0 j + R 1 i * R 1 j + R 2 i * R 2 j = if i = j then 1 else 0 := by
    intro i j
    have := congrFun (congrFun h1' i) j
    rw [Matrix.mul_apply, Fin.sum_univ_three] at this
    simpa [Matrix.one_apply] using this
  have hmem : ∀ x y z : ℤ, R.mulVec ![(x : ℝ), 2 * y, 3 * z] ∈ ColLattice boxP.transpose := by
    intro x y z
    rw [← h2]
    exact ⟨_, (box_lat _).mpr ⟨x, y, z, rfl⟩, rfl⟩
  have ent : ∀ (v : V3) i, R.mulVec v i = R i 0 * v 0 + R i 1 * v 1 + R i 2 * v 2 := by
    intro v i
    simp [Matrix.mulVec, dotProduct, Fin.sum_univ_three]
  obtain ⟨x, y, z, e⟩ := (box_lat _).mp (hmem 1 0 0)
  have e0 := congrFun e 0
  have e1 := congrFun e 1
  have e2 := congrFun e 2
  rw [ent] at e0 e1 e2
  simp at e0 e1 e2
  obtain ⟨x', y', z', f⟩ := (box_lat _).mp (hmem 0 1 0)
  have f0 := congrFun f 0
  have f1 := congrFun f 1
  have f2 := congrFun f 2
  rw [ent] at f0 f1 f2
  simp at f0 f1 f2
  have n0 : x * x + 4 * (y * y) + 9 * (z * z) = 1 := by
    have := dot 0 0
    rw [e0, e1, e2, if_pos rfl] at this
    have : ((x * x + 4 * (y * y) + 9 * (z * z) : ℤ) : ℝ) = ((1 : ℤ) : ℝ) := by push_cast; linarith
    exact_mod_cast this
  have sq := fun t : ℤ => mul_self_nonneg t
  have hy : y = 0 := mul_self_eq_zero.mp (by have := sq x; have := sq y; have := sq z; omega)
  have hz : z = 0 := mul_self_eq_zero.mp (by have := sq x; have := sq y; have := sq z; omega)
  have hx : x * x = 1 := by have := sq x; have := sq y; have := sq z; omega
  subst hy hz
  simp at e1 e2
  have hx0 : (x : ℝ) ≠ 0 := by
    intro h
    have : x = 0 := by exact_mod_cast h
    subst this
    simp at hx
  have d01 := dot 0 1
  have d02 := dot 0 2
  rw [e0, e1, e2] at d01 d02
  simp at d01 d02
  have r01 : R 0 1 = 0 := by
    rcases d01 with h | h
    · exact absurd (by exact_mod_cast h) hx0
    · exact h
  have r02 : R 0 2 = 0 := by
    rcases d02 with h | h
    · exact absurd (by exact_mod_cast h) hx0
    · exact h
  have n1 : 4 * (y' * y') + 9 * (z' * z') = 4 := by
    have := dot 1 1
    rw [if_pos rfl, r01] at this
    have h3 : R 2 1 = 3 * z' / 2 := by linarith
    rw [h3, show R 1 1 = (y' : ℝ) by linarith] at this
    have : ((4 * (y' * y') + 9 * (z' * z') : ℤ) : ℝ) = ((4 : ℤ) : ℝ) := by push_cast; linarith
    exact_mod_cast this
  have hz' : z' = 0 := mul_self_eq_zero.mp (by have := sq y'; have := sq z'; omega)
  have hy' : y' * y' = 1 := by have := sq y'; have := sq z'; omega
  subst hz'
  simp at f1 f2
  have r11 : R 1 1 = y' := by linarith
  have hy0 : (y' : ℝ) ≠ 0 := by
    intro h
    have : y' = 0 := by exact_mod_cast h
    subst this
    simp at hy'
  have d12 := dot 1 2
  rw [r01, r11, f2] at d12
  simp at d12
  have r12 : R 1 2 = 0 := by
    rcases d12 with h | h
    · exact absurd (by exact_mod_cast h) hy0
    · exact h
  have d22 := dot 2 2
  rw [r02, r12] at d22
  simp at d22
  have r22 : R 2 2 = 1 ∨ R 2 2 = -1 := mul_self_eq_one_iff.mp d22
  have key : ∀ c : ℤ, R 2 2 = c → R = Matrix.diagonal ![(x : ℝ), y', c] := by
    intro c hc
    ext i j
    fin_cases i <;> fin_cases j <;> simp [e0, e1, e2, r01, r02, r11, f2, r12, hc]
  rcases r22 with h | h
  · exact ⟨x, y', 1, sq_int_one hx, sq_int_one hy', Or.inl rfl, key 1 (by simpa using h)⟩
  · exact ⟨x, y', -1, sq_int_one hx, sq_int_one hy', Or.inr rfl, key (-1) (by simpa using h)⟩

theorem diag_vec (a b c : ℝ) (v : V3) : (Matrix.diagonal ![a, b, c]).mulVec v = ![a * v 0, b * v 1, c * v 2] := by
  funext i
  rw [Matrix.mulVec_diagonal]
  fin_cases i <;> simp

/-- such a rotation keeps the lattice -/
theorem box_rot_lattice {a b c : ℤ} (ha : a = 1 ∨ a = -1) (hb : b = 1 ∨ b = -1) (hc : c = 1 ∨ c = -1) :
    (Matrix.diagonal ![(a : ℝ), b, c]).mulVec '' ColLattice boxP.transpose = ColLattice boxP.transpose ∧
    Matrix.diagonal ![(a : ℝ), b, c] * (Matrix.diagonal ![(a : ℝ), b, c]).transpose = 1 := by
  have hsq : ∀ t : ℤ, t = 1 ∨ t = -1 → (t : ℝ) * t = 1 := by
    rintro t (rfl | rfl) <;> norm_num
  have key : ∀ v ∈ ColLattice boxP.transpose, (Matrix.diagonal ![(a : ℝ), b, c]).mulVec v ∈ ColLattice boxP.transpose := by
    intro v hv
    obtain ⟨x, y, z, rfl⟩ := (box_lat _).mp hv
    refine (box_lat _).mpr ⟨a * x, b * y, c * z, ?_⟩
    rw [diag_vec]
    funext i
    fin_cases i <;> simp <;> ring
  have hone : Matrix.diagonal ![(a : ℝ), b, c] * Matrix.diagonal ![(a : ℝ), b, c] = 1 := by
    rw [Matrix.diagonal_mul_diagonal, ← Matrix.diagonal_one]
    congr 1
    funext i
    fin_cases i <;> simp [hsq a ha, hsq b hb, hsq c hc]
  refine ⟨Set.Subset.antisymm ?_ ?_, by rw [Matrix.diagonal_transpose]; exact hone⟩
  · rintro _ ⟨v, hv, rfl⟩
    exact key v hv
  · intro v hv
    refine ⟨_, key v hv, ?_⟩
    rw [Matrix.mulVec_mulVec, hone, Matrix.one_mulVec]

/-- the symmetries of the crystal: the rotation is diagonal, the translation is that of a lattice vector (if the third axis is kept) or of one plus the second atom (if it is turned) -/
theorem box_sym {R : M3 ℝ} {s : V3} (h : IsCrystalSym (ColLattice boxP.transpose) (([0, ![0, 0, 1]] : List V3).map (fun d => (1, d))) R s) :
    ∃ a b c x y z t : ℤ, (a = 1 ∨ a = -1) ∧ (b = 1 ∨ b = -1) ∧ (c = 1 ∧ t = 0 ∨ c = -1 ∧ t = 1) ∧ R = Matrix.diagonal ![(a : ℝ), b, c] ∧ s = ![(x : ℝ), 2 * y, 3 * z + t] := by
  have hΛ := colLat_isSub boxP.transpose
  obtain ⟨h1, h2, h3⟩ := (crystalSym_iff hΛ).mp h
  obtain ⟨a, b, c, ha, hb, hc, rfl⟩ := box_rot h1 h2
  have site : ∀ d ∈ ([0, ![0, 0, 1]] : List V3), (Matrix.diagonal ![(a : ℝ), b, c]).mulVec d + s ∈ CrystalSites (ColLattice boxP.transpose) [0, ![0, 0, 1]] := by
    intro d hd
    obtain ⟨p, hp, -, hm⟩ := h3 (1, d) (List.mem_map_of_mem hd)
    obtain ⟨d', hd', rfl⟩ := List.mem_map.mp hp
    exact ⟨d', hd', hm⟩
  have s1 := site 0 (by simp)
  rw [Matrix.mulVec_zero, zero_add] at s1
  obtain ⟨x, y, z, t, ht, rfl⟩ := (box_site _).mp s1
  obtain ⟨x', y', z', t', ht', e⟩ := (box_site _).mp (site ![0, 0, 1] (by simp))
  have e2 := congrFun e 2
  rw [diag_vec] at e2
  simp at e2
  have e2' : c + (3 * z + t) = 3 * z' + t' := by exact_mod_cast e2
  refine ⟨a, b, c, x, y, z, t, ha, hb, ?_, rfl, rfl⟩
  omega

theorem box_usable : Usable boxP [0, ![0, 0, 1]] [0, ![0, 0, 1]] true ∧ PrimitiveCell boxP [0, ![0, 0, 1]] := by
  have hΛ := colLat_isSub boxP.transpose
  refine ⟨⟨by rw [box_det]; norm_num, by simp, ?_, ?_, ?_, ?_⟩, ?_⟩
  · refine .cons ⟨by rw [sub_zero]; exact hΛ.zero, 0, fun i => ⟨le_refl _, one_pos⟩, by rw [Matrix.mulVec_zero]⟩
      (.cons ⟨by rw [sub_self]; exact hΛ.zero, ![0, 0, 1 / 3], fun i => ?_, ?_⟩ .nil)
    · fin_cases i <;> norm_num
    · rw [box_vec]
      funext i
      fin_cases i <;> simp
  · intro i j hi hj hm
    obtain ⟨x, y, z, e⟩ := (box_lat _).mp hm
    have e2 := congrFun e 2
    simp only [List.length_cons, List.length_nil] at hi hj
    interval_cases i <;> interval_cases j <;> simp at e2 ⊢
    · have : ((-1 : ℤ) : ℝ) = ((3 * z : ℤ) : ℝ) := by push_cast; exact e2
      have : (-1 : ℤ) = 3 * z := by exact_mod_cast this
      omega
    · have : ((1 : ℤ) : ℝ) = ((3 * z : ℤ) : ℝ) := by push_cast; exact e2
      have : (1 : ℤ) = 3 * z := by exact_mod_cast this
      omega
  · intro R s h
    obtain ⟨a, b, c, x, y, z, t, -, -, -, rfl, -⟩ := box_sym h
    refine ⟨0, hΛ.zero, fun d _ => ?_⟩
    rw [Matrix.diagonal_transpose, add_zero]
  · intro R s h
    have h1 := ((crystalSym_iff hΛ).mp h).1
    obtain ⟨a, b, c, x, y, z, t, ha, hb, hc, rfl, -⟩ := box_sym h
    refine arrows_of_maps h1 true (fun k v hv => ?_)
    have hc' : c = 1 ∨ c = -1 := by omega
    have key : ∀ v w : Fin 3 → ℤ, w = ![a * v 0, b * v 1, c * v 2] → (Matrix.diagonal ![(a : ℝ), b, c]).mulVec (fun i => (v i : ℝ)) = fun i => (w i : ℝ) := by
      rintro v w rfl
      rw [diag_vec]
      funext i
      fin_cases i <;> simp
    rcases hv with ⟨-, rfl⟩ | ⟨-, rfl⟩ | ⟨-, rfl⟩ | ⟨-, rfl⟩ | ⟨-, rfl⟩ | ⟨-, rfl⟩
    · rcases ha with rfl | rfl
      · exact ⟨0, ![1, 0, 0], by simp [IsArrowDir], key _ _ (by simp)⟩
      · exact ⟨1, ![-1, 0, 0], by simp [IsArrowDir], key _ _ (by simp)⟩
    · rcases ha with rfl | rfl
      · exact ⟨1, ![-1, 0, 0], by simp [IsArrowDir], key _ _ (by simp)⟩
      · exact ⟨0, ![1, 0, 0], by simp [IsArrowDir], key _ _ (by simp)⟩
    · rcases hb with rfl | rfl
      · exact ⟨2, ![0, 1, 0], by simp [IsArrowDir], key _ _ (by simp)⟩
      · exact ⟨3, ![0, -1, 0], by simp [IsArrowDir], key _ _ (by simp)⟩
    · rcases hb with rfl | rfl
      · exact ⟨3, ![0, -1, 0], by simp [IsArrowDir], key _ _ (by simp)⟩
      · exact ⟨2, ![0, 1, 0], by simp [IsArrowDir], key _ _ (by simp)⟩
    · rcases hc' with rfl | rfl
      · exact ⟨4, ![0, 0, 1], by simp [IsArrowDir], key _ _ (by simp)⟩
      · exact ⟨5, ![0, 0, -1], by simp [IsArrowDir], key _ _ (by simp)⟩
    · rcases hc' with rfl | rfl
      · exact ⟨5, ![0, 0, -1], by simp [IsArrowDir], key _ _ (by simp)⟩
      · exact ⟨4, ![0, 0, 1], by simp [IsArrowDir], key _ _ (by simp)⟩
  · intro s h
    obtain ⟨a, b, c, x, y, z, t, -, -, hc, e, rfl⟩ := box_sym h
    have := congrFun (congrFun e 2) 2
    simp at this
    have hc1 : c = 1 := by exact_mod_cast this.symm
    have : t = 0 := by omega
    subst this
    exact (box_lat _).mpr ⟨x, y, z, by simp⟩

theorem box_inv : boxP⁻¹ = !![1, 0, 0; 0, 1 / 2, 0; 0, 0, 1 / 3] := by
  apply Matrix.inv_eq_right_inv
  ext i j
  fin_cases i <;> fin_cases j <;> simp [boxP, Matrix.mul_apply, Fin.sum_univ_three]

theorem box_coarse : Coarse boxP [0, ![0, 0, 1]] 3 1 1 3 (1 / 10 ^ 7) := by
  refine ⟨?_, ?_, ?_, ?_, by norm_num, by norm_num, by norm_num, by norm_num, by norm_num, by norm_num, by norm_num⟩
  · intro i j
    rw [abs_le]
    fin_cases i <;> fin_cases j <;> simp [boxP] <;> norm_num
  · intro i j
    rw [abs_le, box_inv]
    fin_cases i <;> fin_cases j <;> simp <;> norm_num
  · intro i j
    have e : boxP * boxP.transpose = !![1, 0, 0; 0, 4, 0; 0, 0, 9] := by
      ext i j
      fin_cases i <;> fin_cases j <;> simp [boxP, Matrix.mul_apply, Fin.sum_univ_three] <;> norm_num
    rw [e]
    have k0 : ∃ z : ℤ, (0 : ℝ) = z / (1 : ℕ) := ⟨0, by simp⟩
    have k1 : ∃ z : ℤ, (1 : ℝ) = z / (1 : ℕ) := ⟨1, by simp⟩
    have k4 : ∃ z : ℤ, (4 : ℝ) = z / (1 : ℕ) := ⟨4, by simp⟩
    have k9 : ∃ z : ℤ, (9 : ℝ) = z / (1 : ℕ) := ⟨9, by simp⟩
    fin_cases i <;> fin_cases j <;> first | exact k0 | exact k1 | exact k4 | exact k9
  · intro d hd
    simp only [List.mem_cons, List.not_mem_nil, or_false] at hd
    rcases hd with rfl | rfl
    · exact ⟨0, by rw [box_vec]; funext i; fin_cases i <;> simp⟩
    · exact ⟨![0, 0, 1], by rw [box_vec]; funext i; fin_cases i <;> simp⟩

/-! ## the two lattice.in files -/

/-- the second atom in the cell -/
def boxText : Str := ofLines ["# sizes", "1 4", "bulk", "1 0 0", "0 2 0", "0 0 3", "# species", "2", "# atoms", "2", "0 0 0", "0 0 1", "F"]

/-- the second atom in the next cell -/
def movedText : Str := ofLines ["# sizes", "1 4", "bulk", "1 0 0", "0 2 0", "0 0 3", "# species", "2", "# atoms", "2", "0 0 0", "1 0 1", "F"]

/-- what `read_lattice` returns for the first -/
def boxLat : LatticeIn where
  bulk := true
  sizes := [1, 4]
  latVecs := [[1, 0, 0], [0, 2, 0], [0, 0, 3]]
  nspecies := 2
  basisVecs := [[0, 0, 0], [0, 0, 1]]
  restricted := false
  arrows := false
  concs := []

/-- what it returns for the second -/
def movedLat : LatticeIn := { boxLat with basisVecs := [[0, 0, 0], [1, 0, 1]] }

theorem box_read' : (match readLattice boxText with | .ok l => decide (l = boxLat) | .error _ => false) = true := by decide +kernel

theorem moved_read' : (match readLattice movedText with | .ok l => decide (l = movedLat) | .error _ => false) = true := by decide +kernel

theorem box_crystal : CrystalInput boxText boxLat boxP0 [![0, 0, 0], ![0, 0, 1]] 1 4 2 := by
  refine ⟨read_of_match box_read', rfl, ⟨[], rfl⟩, by norm_num, by norm_num, ?_, ?_, Or.inr ?_, rfl, by norm_num, by norm_num⟩
  · rw [realVecs_box, realMat_box]; exact box_usable.1
  · rw [realVecs_box, realMat_box]; exact box_usable.2
  · rw [realVecs_box]; rfl

theorem box_moved : MovedInput movedText boxText movedLat boxLat boxP0 [![0, 0, 0], ![1, 0, 1]] [![0, 0, 0], ![0, 0, 1]] := by
  refine ⟨read_of_match moved_read', read_of_match box_read', rfl, rfl, rfl, ?_⟩
  rw [realVecs_box, realVecs_moved, realMat_box]
  refine .cons (by rw [sub_zero]; exact (colLat_isSub _).zero) (.cons ?_ .nil)
  refine (box_lat _).mpr ⟨1, 0, 0, ?_⟩
  funext i
  fin_cases i <;> simp

/-! ## two crystals -/

/-- Every fourth plane perpendicular to the first axis has the second species: among the first atoms of the cells those with first coordinate `0, 4, 8 ..`, among the second atoms those with
`j, j + 4, j + 8 ..`. -/
noncomputable def planes (j : ℤ) : Decoration := fun x => if (⌊x 0⌋ - j * (⌊x 2⌋ % 3)) % 4 = 0 then (2, 0) else (1, 0)

theorem planes_at (j x y z t : ℤ) (ht : t = 0 ∨ t = 1) : planes j ![(x : ℝ), 2 * y, 3 * z + t] = if (x - j * t) % 4 = 0 then (2, 0) else (1, 0) := by
  unfold planes
  have e0 : ⌊(![(x : ℝ), 2 * y, 3 * z + t] : V3) 0⌋ = x := by simp
  have e2 : ⌊(![(x : ℝ), 2 * y, 3 * z + t] : V3) 2⌋ = 3 * z + t := by
    have : (![(x : ℝ), 2 * y, 3 * z + t] : V3) 2 = ((3 * z + t : ℤ) : ℝ) := by push_cast; rfl
    rw [this, Int.floor_intCast]
  rw [e0, e2, show (3 * z + t) % 3 = t by omega]

/-- the supercell of four cells -/
def fourCells : M3 ℤ := !![4, 0, 0; 0, 1, 0; 0, 0, 1]

theorem planes_allowed (j : ℤ) : AllowedCrystal boxP [0, ![0, 0, 1]] 4 2 [] (planes j) := by
  have hdet : fourCells.det = 4 := by
    rw [Matrix.det_fin_three]
    simp [fourCells]
  refine ⟨fourCells, by rw [hdet]; norm_num, by rw [hdet]; norm_num, ?_, ?_, ?_⟩
  · rintro v hv w ⟨u, rfl⟩
    obtain ⟨x, y, z, t, ht, rfl⟩ := (box_site v).mp hv
    have e : ![(x : ℝ), 2 * y, 3 * z + t] + (boxP.transpose * fourCells.map (fun x => (x : ℝ))).mulVec (fun i => (u i : ℝ)) =
        ![((x + 4 * u 0 : ℤ) : ℝ), 2 * ((y + u 1 : ℤ) : ℝ), 3 * ((z + u 2 : ℤ) : ℝ) + t] := by
      rw [← Matrix.mulVec_mulVec, box_vec]
      funext i
      fin_cases i <;> simp [fourCells, Matrix.mulVec, dotProduct, Fin.sum_univ_three] <;> ring
    rw [e, planes_at _ _ _ _ _ ht, planes_at _ _ _ _ _ ht]
    congr 1
    apply propext
    omega
  · intro x _
    unfold planes
    split <;> simp
  · obtain ⟨pos, hp⟩ := numbering_exists box_usable.1 box_usable.2 (n := 4) (by norm_num) (by norm_num) (M := fourCells) (Or.inl hdet)
    refine ⟨pos, ?_, by simp⟩
    rw [hdet]
    exact hp

/-- what a decoration of the kind of `planes 0` looks like -/
theorem same_planes0 {ψ : Decoration} (h : SameDecoration (ColLattice boxP.transpose) [0, ![0, 0, 1]] (planes 0) ψ) :
    ∃ c : ℤ, ∀ x y z t : ℤ, (t = 0 ∨ t = 1) → ψ ![(x : ℝ), 2 * y, 3 * z + t] = if (x - c) % 4 = 0 then (2, 0) else (1, 0) := by
  obtain ⟨R, s, hs, h⟩ := h
  obtain ⟨a, b, c, x0, y0, z0, t0, ha, hb, hc, rfl, rfl⟩ := box_sym hs
  refine ⟨x0, fun x y z t ht => ?_⟩
  obtain ⟨z1, t1, ht1, e1⟩ : ∃ z1 t1 : ℤ, (t1 = 0 ∨ t1 = 1) ∧ c * (3 * z1 + t1) + (3 * z0 + t0) = 3 * z + t := by
    rcases hc with ⟨rfl, rfl⟩ | ⟨rfl, rfl⟩
    · exact ⟨z - z0, t, ht, by ring⟩
    · exact ⟨z0 - z, 1 - t, by omega, by ring⟩
  have key := h ![((a * (x - x0) : ℤ) : ℝ), 2 * ((b * (y - y0) : ℤ) : ℝ), 3 * (z1 : ℝ) + t1] ((box_site _).mpr ⟨_, _, _, _, ht1, rfl⟩)
  rw [planes_at _ _ _ _ _ ht1, diag_vec] at key
  have haa : (a : ℝ) * a = 1 := by rcases ha with rfl | rfl <;> norm_num
  have hbb : (b : ℝ) * b = 1 := by rcases hb with rfl | rfl <;> norm_num
  have e : ![(a : ℝ) * (![((a * (x - x0) : ℤ) : ℝ), 2 * ((b * (y - y0) : ℤ) : ℝ), 3 * (z1 : ℝ) + t1] : V3) 0,
      b * (![((a * (x - x0) : ℤ) : ℝ), 2 * ((b * (y - y0) : ℤ) : ℝ), 3 * (z1 : ℝ) + t1] : V3) 1,
      c * (![((a * (x - x0) : ℤ) : ℝ), 2 * ((b * (y - y0) : ℤ) : ℝ), 3 * (z1 : ℝ) + t1] : V3) 2] + ![(x0 : ℝ), 2 * y0, 3 * z0 + t0] = ![(x : ℝ), 2 * y, 3 * z + t] := by
    have e1' : (c : ℝ) * (3 * z1 + t1) + (3 * z0 + t0) = 3 * z + t := by exact_mod_cast e1
    funext i
    fin_cases i
    · simp; linear_combination ((x : ℝ) - x0) * haa
    · simp; linear_combination 2 * ((y : ℝ) - y0) * hbb
    · simpa using e1'
  rw [e] at key
  rw [key]
  have : ((a * (x - x0) - 0 * t1) % 4 = 0) ↔ (x - x0) % 4 = 0 := by
    rcases ha with rfl | rfl <;> omega
  simp only [this]
  split <;> simp

/-- what a decoration of the kind of `planes 2` looks like -/
theorem same_planes2 {ψ : Decoration} (h : SameDecoration (ColLattice boxP.transpose) [0, ![0, 0, 1]] (planes 2) ψ) :
    ∃ c : ℤ, ∀ x y z t : ℤ, (t = 0 ∨ t = 1) → ψ ![(x : ℝ), 2 * y, 3 * z + t] = if (x - c - 2 * t) % 4 = 0 then (2, 0) else (1, 0) := by
  obtain ⟨R, s, hs, h⟩ := h
  obtain ⟨a, b, c, x0, y0, z0, t0, ha, hb, hc, rfl, rfl⟩ := box_sym hs
  refine ⟨x0 + 2 * t0, fun x y z t ht => ?_⟩
  obtain ⟨z1, t1, ht1, e1, e3⟩ : ∃ z1 t1 : ℤ, (t1 = 0 ∨ t1 = 1) ∧ c * (3 * z1 + t1) + (3 * z0 + t0) = 3 * z + t ∧ (t1 - t - t0) % 2 = 0 := by
    rcases hc with ⟨rfl, rfl⟩ | ⟨rfl, rfl⟩
    · exact ⟨z - z0, t, ht, by ring, by omega⟩
    · exact ⟨z0 - z, 1 - t, by omega, by ring, by omega⟩
  have key := h ![((a * (x - x0) : ℤ) : ℝ), 2 * ((b * (y - y0) : ℤ) : ℝ), 3 * (z1 : ℝ) + t1] ((box_site _).mpr ⟨_, _, _, _, ht1, rfl⟩)
  rw [planes_at _ _ _ _ _ ht1, diag_vec] at key
  have haa : (a : ℝ) * a = 1 := by rcases ha with rfl | rfl <;> norm_num
  have hbb : (b : ℝ) * b = 1 := by rcases hb with rfl | rfl <;> norm_num
  have e : ![(a : ℝ) * (![((a * (x - x0) : ℤ) : ℝ), 2 * ((b * (y - y0) : ℤ) : ℝ), 3 * (z1 : ℝ) + t1] : V3) 0,
      b * (![((a * (x - x0) : ℤ) : ℝ), 2 * ((b * (y - y0) : ℤ) : ℝ), 3 * (z1 : ℝ) + t1] : V3) 1,
      c * (![((a * (x - x0) : ℤ) : ℝ), 2 * ((b * (y - y0) : ℤ) : ℝ), 3 * (z1 : ℝ) + t1] : V3) 2] + ![(x0 : ℝ), 2 * y0, 3 * z0 + t0] = ![(x : ℝ), 2 * y, 3 * z + t] := by
    have e1' : (c : ℝ) * (3 * z1 + t1) + (3 * z0 + t0) = 3 * z + t := by exact_mod_cast e1
    funext i
    fin_cases i
    · simp; linear_combination ((x : ℝ) - x0) * haa
    · simp; linear_combination 2 * ((y : ℝ) - y0) * hbb
    · simpa using e1'
  rw [e] at key
  rw [key]
  have : ((a * (x - x0) - 2 * t1) % 4 = 0) ↔ (x - (x0 + 2 * t0) - 2 * t) % 4 = 0 := by
    rcases ha with rfl | rfl <;> omega
  simp only [this]
  split <;> simp

/-- the decoration that a row describes with the second atom moved by the first lattice vector -/
noncomputable def shifted (ψ : Decoration) : Decoration := fun x => if ⌊x 2⌋ % 3 = 1 then ψ (x - ![1, 0, 0]) else ψ x

theorem shifted_describes {row : EnumEntry} {ψ : Decoration} (h : RowDescribes boxP [0, ![0, 0, 1]] row ψ) : RowDescribes boxP [0, ![1, 0, 1]] row (shifted ψ) := by
  intro a ha v
  obtain ⟨l, r, h1, h2, h3⟩ := h a ha v
  refine ⟨l, r, h1, h2, ?_⟩
  rw [← h3]
  unfold shifted
  simp only [List.length_cons, List.length_nil] at ha
  rw [box_vec]
  interval_cases a
  · have : ⌊((([0, ![1, 0, 1]] : List V3).getD 0 0) + ![(v 0 : ℝ), 2 * v 1, 3 * v 2]) 2⌋ = 3 * v 2 := by
      have : ((([0, ![1, 0, 1]] : List V3).getD 0 0) + ![(v 0 : ℝ), 2 * v 1, 3 * v 2]) 2 = ((3 * v 2 : ℤ) : ℝ) := by simp
      rw [this, Int.floor_intCast]
    rw [this, if_neg (by omega)]
    rfl
  · have : ⌊((([0, ![1, 0, 1]] : List V3).getD 1 0) + ![(v 0 : ℝ), 2 * v 1, 3 * v 2]) 2⌋ = 1 + 3 * v 2 := by
      have : ((([0, ![1, 0, 1]] : List V3).getD 1 0) + ![(v 0 : ℝ), 2 * v 1, 3 * v 2]) 2 = ((1 + 3 * v 2 : ℤ) : ℝ) := by simp
      rw [this, Int.floor_intCast]
    rw [this, if_pos (by omega)]
    congr 1
    funext i
    fin_cases i <;> simp

theorem shifted_at (ψ : Decoration) (x y z t : ℤ) (ht : t = 0 ∨ t = 1) : shifted ψ ![(x : ℝ), 2 * y, 3 * z + t] = ψ ![((x - t : ℤ) : ℝ), 2 * y, 3 * z + t] := by
  unfold shifted
  have e2 : ⌊(![(x : ℝ), 2 * y, 3 * z + t] : V3) 2⌋ = 3 * z + t := by
    have : (![(x : ℝ), 2 * y, 3 * z + t] : V3) 2 = ((3 * z + t : ℤ) : ℝ) := by push_cast; rfl
    rw [this, Int.floor_intCast]
  rw [e2]
  rcases ht with rfl | rfl
  · rw [if_neg (by omega)]
    simp
  · rw [if_pos (by omega)]
    congr 1
    funext i
    fin_cases i <;> simp

/-- the same sites -/
theorem moved_sites : CrystalSites (ColLattice boxP.transpose) [0, ![1, 0, 1]] = CrystalSites (ColLattice boxP.transpose) [0, ![0, 0, 1]] := by
  have hΛ := colLat_isSub boxP.transpose
  have h1 : (![1, 0, 1] : V3) - ![0, 0, 1] ∈ ColLattice boxP.transpose := by
    refine (box_lat _).mpr ⟨1, 0, 0, ?_⟩
    funext i
    fin_cases i <;> simp
  ext v
  constructor
  · rintro ⟨d, hd, hm⟩
    simp only [List.mem_cons, List.not_mem_nil, or_false] at hd
    rcases hd with rfl | rfl
    · exact ⟨0, by simp, hm⟩
    · refine ⟨![0, 0, 1], by simp, ?_⟩
      have := hΛ.add _ hm _ h1
      rwa [sub_add_sub_cancel] at this
  · rintro ⟨d, hd, hm⟩
    simp only [List.mem_cons, List.not_mem_nil, or_false] at hd
    rcases hd with rfl | rfl
    · exact ⟨0, by simp, hm⟩
    · refine ⟨![1, 0, 1], by simp, ?_⟩
      have := colLat_sub hm h1
      rwa [sub_sub_sub_cancel_right] at this

/-- a mirror perpendicular to the first axis is a symmetry of the crystal -/
theorem moved_mirror (n : ℤ) : IsCrystalSym (ColLattice boxP.transpose) (([0, ![1, 0, 1]] : List V3).map (fun d => (1, d))) (Matrix.diagonal ![((-1 : ℤ) : ℝ), ((1 : ℤ) : ℝ), ((1 : ℤ) : ℝ)])
    ![(n : ℝ), 0, 0] := by
  have hΛ := colLat_isSub boxP.transpose
  obtain ⟨h1, h2⟩ := box_rot_lattice (a := -1) (b := 1) (c := 1) (by simp) (by simp) (by simp)
  refine (crystalSym_iff hΛ).mpr ⟨h2, h1, ?_⟩
  intro p hp
  obtain ⟨d, hd, rfl⟩ := List.mem_map.mp hp
  refine ⟨(1, d), List.mem_map_of_mem hd, rfl, ?_⟩
  simp only [List.mem_cons, List.not_mem_nil, or_false] at hd
  rw [box_lat, diag_vec]
  rcases hd with rfl | rfl
  · refine ⟨n, 0, 0, ?_⟩
    funext i
    fin_cases i <;> simp
  · refine ⟨n - 2, 0, 0, ?_⟩
    funext i
    fin_cases i <;> simp
    ring

/-- C98, a defect. The second atom of the cell is given outside of it: the program runs as usual, but two different rows of enum.out, read with the basis vectors of its own first lines, describe
the same crystal up to a symmetry. -/
theorem C98_misread : ∀ (w : World) (a : Args) (lattice : Str) (dir : Dir), (∀ l, (w.listdir l).Perm l) → (dir.map (·.1)).Nodup → lattice ≠ "enum.out".toList →
        PlainCall a lattice false → FreshDir lattice movedText dir →
      ∃ (rows : List EnumEntry) (dir' : Dir), scriptEnum w shippedTol a dir = (pure dir' : Run Dir) ∧
        dictGet dir' "enum.out".toList = some (enumOutFile (movedLat.enumParams (boxP0, [![0, 0, 0], ![1, 0, 1]])) w.now rows) ∧
        ∃ r ∈ rows, ∃ r' ∈ rows, r ≠ r' ∧ ∃ ψ ψ', RowDescribes boxP [0, ![1, 0, 1]] r ψ ∧ RowDescribes boxP [0, ![1, 0, 1]] r' ψ' ∧
          SameDecoration (ColLattice boxP.transpose) [0, ![1, 0, 1]] ψ ψ' := by
  intro w a lattice dir hw hnd hout ha hdir
  obtain ⟨rows, dir', r1, r2, -, -, r5⟩ := C98_crystals box_moved box_crystal rfl (by norm_num) (by simp)
    (by rw [realMat_box, realVecs_box]; exact box_coarse) w a lattice dir hw hnd hout ha hdir
  rw [realMat_box, realVecs_box] at r5
  refine ⟨rows, dir', r1, r2, ?_⟩
  obtain ⟨q0, ⟨m0, ψ0, d0, s0⟩, -⟩ := r5 _ (planes_allowed 0)
  obtain ⟨q2, ⟨m2, ψ2, d2, s2⟩, -⟩ := r5 _ (planes_allowed 2)
  obtain ⟨c0, f0⟩ := same_planes0 s0
  obtain ⟨c2, f2⟩ := same_planes2 s2
  refine ⟨q0, m0, q2, m2, ?_, shifted ψ0, shifted ψ2, shifted_describes d0, shifted_describes d2, ?_⟩
  · rintro rfl
    have hu := row_describes_unique d0 d2
    have u0 := hu _ ((box_site _).mpr ⟨c0, 0, 0, 0, Or.inl rfl, rfl⟩)
    have u1 := hu _ ((box_site _).mpr ⟨c0, 0, 0, 1, Or.inr rfl, rfl⟩)
    rw [f0 _ _ _ _ (Or.inl rfl), f2 _ _ _ _ (Or.inl rfl), if_pos (by omega)] at u0
    rw [f0 _ _ _ _ (Or.inr rfl), f2 _ _ _ _ (Or.inr rfl), if_pos (by omega)] at u1
    split at u0
    · split at u1
      · omega
      · simp at u1
    · simp at u0
  · refine ⟨_, _, moved_mirror (c0 + c2), fun v hv => ?_⟩
    rw [moved_sites] at hv
    obtain ⟨x, y, z, t, ht, rfl⟩ := (box_site v).mp hv
    have e : (Matrix.diagonal ![((-1 : ℤ) : ℝ), ((1 : ℤ) : ℝ), ((1 : ℤ) : ℝ)]).mulVec ![(x : ℝ), 2 * y, 3 * z + t] + ![((c0 + c2 : ℤ) : ℝ), 0, 0] =
        ![((c0 + c2 - x : ℤ) : ℝ), 2 * y, 3 * z + t] := by
      rw [diag_vec]
      funext i
      fin_cases i <;> simp
      ring
    rw [e, shifted_at _ _ _ _ _ ht, shifted_at _ _ _ _ _ ht, f0 _ _ _ _ ht, f2 _ _ _ _ ht]
    have : (c0 + c2 - x - t - c2 - 2 * t) % 4 = 0 ↔ (x - t - c0) % 4 = 0 := by omega
    simp only [this]
    split <;> simp

/-- a directory with this lattice.in -/
def movedDir : Dir := [("notes.txt".toList, []), ("lattice.in".toList, movedText)]

/-- the default call -/
def movedArgs : Args := ⟨false, true, "lattice.in".toList, none, none, none, none, false, none, false, none⟩

theorem movedDir_call : FreshDir "lattice.in".toList movedText movedDir := by
  refine ⟨by decide +kernel, ?_, by decide +kernel⟩
  have : ∀ f ∈ ["notes.txt".toList, "lattice.in".toList], ¬ f.head? = some 'p' := by decide +kernel
  exact fun f hf h => this f hf h.2

/-- a case in which that happens -/
example : PlainCall movedArgs "lattice.in".toList false ∧ FreshDir "lattice.in".toList movedText movedDir ∧ (movedDir.map (·.1)).Nodup ∧ "lattice.in".toList ≠ "enum.out".toList ∧
    ∀ l, (scWorld.listdir l).Perm l :=
  ⟨by constructor <;> rfl, movedDir_call, by decide +kernel, by decide, fun _ => List.Perm.refl _⟩

/-- a case of C98_same_rows: the default call -/
example : MovedInput movedText boxText movedLat boxLat boxP0 [![0, 0, 0], ![1, 0, 1]] [![0, 0, 0], ![0, 0, 1]] ∧ (realMat boxP0).det ≠ 0 ∧
    Coarse (realMat boxP0) (realVecs [![0, 0, 0], ![0, 0, 1]]) 3 1 1 3 shippedTol.hnf ∧ Coarse (realMat boxP0) (realVecs [![0, 0, 0], ![0, 0, 1]]) 3 1 1 3 shippedTol.sym ∧
    EnumCall movedArgs ∧ OwnName movedArgs := by
  rw [realMat_box, realVecs_box]
  refine ⟨box_moved, by rw [box_det]; norm_num, box_coarse, coarse_mono box_coarse (by norm_num [shippedTol]) (by norm_num [shippedTol]), ?_, ?_⟩
  · exact ⟨rfl, rfl, rfl, rfl, (fun _ hl => nomatch hl), (fun _ hq => nomatch hq)⟩
  · exact ⟨by decide, by decide, by decide, (fun _ hq => nomatch hq)⟩

end Phenum
