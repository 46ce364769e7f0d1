import Verif.Model.Cell
import Verif.Proof.Loop
import Mathlib.Tactic.Linarith
import Mathlib.Tactic.FinCases
/-
Bringing points into the cell.
-/
namespace Phenum

variable {K : Type} [Field K] [LinearOrder K] [IsStrictOrderedRing K] [FloorRing K]

/-- How many steps a component is away from the cell. -/
def cellDist (eps v : K) : ℕ := ⌊v + eps⌋.natAbs

theorem directStep_eq (eps v : K) (he : 0 ≤ eps) : directStep eps v = wrapStep eps v := by
  unfold directStep wrapStep
  by_cases h : v < 1 - eps
  · rw [if_pos h, if_neg (not_le.2 h)]
    by_cases h2 : v < 0 - eps
    · rw [if_neg (not_le.2 h2), if_pos h2]
    · rw [if_pos (not_lt.1 h2), if_neg h2]
  · rw [if_neg h, if_pos (not_lt.1 h), if_pos]
    linarith [not_lt.1 h]

/-- The step moves by the sign of the distance. -/
theorem wrapStep_floor (eps v : K) : ∃ z : ℤ, wrapStep eps v = v - z ∧ ⌊wrapStep eps v + eps⌋ = ⌊v + eps⌋ - z ∧
    (z = Int.sign ⌊v + eps⌋) := by
  unfold wrapStep
  by_cases h : v ≥ 1 - eps
  · refine ⟨1, by rw [if_pos h]; simp, ?_, ?_⟩
    · rw [if_pos h, show v - 1 + eps = v + eps - (1 : ℤ) by push_cast; ring, Int.floor_sub_intCast]
    · rw [eq_comm, Int.sign_eq_one_iff_pos]
      have : (1 : ℤ) ≤ ⌊v + eps⌋ := Int.le_floor.2 (by push_cast; linarith)
      omega
  · by_cases h2 : v < 0 - eps
    · refine ⟨-1, by rw [if_neg h, if_pos h2]; simp, ?_, ?_⟩
      · rw [if_neg h, if_pos h2, show v + 1 + eps = v + eps - ((-1 : ℤ) : K) by push_cast; ring, Int.floor_sub_intCast]
      · rw [eq_comm, Int.sign_eq_neg_one_iff_neg]
        exact Int.floor_lt.2 (by push_cast; linarith)
    · refine ⟨0, by rw [if_neg h, if_neg h2]; simp, by rw [if_neg h, if_neg h2]; simp, ?_⟩
      have : ⌊v + eps⌋ = 0 := Int.floor_eq_zero_iff.2 ⟨by linarith [not_lt.1 h2], by linarith [not_le.1 h]⟩
      rw [this]; rfl

theorem cellDist_step (eps v : K) : cellDist eps (wrapStep eps v) = cellDist eps v - 1 := by
  obtain ⟨z, -, h2, h3⟩ := wrapStep_floor eps v
  unfold cellDist
  rw [h2, h3]
  rcases lt_trichotomy ⌊v + eps⌋ 0 with h | h | h
  · rw [Int.sign_eq_neg_one_of_neg h]; omega
  · rw [h]; rfl
  · rw [Int.sign_eq_one_of_pos h]; omega

/-- Components out of range are at a positive distance. -/
theorem cellDist_pos_of_gt {eps v : K} (h : v ≥ 1 - eps) : 0 < cellDist eps v := by
  have : (1 : ℤ) ≤ ⌊v + eps⌋ := Int.le_floor.2 (by push_cast; linarith)
  unfold cellDist; omega

theorem cellDist_pos_of_lt {eps v : K} (h : v < 0 - eps) : 0 < cellDist eps v := by
  have : ⌊v + eps⌋ < 0 := Int.floor_lt.2 (by push_cast; linarith)
  unfold cellDist; omega

/-- The distance is bounded by the size of the component. -/
theorem cellDist_le {eps v : K} (he : 0 ≤ eps) (he1 : eps < 1) : (cellDist eps v : ℤ) ≤ ⌈|v|⌉ := by
  unfold cellDist
  have h1 : ⌊v + eps⌋ ≤ ⌈|v|⌉ := by
    have : v + eps < (⌈|v|⌉ + 1 : ℤ) := by
      push_cast
      linarith [le_abs_self v, Int.le_ceil |v|]
    have := Int.floor_lt.2 this
    omega
  have h2 : -⌊v + eps⌋ ≤ ⌈|v|⌉ := by
    have : -⌈|v|⌉ ≤ ⌊v + eps⌋ := Int.le_floor.2 (by
      push_cast
      linarith [neg_abs_le v, Int.le_ceil |v|])
    omega
  omega

theorem le_max3 (v : Fin 3 → K) (i : Fin 3) : v i ≤ max3 v := by
  unfold max3; fin_cases i <;> simp

theorem min3_le (v : Fin 3 → K) (i : Fin 3) : min3 v ≤ v i := by
  unfold min3; fin_cases i <;> simp

theorem abs_le_minmax (v : Fin 3 → K) (i : Fin 3) : ⌈|v i|⌉ ≤ max ⌈|max3 v|⌉ ⌈|min3 v|⌉ := by
  rcases le_total 0 (v i) with h | h
  · refine le_trans (Int.ceil_mono ?_) (le_max_left _ _)
    exact abs_le_abs_of_nonneg h (le_max3 v i)
  · refine le_trans (Int.ceil_mono ?_) (le_max_right _ _)
    exact abs_le_abs_of_nonpos h (min3_le v i)

/-- Largest distance of a component. -/
def cellMax (eps : K) (v : Fin 3 → K) : ℕ := max (max (cellDist eps (v 0)) (cellDist eps (v 1))) (cellDist eps (v 2))

theorem cellMax_step (eps : K) (v : Fin 3 → K) : cellMax eps (fun i => wrapStep eps (v i)) = cellMax eps v - 1 := by
  unfold cellMax
  simp only [cellDist_step]
  omega

/-- The components of the result: `v - z` with `z` either 0 or the floor. -/
theorem wrapLoop_ok (eps : K) (maxc : ℤ) (v : Fin 3 → K) (h : (cellMax eps v : ℤ) ≤ maxc) :
    ∃ c w, wrapLoop eps maxc (0, v) = some (.ok (c, w)) ∧ (∀ i, -eps ≤ w i ∧ w i ≤ 1 - eps) ∧
      ∀ i, ∃ z : ℤ, w i = v i - z := by
  obtain ⟨s, h1, ⟨h2, h3⟩, h4⟩ := pyWhile_total
    (fun s : ℕ × (Fin 3 → K) => decide (s.2 0 > 1 - eps ∨ s.2 1 > 1 - eps ∨ s.2 2 > 1 - eps
      ∨ s.2 0 < 0 - eps ∨ s.2 1 < 0 - eps ∨ s.2 2 < 0 - eps))
    (fun s =>
      let c := s.1 + 1
      if (c : ℤ) > maxc then .error .sysExit else .ok (c, fun i => wrapStep eps (s.2 i)))
    (fun s => ((s.1 + cellMax eps s.2 : ℕ) : ℤ) ≤ maxc ∧ ∀ i, ∃ z : ℤ, s.2 i = v i - z)
    (fun s => cellMax eps s.2) (by
      rintro ⟨c, w⟩ ⟨i1, i2⟩ hc
      simp only [decide_eq_true_eq] at hc
      simp only at i1 i2
      have hpos : 0 < cellMax eps w := by
        unfold cellMax
        rcases hc with hc | hc | hc | hc | hc | hc
        · have := cellDist_pos_of_gt hc.le; omega
        · have := cellDist_pos_of_gt hc.le; omega
        · have := cellDist_pos_of_gt hc.le; omega
        · have := cellDist_pos_of_lt hc; omega
        · have := cellDist_pos_of_lt hc; omega
        · have := cellDist_pos_of_lt hc; omega
      refine ⟨(c + 1, fun i => wrapStep eps (w i)), ?_, ⟨?_, ?_⟩, ?_⟩
      · simp only
        rw [if_neg]
        push_cast at i1 ⊢
        omega
      · simp only [cellMax_step]
        omega
      · intro i
        obtain ⟨z, hz⟩ := i2 i
        obtain ⟨z', hz', -⟩ := wrapStep_floor eps (w i)
        exact ⟨z + z', by show wrapStep eps (w i) = _; rw [hz', hz]; push_cast; ring⟩
      · simp only [cellMax_step]
        omega) (0, v) ⟨by simpa using h, fun i => ⟨0, by simp⟩⟩
  refine ⟨s.1, s.2, h1, ?_, h3⟩
  simp only [decide_eq_false_iff_not, not_or, not_lt, gt_iff_lt] at h4
  obtain ⟨a, b, c, d, e, f⟩ := h4
  intro i
  fin_cases i
  · exact ⟨by simpa using d, a⟩
  · exact ⟨by simpa using e, b⟩
  · exact ⟨by simpa using f, c⟩

theorem directLoop_ok (eps : K) (he : 0 ≤ eps) (v : Fin 3 → K) :
    ∃ w, directLoop eps v = some (.ok w) ∧ (∀ i, -eps ≤ w i ∧ w i < 1 - eps) ∧ ∀ i, ∃ z : ℤ, w i = v i - z := by
  obtain ⟨s, h1, h3, h4⟩ := pyWhile_total
    (fun v : Fin 3 → K => decide (v 0 ≥ 1 - eps ∨ v 1 ≥ 1 - eps ∨ v 2 ≥ 1 - eps
      ∨ v 0 < 0 - eps ∨ v 1 < 0 - eps ∨ v 2 < 0 - eps))
    (fun v => .ok (fun i => directStep eps (v i)))
    (fun w => ∀ i, ∃ z : ℤ, w i = v i - z)
    (fun w => cellMax eps w) (by
      rintro w i2 hc
      simp only [decide_eq_true_eq] at hc
      have hpos : 0 < cellMax eps w := by
        unfold cellMax
        rcases hc with hc | hc | hc | hc | hc | hc
        · have := cellDist_pos_of_gt hc; omega
        · have := cellDist_pos_of_gt hc; omega
        · have := cellDist_pos_of_gt hc; omega
        · have := cellDist_pos_of_lt hc; omega
        · have := cellDist_pos_of_lt hc; omega
        · have := cellDist_pos_of_lt hc; omega
      refine ⟨_, rfl, ?_, ?_⟩
      · intro i
        obtain ⟨z, hz⟩ := i2 i
        obtain ⟨z', hz', -⟩ := wrapStep_floor eps (w i)
        exact ⟨z + z', by show directStep eps (w i) = _; rw [directStep_eq eps _ he, hz', hz]; push_cast; ring⟩
      · simp only [directStep_eq eps _ he, cellMax_step]
        omega) v (fun i => ⟨0, by simp⟩)
  refine ⟨s, h1, ?_, h3⟩
  simp only [decide_eq_false_iff_not, not_or, not_lt, not_le, ge_iff_le] at h4
  obtain ⟨a, b, c, d, e, f⟩ := h4
  intro i
  fin_cases i
  · exact ⟨by simpa using d, a⟩
  · exact ⟨by simpa using e, b⟩
  · exact ⟨by simpa using f, c⟩

/-- Two points of the half-open cell that differ by integers coincide. -/
theorem cell_unique {eps a b : K} {z : ℤ} (h : a = b - z) (ha : -eps ≤ a ∧ a < 1 - eps) (hb : -eps ≤ b ∧ b < 1 - eps) :
    a = b := by
  have h1 : (z : K) < 1 := by linarith [ha.1, hb.2]
  have h2 : (-1 : K) < z := by linarith [ha.2, hb.1]
  have h3 : z < 1 := by exact_mod_cast h1
  have h4 : -1 < z := by exact_mod_cast h2
  have : z = 0 := by omega
  rw [h, this]; simp

end Phenum
