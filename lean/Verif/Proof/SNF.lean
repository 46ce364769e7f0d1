import Verif.Model.SNF
import Verif.Proof.Loop
import Mathlib.Tactic.FinCases
import Mathlib.Tactic.Ring
import Mathlib.Tactic.Linarith
import Mathlib.Tactic.IntervalCases
import Mathlib.Data.Nat.Log
/-
The Smith normal form routine: elementary operations, inner loops, outer loop.
-/
namespace Phenum

abbrev IM := Matrix (Fin 3) (Fin 3) ℤ

/-! ### Elementary operations as multiplications -/

theorem rowSub_mul (a b : Fin 3) (m : ℤ) (X : IM) : rowSub a b m X = rowSub a b m 1 * X := by
  ext i k
  simp only [rowSub, Matrix.mul_apply, Fin.sum_univ_three]
  fin_cases i <;> fin_cases a <;> fin_cases b <;> simp [Matrix.one_apply] <;> ring

theorem colSub_mul (a b : Fin 3) (m : ℤ) (X : IM) : colSub a b m X = X * colSub a b m 1 := by
  ext i k
  simp only [colSub, Matrix.mul_apply, Fin.sum_univ_three]
  fin_cases k <;> fin_cases a <;> fin_cases b <;> simp [Matrix.one_apply] <;> ring

theorem rowSwap_mul (a b : Fin 3) (X : IM) : rowSwap a b X = rowSwap a b 1 * X := by
  ext i k
  simp only [rowSwap, Matrix.mul_apply, Fin.sum_univ_three]
  fin_cases i <;> fin_cases a <;> fin_cases b <;> simp [Matrix.one_apply]

theorem colSwap_mul (a b : Fin 3) (X : IM) : colSwap a b X = X * colSwap a b 1 := by
  ext i k
  simp only [colSwap, Matrix.mul_apply, Fin.sum_univ_three]
  fin_cases k <;> fin_cases a <;> fin_cases b <;> simp [Matrix.one_apply]

theorem colNeg_mul (a : Fin 3) (X : IM) : colNeg a X = X * colNeg a 1 := by
  ext i k
  simp only [colNeg, Matrix.mul_apply, Fin.sum_univ_three]
  fin_cases k <;> fin_cases a <;> simp [Matrix.one_apply]

theorem rowSub_det {a b : Fin 3} (h : a ≠ b) (m : ℤ) : IsUnit (rowSub a b m (1 : IM)).det := by
  rw [Matrix.det_fin_three]
  simp only [rowSub]
  revert h
  fin_cases a <;> fin_cases b <;> simp [Matrix.one_apply]

theorem colSub_det {a b : Fin 3} (h : a ≠ b) (m : ℤ) : IsUnit (colSub a b m (1 : IM)).det := by
  rw [Matrix.det_fin_three]
  simp only [colSub]
  revert h
  fin_cases a <;> fin_cases b <;> simp [Matrix.one_apply]

theorem rowSwap_det (a b : Fin 3) : IsUnit (rowSwap a b (1 : IM)).det := by
  rw [Matrix.det_fin_three]
  simp only [rowSwap]
  fin_cases a <;> fin_cases b <;> simp [Matrix.one_apply]

theorem colSwap_det (a b : Fin 3) : IsUnit (colSwap a b (1 : IM)).det := by
  rw [Matrix.det_fin_three]
  simp only [colSwap]
  fin_cases a <;> fin_cases b <;> simp [Matrix.one_apply]

theorem colNeg_det (a : Fin 3) : IsUnit (colNeg a (1 : IM)).det := by
  rw [Matrix.det_fin_three]
  simp only [colNeg]
  fin_cases a <;> simp [Matrix.one_apply]

/-! ### Indices -/

theorem fin3_cases (P : Fin 3 → Prop) (h0 : P 0) (h1 : P 1) (h2 : P 2) (i : Fin 3) : P i := by
  fin_cases i <;> assumption

theorem nzCount_le_one_iff (v : Fin 3 → ℤ) :
    nzCount v ≤ 1 ↔ (v 1 = 0 ∧ v 2 = 0) ∨ (v 0 = 0 ∧ v 2 = 0) ∨ (v 0 = 0 ∧ v 1 = 0) := by
  simp only [nzCount, List.count_cons, List.count_nil, beq_iff_eq]
  by_cases h0 : v 0 = 0 <;> by_cases h1 : v 1 = 0 <;> by_cases h2 : v 2 = 0 <;> simp [h0, h1, h2]

/-- A vector with at most one non-zero entry. -/
theorem nzCount_single {v : Fin 3 → ℤ} (h : nzCount v ≤ 1) {c : Fin 3} (hc : v c ≠ 0) : ∀ i, i ≠ c → v i = 0 := by
  rw [nzCount_le_one_iff] at h
  intro i hi
  fin_cases c <;> fin_cases i <;> simp_all

theorem nzCount_of_single {v : Fin 3 → ℤ} (c : Fin 3) (h : ∀ i, i ≠ c → v i = 0) : nzCount v ≤ 1 := by
  rw [nzCount_le_one_iff]
  have h0 := h 0
  have h1 := h 1
  have h2 := h 2
  fin_cases c <;> simp_all

theorem minPosAbs_ok (v : Fin 3 → ℤ) (h : ∃ i, v i ≠ 0) :
    ∃ m, minPosAbs v = .ok m ∧ 0 < m ∧ (∃ i, (v i).natAbs = m) ∧ ∀ i, v i ≠ 0 → m ≤ (v i).natAbs := by
  obtain ⟨c, hc⟩ := h
  have hmem : ∀ i, v i ≠ 0 →
      (v i).natAbs ∈ [(v 0).natAbs, (v 1).natAbs, (v 2).natAbs].filter (fun i => 0 < i) := by
    intro i hi
    have : 0 < (v i).natAbs := Int.natAbs_pos.2 hi
    revert this
    fin_cases i <;> simp_all
  unfold minPosAbs
  cases hm : ([(v 0).natAbs, (v 1).natAbs, (v 2).natAbs].filter (fun i => 0 < i)).min? with
  | none =>
    rw [List.min?_eq_none_iff] at hm
    have := hmem c hc
    rw [hm] at this
    simp at this
  | some m =>
    rw [List.min?_eq_some_iff] at hm
    obtain ⟨h1, h2⟩ := hm
    rw [List.mem_filter] at h1
    refine ⟨m, rfl, by simpa using h1.2, ?_, fun i hi => h2 _ (hmem i hi)⟩
    have := h1.1
    simp only [List.mem_cons, List.not_mem_nil, or_false] at this
    rcases this with h | h | h
    · exact ⟨0, h.symm⟩
    · exact ⟨1, h.symm⟩
    · exact ⟨2, h.symm⟩

theorem firstIdx_ok (v : Fin 3 → ℤ) (m : ℕ) (h : ∃ i, (v i).natAbs = m) :
    ∃ k, firstIdx v m = .ok k ∧ (v k).natAbs = m ∧ ∀ i, i < k → (v i).natAbs ≠ m := by
  unfold firstIdx
  by_cases h0 : (v 0).natAbs = m
  · exact ⟨0, by simp [h0], h0, fun i hi => absurd hi (by simp)⟩
  · by_cases h1 : (v 1).natAbs = m
    · refine ⟨1, by simp [h0, h1], h1, fun i hi => ?_⟩
      fin_cases i
      · exact h0
      · simp at hi
      · exact absurd hi (by decide)
    · by_cases h2 : (v 2).natAbs = m
      · refine ⟨2, by simp [h0, h1, h2], h2, fun i hi => ?_⟩
        fin_cases i
        · exact h0
        · exact h1
        · simp at hi
      · obtain ⟨i, hi⟩ := h
        fin_cases i
        · exact absurd hi h0
        · exact absurd hi h1
        · exact absurd hi h2

theorem lastIdx_ok (v : Fin 3 → ℤ) (m : ℕ) (h : ∃ i, (v i).natAbs = m) :
    ∃ k, lastIdx v m = .ok k ∧ (v k).natAbs = m ∧ ∀ i, k < i → (v i).natAbs ≠ m := by
  unfold lastIdx
  by_cases h0 : (v 2).natAbs = m
  · refine ⟨2, by simp [h0], h0, fun i hi => ?_⟩
    fin_cases i
    · exact absurd hi (by decide)
    · exact absurd hi (by decide)
    · simp at hi
  · by_cases h1 : (v 1).natAbs = m
    · refine ⟨1, by simp [h0, h1], h1, fun i hi => ?_⟩
      fin_cases i
      · exact absurd hi (by decide)
      · simp at hi
      · exact h0
    · by_cases h2 : (v 0).natAbs = m
      · refine ⟨0, by simp [h0, h1, h2], h2, fun i hi => ?_⟩
        fin_cases i
        · simp at hi
        · exact h1
        · exact h0
      · obtain ⟨i, hi⟩ := h
        fin_cases i
        · exact absurd hi h2
        · exact absurd hi h1
        · exact absurd hi h0

theorem maxAbs_spec (v : Fin 3 → ℤ) : (∃ i, (v i).natAbs = maxAbs v) ∧ ∀ i, (v i).natAbs ≤ maxAbs v := by
  unfold maxAbs
  constructor
  · rcases max_choice (max (v 0).natAbs (v 1).natAbs) (v 2).natAbs with h | h
    · rcases max_choice (v 0).natAbs (v 1).natAbs with h' | h'
      · exact ⟨0, by rw [h, h']⟩
      · exact ⟨1, by rw [h, h']⟩
    · exact ⟨2, by rw [h]⟩
  · intro i
    fin_cases i <;> simp

/-- What `_find_minmax_indices` returns when at least two entries are non-zero. -/
theorem findMinMax_ok (v : Fin 3 → ℤ) (h : 1 < nzCount v) :
    ∃ mn mx, findMinMax v = .ok (mn, mx) ∧ v mn ≠ 0 ∧ v mx ≠ 0 ∧ mn ≠ mx
      ∧ (∀ i, v i ≠ 0 → (v mn).natAbs ≤ (v i).natAbs) ∧ (∀ i, (v i).natAbs ≤ (v mx).natAbs)
      ∧ (∀ i, mx < i → (v i).natAbs < (v mx).natAbs) := by
  have hc : ∀ c, ∃ i, i ≠ c ∧ v i ≠ 0 := by
    intro c
    by_contra hcon
    have : nzCount v ≤ 1 := nzCount_of_single c (fun i hi => by
      by_contra h0
      exact hcon ⟨i, hi, h0⟩)
    omega
  obtain ⟨c, -, hc0⟩ := hc 0
  obtain ⟨m, hm1, hm2, hm3, hm4⟩ := minPosAbs_ok v ⟨c, hc0⟩
  obtain ⟨mn, hf1, hf2, hf3⟩ := firstIdx_ok v m hm3
  obtain ⟨mx, hl1, hl2, hl3⟩ := lastIdx_ok v (maxAbs v) (maxAbs_spec v).1
  have hmn0 : v mn ≠ 0 := Int.natAbs_pos.1 (by omega)
  have hmx : ∀ i, (v i).natAbs ≤ (v mx).natAbs := fun i => hl2 ▸ (maxAbs_spec v).2 i
  have hmx0 : v mx ≠ 0 := Int.natAbs_pos.1 (lt_of_lt_of_le (Int.natAbs_pos.2 hmn0) (hmx mn))
  have hmin : ∀ i, v i ≠ 0 → (v mn).natAbs ≤ (v i).natAbs := fun i hi => hf2 ▸ hm4 i hi
  have hlast : ∀ i, mx < i → (v i).natAbs < (v mx).natAbs := fun i hi =>
    lt_of_le_of_ne (hmx i) (by rw [hl2]; exact hl3 i hi)
  refine ⟨mn, mx, by simp [findMinMax, hm1, hf1, hl1, bind, Except.bind], hmn0, hmx0, ?_, hmin, hmx, hlast⟩
  intro he
  obtain ⟨i, hi1, hi2⟩ := hc mn
  have e : (v i).natAbs = (v mn).natAbs := le_antisymm (he ▸ hmx i) (hmin i hi2)
  rcases lt_or_gt_of_ne hi1 with hlt | hgt
  · exact hf3 i hlt (e.trans hf2)
  · have := hlast i (he ▸ hgt)
    rw [e, he] at this
    exact lt_irrefl _ this

/-- `%` in Python: the remainder is smaller than the divisor. -/
theorem fmod_lt_abs (a b : ℤ) (hb : b ≠ 0) : (a - Int.fdiv a b * b).natAbs < b.natAbs := by
  have h : a - Int.fdiv a b * b = Int.fmod a b := by
    have := Int.fmod_add_fdiv_mul a b
    linarith
  rw [h]
  rcases lt_or_gt_of_ne hb with h' | h'
  · have h0 := Int.neg_fmod_neg a b
    have h1 := Int.fmod_lt_of_pos (-a) (b := -b) (by omega)
    have h2 := Int.fmod_nonneg_of_pos (-a) (b := -b) (by omega)
    omega
  · have h1 := Int.fmod_lt_of_pos a h'
    have h2 := Int.fmod_nonneg_of_pos a h'
    omega

/-! ### Inner loops -/

/-- A transformation that leaves the first row and column alone. -/
def Fix0 (P : IM) : Prop := P 0 0 = 1 ∧ P 0 1 = 0 ∧ P 0 2 = 0 ∧ P 1 0 = 0 ∧ P 2 0 = 0

/-- The first row and column are done: zero off the diagonal, and the corner is positive and divides the rest. -/
structure Border (M : IM) : Prop where
  m01 : M 0 1 = 0
  m02 : M 0 2 = 0
  m10 : M 1 0 = 0
  m20 : M 2 0 = 0
  pos : 0 < M 0 0
  d11 : M 0 0 ∣ M 1 1
  d12 : M 0 0 ∣ M 1 2
  d21 : M 0 0 ∣ M 2 1
  d22 : M 0 0 ∣ M 2 2

theorem Fix0.mul {P Q : IM} (hP : Fix0 P) (hQ : Fix0 Q) : Fix0 (P * Q) := by
  obtain ⟨a, b, c, d, e⟩ := hP
  obtain ⟨a', b', c', d', e'⟩ := hQ
  refine ⟨?_, ?_, ?_, ?_, ?_⟩ <;> simp [Matrix.mul_apply, Fin.sum_univ_three, *]

theorem Fix0.one : Fix0 1 := by simp [Fix0, Matrix.one_apply]

theorem Border.left {P M : IM} (hP : Fix0 P) (hM : Border M) : Border (P * M) := by
  obtain ⟨a, b, c, d, e⟩ := hP
  obtain ⟨h1, h2, h3, h4, h5, h6, h7, h8, h9⟩ := hM
  have h00 : (P * M) 0 0 = M 0 0 := by simp [Matrix.mul_apply, Fin.sum_univ_three, *]
  constructor
  case pos => rw [h00]; exact h5
  case d11 => rw [h00]; simp only [Matrix.mul_apply, Fin.sum_univ_three, h1, d, zero_mul, zero_add]; exact dvd_add (h6.mul_left _) (h8.mul_left _)
  case d12 => rw [h00]; simp only [Matrix.mul_apply, Fin.sum_univ_three, h1, d, zero_mul, zero_add]; exact dvd_add (h7.mul_left _) (h9.mul_left _)
  case d21 => rw [h00]; simp only [Matrix.mul_apply, Fin.sum_univ_three, h1, e, zero_mul, zero_add]; exact dvd_add (h6.mul_left _) (h8.mul_left _)
  case d22 => rw [h00]; simp only [Matrix.mul_apply, Fin.sum_univ_three, h1, e, zero_mul, zero_add]; exact dvd_add (h7.mul_left _) (h9.mul_left _)
  all_goals simp [Matrix.mul_apply, Fin.sum_univ_three, *]

theorem Border.right {P M : IM} (hP : Fix0 P) (hM : Border M) : Border (M * P) := by
  obtain ⟨a, b, c, d, e⟩ := hP
  obtain ⟨h1, h2, h3, h4, h5, h6, h7, h8, h9⟩ := hM
  have h00 : (M * P) 0 0 = M 0 0 := by simp [Matrix.mul_apply, Fin.sum_univ_three, *]
  constructor
  case pos => rw [h00]; exact h5
  case d11 => rw [h00]; simp only [Matrix.mul_apply, Fin.sum_univ_three, h3, zero_mul, zero_add]; exact dvd_add (h6.mul_right _) (h7.mul_right _)
  case d12 => rw [h00]; simp only [Matrix.mul_apply, Fin.sum_univ_three, h3, zero_mul, zero_add]; exact dvd_add (h6.mul_right _) (h7.mul_right _)
  case d21 => rw [h00]; simp only [Matrix.mul_apply, Fin.sum_univ_three, h4, zero_mul, zero_add]; exact dvd_add (h8.mul_right _) (h9.mul_right _)
  case d22 => rw [h00]; simp only [Matrix.mul_apply, Fin.sum_univ_three, h4, zero_mul, zero_add]; exact dvd_add (h8.mul_right _) (h9.mul_right _)
  all_goals simp [Matrix.mul_apply, Fin.sum_univ_three, *]

theorem fix0_rowSub {a b : Fin 3} (ha : a ≠ 0) (hb : b ≠ 0) (m : ℤ) : Fix0 (rowSub a b m 1) := by
  revert ha hb
  fin_cases a <;> fin_cases b <;> simp [Fix0, rowSub, Matrix.one_apply]

theorem fix0_colSub {a b : Fin 3} (ha : a ≠ 0) (hb : b ≠ 0) (m : ℤ) : Fix0 (colSub a b m 1) := by
  revert ha hb
  fin_cases a <;> fin_cases b <;> simp [Fix0, colSub, Matrix.one_apply]

theorem fix0_rowSwap {a b : Fin 3} (ha : a ≠ 0) (hb : b ≠ 0) : Fix0 (rowSwap a b 1) := by
  revert ha hb
  fin_cases a <;> fin_cases b <;> simp [Fix0, rowSwap, Matrix.one_apply]

theorem fix0_colSwap {a b : Fin 3} (ha : a ≠ 0) (hb : b ≠ 0) : Fix0 (colSwap a b 1) := by
  revert ha hb
  fin_cases a <;> fin_cases b <;> simp [Fix0, colSwap, Matrix.one_apply]

theorem fix0_colNeg {a : Fin 3} (ha : a ≠ 0) : Fix0 (colNeg a 1) := by
  revert ha
  fin_cases a <;> simp [Fix0, colNeg, Matrix.one_apply]

/-- `s` is obtained from `s0` by invertible row operations (which respect a finished border if `j` is 1). -/
def RowRel (j : Fin 3) (s0 s : SnfState) : Prop :=
  ∃ P : IM, IsUnit P.det ∧ s.M = P * s0.M ∧ s.A = P * s0.A ∧ s.B = s0.B ∧ (j = 1 → Fix0 P)

/-- `s` is obtained from `s0` by invertible column operations (which respect a finished border if `j` is 1). -/
def ColRel (j : Fin 3) (s0 s : SnfState) : Prop :=
  ∃ Q : IM, IsUnit Q.det ∧ s.M = s0.M * Q ∧ s.B = s0.B * Q ∧ s.A = s0.A ∧ (j = 1 → Fix0 Q)

/-- The self-checks pass. -/
theorem snfCheck_ok {H : IM} {s : SnfState} (h : s.A * H * s.B = s.M) : snfCheck H s = .ok s := by
  simp [snfCheck, h]

theorem RowRel.refl (j : Fin 3) (s : SnfState) : RowRel j s s :=
  ⟨1, by simp, by simp, by simp, rfl, fun _ => Fix0.one⟩

theorem RowRel.trans {j : Fin 3} {s t u : SnfState} (h : RowRel j s t) (h' : RowRel j t u) : RowRel j s u := by
  obtain ⟨P, h1, h2, h3, h4, h5⟩ := h
  obtain ⟨Q, k1, k2, k3, k4, k5⟩ := h'
  refine ⟨Q * P, ?_, ?_, ?_, k4.trans h4, fun hj => (k5 hj).mul (h5 hj)⟩
  · rw [Matrix.det_mul]; exact k1.mul h1
  · rw [k2, h2, Matrix.mul_assoc]
  · rw [k3, h3, Matrix.mul_assoc]

theorem ColRel.refl (j : Fin 3) (s : SnfState) : ColRel j s s :=
  ⟨1, by simp, by simp, by simp, rfl, fun _ => Fix0.one⟩

theorem ColRel.trans {j : Fin 3} {s t u : SnfState} (h : ColRel j s t) (h' : ColRel j t u) : ColRel j s u := by
  obtain ⟨P, h1, h2, h3, h4, h5⟩ := h
  obtain ⟨Q, k1, k2, k3, k4, k5⟩ := h'
  refine ⟨P * Q, ?_, ?_, ?_, k4.trans h4, fun hj => (h5 hj).mul (k5 hj)⟩
  · rw [Matrix.det_mul]; exact h1.mul k1
  · rw [k2, h2, Matrix.mul_assoc]
  · rw [k3, h3, Matrix.mul_assoc]

theorem RowRel.inv {j : Fin 3} {H : IM} {s t : SnfState} (h : RowRel j s t) (hs : s.A * H * s.B = s.M) :
    t.A * H * t.B = t.M := by
  obtain ⟨P, h1, h2, h3, h4, h5⟩ := h
  rw [h2, h3, h4, ← hs]
  simp only [Matrix.mul_assoc]

theorem ColRel.inv {j : Fin 3} {H : IM} {s t : SnfState} (h : ColRel j s t) (hs : s.A * H * s.B = s.M) :
    t.A * H * t.B = t.M := by
  obtain ⟨P, h1, h2, h3, h4, h5⟩ := h
  rw [h2, h3, h4, ← hs]
  simp only [Matrix.mul_assoc]

theorem RowRel.border {j : Fin 3} {s t : SnfState} (h : RowRel j s t) (hs : j = 1 → Border s.M) :
    j = 1 → Border t.M := by
  obtain ⟨P, h1, h2, h3, h4, h5⟩ := h
  intro hj
  rw [h2]
  exact (hs hj).left (h5 hj)

theorem ColRel.border {j : Fin 3} {s t : SnfState} (h : ColRel j s t) (hs : j = 1 → Border s.M) :
    j = 1 → Border t.M := by
  obtain ⟨P, h1, h2, h3, h4, h5⟩ := h
  intro hj
  rw [h2]
  exact (hs hj).right (h5 hj)

theorem RowRel.det {j : Fin 3} {s t : SnfState} (h : RowRel j s t) : t.M.det.natAbs = s.M.det.natAbs := by
  obtain ⟨P, h1, h2, h3, h4, h5⟩ := h
  rw [h2, Matrix.det_mul, Int.natAbs_mul, Int.isUnit_iff_natAbs_eq.1 h1, one_mul]

theorem ColRel.det {j : Fin 3} {s t : SnfState} (h : ColRel j s t) : t.M.det.natAbs = s.M.det.natAbs := by
  obtain ⟨P, h1, h2, h3, h4, h5⟩ := h
  rw [h2, Matrix.det_mul, Int.natAbs_mul, Int.isUnit_iff_natAbs_eq.1 h1, mul_one]

theorem RowRel.sub {j : Fin 3} (s : SnfState) {a b : Fin 3} (h : a ≠ b) (m : ℤ)
    (h1 : j = 1 → a ≠ 0 ∧ b ≠ 0) :
    RowRel j s { s with M := rowSub a b m s.M, A := rowSub a b m s.A } :=
  ⟨rowSub a b m 1, rowSub_det h m, rowSub_mul _ _ _ _, rowSub_mul _ _ _ _, rfl,
    fun hj => fix0_rowSub (h1 hj).1 (h1 hj).2 m⟩

theorem ColRel.sub {j : Fin 3} (s : SnfState) {a b : Fin 3} (h : a ≠ b) (m : ℤ)
    (h1 : j = 1 → a ≠ 0 ∧ b ≠ 0) :
    ColRel j s { s with M := colSub a b m s.M, B := colSub a b m s.B } :=
  ⟨colSub a b m 1, colSub_det h m, colSub_mul _ _ _ _, colSub_mul _ _ _ _, rfl,
    fun hj => fix0_colSub (h1 hj).1 (h1 hj).2 m⟩

/-- Sum of the absolute values. -/
def absSum (v : Fin 3 → ℤ) : ℕ := (v 0).natAbs + (v 1).natAbs + (v 2).natAbs

theorem absSum_lt {v w : Fin 3 → ℤ} (a : Fin 3) (h : ∀ i, i ≠ a → w i = v i) (ha : (w a).natAbs < (v a).natAbs) :
    absSum w < absSum v := by
  have h0 := h 0
  have h1 := h 1
  have h2 := h 2
  unfold absSum
  fin_cases a <;> simp_all

/-- The row loop terminates normally. -/
theorem snfRows_ok (H : IM) (j : Fin 3) (s : SnfState) (hA : s.A * H * s.B = s.M) (hb : j = 1 → Border s.M) :
    ∃ s', snfRows H j s = some (.ok s') ∧ RowRel j s s' ∧ nzCount (fun i => s'.M i j) ≤ 1 := by
  obtain ⟨s', h1, h2, h3⟩ := pyWhile_total (fun s => decide (1 < nzCount (fun i => s.M i j))) (snfRowStep H j)
    (fun t => RowRel j s t) (fun t => absSum (fun i => t.M i j)) (by
      intro t ht hc
      simp only [decide_eq_true_eq] at hc
      obtain ⟨mn, mx, e, n1, n2, n3, n4, n5, n6⟩ := findMinMax_ok _ hc
      have hz : j = 1 → mx ≠ 0 ∧ mn ≠ 0 := by
        intro hj
        have hB := ht.border hb hj
        subst hj
        constructor
        · rintro rfl; exact n2 hB.m01
        · rintro rfl; exact n1 hB.m01
      have hrel := RowRel.sub (j := j) t (Ne.symm n3) (Int.fdiv (t.M mx j) (t.M mn j)) hz
      have hrel' := ht.trans hrel
      refine ⟨_, ?_, hrel', ?_⟩
      · simp only [snfRowStep, e, bind, Except.bind, if_neg n1]
        exact snfCheck_ok (hrel'.inv hA)
      · refine absSum_lt mx (fun i hi => by simp [rowSub, hi]) ?_
        simp only [rowSub, if_true]
        exact lt_of_lt_of_le (fmod_lt_abs _ _ n1) (n4 mx n2)) s (RowRel.refl j s)
  refine ⟨s', h1, h2, ?_⟩
  simp only [decide_eq_false_iff_not, not_lt] at h3
  exact h3

end Phenum
