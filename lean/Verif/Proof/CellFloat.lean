import Verif.Model.CellFloat
import Verif.Proof.Cell
import Verif.Proof.Double
/-
The wrapping loops in double precision.
-/
namespace Phenum
open Spec

/-- A loop whose condition never fails does not terminate. -/
theorem pyWhile_never {S : Type} {cond : S → Bool} {step : S → Py S} {Inv : S → Prop}
    (hstep : ∀ s, Inv s → cond s = true ∧ ∃ s', step s = .ok s' ∧ Inv s') {s : S} (hs : Inv s) :
    pyWhile cond step s = none := by
  cases h : pyWhile cond step s with
  | none => rfl
  | some r =>
    have key : ∀ s r, pyWhile cond step s = some r → Inv s → False := by
      apply pyWhile.partial_correctness (motive := fun s _ => Inv s → False)
      intro rec ih s r hr hs
      obtain ⟨hc, s', h1, h2⟩ := hstep s hs
      rw [if_pos hc, h1] at hr
      exact ih s' r hr h2
    exact (key s r h hs).elim

section
variable {fl : ℚ → ℚ} {eps : ℚ}

theorem isDouble_half : IsDouble (1 / 2) := ⟨1, -1, by norm_num, by norm_num⟩

theorem isDouble_zero : IsDouble 0 := ⟨0, 0, by norm_num, by norm_num⟩

theorem isDouble_one : IsDouble 1 := ⟨1, 0, by norm_num, by norm_num⟩

/-- Subtracting 1 from a double between 1/2 and 2^53 is exact. -/
theorem isDouble_sub_one {v : ℚ} (h : IsDouble v) (h1 : 1 / 2 ≤ v) (h2 : v ≤ 2 ^ 53) : IsDouble (v - 1) := by
  obtain ⟨m, e, hm, rfl⟩ := h
  rcases le_or_gt 0 e with he | he
  · obtain ⟨k, rfl⟩ := Int.eq_ofNat_of_zero_le he
    have hz : (m : ℚ) * (2 : ℚ) ^ ((k : ℕ) : ℤ) = ((m * 2 ^ k : ℤ) : ℚ) := by push_cast; simp
    rw [hz] at h1 h2 ⊢
    have h3 : m * 2 ^ k ≤ 2 ^ 53 := by exact_mod_cast h2
    have h4 : 0 < m * 2 ^ k := by
      have : (0 : ℚ) < ((m * 2 ^ k : ℤ) : ℚ) := lt_of_lt_of_le (by norm_num) h1
      exact_mod_cast this
    have := isDouble_int (z := m * 2 ^ k - 1) (by rw [abs_of_nonneg (by omega)]; omega)
    push_cast at this ⊢
    exact this
  · obtain ⟨k, hk⟩ : ∃ k : ℕ, e = -(k : ℤ) := ⟨e.natAbs, by omega⟩
    subst hk
    have hp : (0 : ℚ) < 2 ^ k := by positivity
    have e1 : (m : ℚ) * (2 : ℚ) ^ (-(k : ℤ)) = m / 2 ^ k := by rw [zpow_neg, zpow_natCast]; rfl
    rw [e1] at h1
    rw [div_le_div_iff₀ (by norm_num) hp] at h1
    have h3 : 2 ^ k ≤ m * 2 := by
      have : ((2 ^ k : ℤ) : ℚ) ≤ ((m * 2 : ℤ) : ℚ) := by push_cast; linarith
      exact_mod_cast this
    refine ⟨m - 2 ^ k, -(k : ℤ), ?_, ?_⟩
    · rw [abs_le] at hm ⊢
      have : (0 : ℤ) < 2 ^ k := by positivity
      constructor <;> omega
    · push_cast
      rw [sub_mul]
      congr 1
      rw [zpow_neg, zpow_natCast, mul_inv_cancel₀ (ne_of_gt hp)]

theorem isDouble_add_one {v : ℚ} (h : IsDouble v) (h1 : v ≤ -1) (h2 : -2 ^ 53 ≤ v) : IsDouble (v + 1) := by
  have := isDouble_neg (isDouble_sub_one (isDouble_neg h) (by linarith) (by linarith))
  rwa [show -(-v - 1) = v + 1 by ring] at this

theorem nearest_mono' (hfl : RoundsToNearest fl) {x y : ℚ} (h : x ≤ y) : fl x ≤ fl y := by
  rcases lt_or_eq_of_le h with h | rfl
  · exact nearest_mono hfl h
  · exact le_refl _

/-- The limit `1.0-eps` as computed. -/
theorem limit_range (hfl : RoundsToNearest fl) (he0 : 0 ≤ eps) (he1 : eps ≤ 1 / 2) :
    1 / 2 ≤ fl (1 - eps) ∧ fl (1 - eps) ≤ 1 := by
  constructor
  · have := nearest_mono' hfl (show (1 / 2 : ℚ) ≤ 1 - eps by linarith)
    rwa [fl_of_isDouble hfl isDouble_half] at this
  · have := nearest_mono' hfl (show 1 - eps ≤ (1 : ℚ) by linarith)
    rwa [fl_of_isDouble hfl isDouble_one] at this

theorem lt_of_lt_limit (hfl : RoundsToNearest fl) {w : ℚ} (hw : IsDouble w) (h : w < fl (1 - eps)) : w < 1 - eps := by
  by_contra hlt
  rw [not_lt] at hlt
  have := (hfl (1 - eps)).2 w hw
  rw [abs_of_nonneg (a := fl (1 - eps) - (1 - eps)) (by linarith), abs_of_nonneg (a := w - (1 - eps)) (by linarith)] at this
  linarith

theorem ge_of_gt_limit (hfl : RoundsToNearest fl) {w : ℚ} (hw : IsDouble w) (h : fl (1 - eps) < w) : 1 - eps ≤ w := by
  by_contra hlt
  rw [not_le] at hlt
  have := (hfl (1 - eps)).2 w hw
  rw [abs_of_nonpos (a := fl (1 - eps) - (1 - eps)) (by linarith), abs_of_nonpos (a := w - (1 - eps)) (by linarith)] at this
  linarith

/-- A coordinate whose fractional part rounds up to the limit although it lies below it. -/
def Spec.HitsLimit (fl : ℚ → ℚ) (eps v : ℚ) : Prop :=
  v - ⌊v⌋ < 1 - eps ∧ fl (v - ⌊v⌋) = fl (1 - eps)

theorem hitsLimit_sub {v : ℚ} (z : ℤ) : HitsLimit fl eps (v - z) ↔ HitsLimit fl eps v := by
  unfold HitsLimit
  rw [Int.floor_sub_intCast]
  push_cast
  rw [show v - (z : ℚ) - ((⌊v⌋ : ℚ) - z) = v - ⌊v⌋ by ring]

/-- Coordinates for which the loops work. -/
structure GoodCoord (fl : ℚ → ℚ) (eps v : ℚ) : Prop where
  dbl : IsDouble v
  bound : |v| ≤ 2 ^ 53
  ok : 1 - eps ≤ fl (1 - eps) ∨ ¬ HitsLimit fl eps v

/-- What a step does to a good coordinate that is not in the cell: it either moves by an exact 1, or is rounded into the
cell. -/
theorem good_cases (hfl : RoundsToNearest fl) (he0 : 0 ≤ eps) (he1 : eps ≤ 1 / 2) (hed : IsDouble eps) {v : ℚ}
    (hv : GoodCoord fl eps v) :
    (fl (1 - eps) ≤ v ∧ 1 - eps ≤ v ∧ directStepF fl eps v = v - 1 ∧ wrapStepF fl eps v = v - 1 ∧ IsDouble (v - 1)) ∨
    (v ≤ -1 ∧ v < -eps ∧ v < fl (1 - eps) ∧ directStepF fl eps v = v + 1 ∧ wrapStepF fl eps v = v + 1 ∧ IsDouble (v + 1)) ∨
    (-1 < v ∧ v < -eps ∧ v < fl (1 - eps) ∧ directStepF fl eps v = fl (v + 1) ∧ wrapStepF fl eps v = fl (v + 1) ∧
      0 ≤ fl (v + 1) ∧ fl (v + 1) ≤ fl (1 - eps) ∧ (1 - eps ≤ fl (1 - eps) ∨ fl (v + 1) ≠ fl (1 - eps))) ∨
    (-eps ≤ v ∧ v < fl (1 - eps) ∧ v < 1 - eps ∧ directStepF fl eps v = v ∧ wrapStepF fl eps v = v) := by
  obtain ⟨t0, t1⟩ := limit_range hfl he0 he1
  have e0 : fl (0 - eps) = -eps := by rw [zero_sub]; exact fl_of_isDouble hfl (isDouble_neg hed)
  obtain ⟨hb0, hb1⟩ := abs_le.1 hv.bound
  by_cases h1 : fl (1 - eps) ≤ v
  · left
    have hge : 1 - eps ≤ v := by
      rcases lt_or_eq_of_le h1 with h | h
      · exact ge_of_gt_limit hfl hv.dbl h
      · rcases hv.ok with h' | h'
        · rwa [h] at h'
        · by_contra hlt
          rw [not_le] at hlt
          apply h'
          have hfloor : ⌊v⌋ = 0 := Int.floor_eq_zero_iff.2 ⟨by linarith, by linarith⟩
          unfold HitsLimit
          rw [hfloor, Int.cast_zero, sub_zero]
          exact ⟨hlt, by rw [fl_of_isDouble hfl hv.dbl]; exact h.symm⟩
    have hd := isDouble_sub_one hv.dbl (by linarith) hb1
    refine ⟨h1, hge, ?_, ?_, hd⟩
    · unfold directStepF
      rw [if_neg (not_lt.2 h1), fl_of_isDouble hfl hd, e0]
      simp only
      rw [if_pos (by linarith)]
    · unfold wrapStepF
      rw [if_pos h1, fl_of_isDouble hfl hd]
  · right
    rw [not_le] at h1
    by_cases h2 : v < -eps
    · have s1 : directStepF fl eps v = fl (v + 1) := by
        unfold directStepF
        rw [if_pos h1, e0]
        simp only
        rw [if_neg (not_le.2 h2)]
      have s2 : wrapStepF fl eps v = fl (v + 1) := by
        unfold wrapStepF
        rw [if_neg (not_le.2 h1), e0, if_pos h2]
      by_cases h3 : v ≤ -1
      · left
        have hd := isDouble_add_one hv.dbl h3 hb0
        rw [fl_of_isDouble hfl hd] at s1 s2
        exact ⟨h3, h2, h1, s1, s2, hd⟩
      · right; left
        rw [not_le] at h3
        refine ⟨h3, h2, h1, s1, s2, ?_, nearest_mono hfl (by linarith), ?_⟩
        · have := nearest_mono' hfl (show (0 : ℚ) ≤ v + 1 by linarith)
          rwa [fl_of_isDouble hfl isDouble_zero] at this
        · refine hv.ok.imp id (fun h hh => h ?_)
          have hfloor : ⌊v⌋ = -1 := Int.floor_eq_iff.2 ⟨by push_cast; linarith, by push_cast; linarith⟩
          unfold HitsLimit
          rw [hfloor]
          push_cast
          rw [sub_neg_eq_add]
          exact ⟨by linarith, hh⟩
    · right; right
      rw [not_lt] at h2
      refine ⟨h2, h1, lt_of_lt_limit hfl hv.dbl h1, ?_, ?_⟩
      · unfold directStepF
        rw [if_pos h1, e0]
        simp only
        rw [if_pos h2]
      · unfold wrapStepF
        rw [if_neg (not_le.2 h1), e0, if_neg (not_lt.2 h2)]

theorem good_steps_eq (hfl : RoundsToNearest fl) (he0 : 0 ≤ eps) (he1 : eps ≤ 1 / 2) (hed : IsDouble eps) {v : ℚ}
    (hv : GoodCoord fl eps v) : wrapStepF fl eps v = directStepF fl eps v := by
  rcases good_cases hfl he0 he1 hed hv with h | h | h | h
  · rw [h.2.2.1, h.2.2.2.1]
  · rw [h.2.2.2.1, h.2.2.2.2.1]
  · rw [h.2.2.2.1, h.2.2.2.2.1]
  · rw [h.2.2.2.1, h.2.2.2.2]

theorem good_step (hfl : RoundsToNearest fl) (he0 : 0 ≤ eps) (he1 : eps ≤ 1 / 2) (hed : IsDouble eps) {v : ℚ}
    (hv : GoodCoord fl eps v) : GoodCoord fl eps (directStepF fl eps v) := by
  obtain ⟨t0, t1⟩ := limit_range hfl he0 he1
  obtain ⟨hb0, hb1⟩ := abs_le.1 hv.bound
  rcases good_cases hfl he0 he1 hed hv with h | h | h | h
  · rw [h.2.2.1]
    refine ⟨h.2.2.2.2, ?_, hv.ok.imp id (fun hn hh => hn ?_)⟩
    · rw [abs_le]; constructor
      · have : (0 : ℚ) ≤ 2 ^ 53 - 1 := by norm_num
        linarith [h.1]
      · linarith
    · have := (hitsLimit_sub (fl := fl) (eps := eps) (v := v) 1).1
      push_cast at this
      exact this hh
  · rw [h.2.2.2.1]
    refine ⟨h.2.2.2.2.2, ?_, hv.ok.imp id (fun hn hh => hn ?_)⟩
    · rw [abs_le]; constructor
      · linarith
      · have : (0 : ℚ) ≤ 2 ^ 53 := by norm_num
        linarith [h.1]
    · have := (hitsLimit_sub (fl := fl) (eps := eps) (v := v) (-1)).1
      push_cast at this
      rw [sub_neg_eq_add] at this
      exact this hh
  · rw [h.2.2.2.1]
    obtain ⟨-, -, -, -, -, h0, h1, h2⟩ := h
    refine ⟨(hfl _).1, ?_, h2.imp id (fun hn hh => ?_)⟩
    · rw [abs_of_nonneg h0]
      have : (1 : ℚ) ≤ 2 ^ 53 := by norm_num
      linarith
    · unfold HitsLimit at hh
      rcases lt_or_eq_of_le (le_trans h1 t1) with hlt | heq
      · rw [Int.floor_eq_zero_iff.2 ⟨h0, hlt⟩, Int.cast_zero, sub_zero, fl_of_isDouble hfl (hfl _).1] at hh
        exact hn hh.2
      · rw [heq] at hh h1 hn
        exact hn (le_antisymm h1 t1)
  · rw [h.2.2.2.1]; exact hv

/-- Number of steps left. -/
def cellSteps (eps v : ℚ) : ℕ := cellDist eps v + if v < -eps then 1 else 0

theorem cellSteps_in {v : ℚ} (h0 : -eps ≤ v) (h1 : v < 1 - eps) : cellSteps eps v = 0 := by
  unfold cellSteps cellDist
  rw [if_neg (not_lt.2 h0), Int.floor_eq_zero_iff.2 ⟨by linarith, by linarith⟩]
  rfl

theorem cellSteps_step (hfl : RoundsToNearest fl) (he0 : 0 ≤ eps) (he1 : eps ≤ 1 / 2) (hed : IsDouble eps) {v : ℚ}
    (hv : GoodCoord fl eps v) : cellSteps eps (directStepF fl eps v) ≤ cellSteps eps v - 1 := by
  obtain ⟨t0, t1⟩ := limit_range hfl he0 he1
  rcases good_cases hfl he0 he1 hed hv with h | h | h | h
  · rw [h.2.2.1]
    have e1 : wrapStep eps v = v - 1 := by unfold wrapStep; rw [if_pos h.2.1]
    have e2 := cellDist_step eps v
    rw [e1] at e2
    unfold cellSteps
    rw [e2, if_neg (by linarith [h.2.1]), if_neg (by linarith [h.2.1])]
    omega
  · rw [h.2.2.2.1]
    have e1 : wrapStep eps v = v + 1 := by
      unfold wrapStep; rw [if_neg (by linarith [h.2.1]), if_pos (by linarith [h.2.1])]
    have e2 := cellDist_step eps v
    rw [e1] at e2
    have e3 := cellDist_pos_of_lt (eps := eps) (v := v) (by linarith [h.2.1])
    unfold cellSteps
    rw [e2, if_pos h.2.1]
    split_ifs <;> omega
  · obtain ⟨h1, h2, -, h3, -, h4, h5, -⟩ := h
    rw [h3]
    have e3 := cellDist_pos_of_lt (eps := eps) (v := v) (by linarith)
    have e4 : cellDist eps (fl (v + 1)) ≤ 1 := by
      have a1 : 0 ≤ ⌊fl (v + 1) + eps⌋ := Int.floor_nonneg.2 (by linarith)
      have a2 : ⌊fl (v + 1) + eps⌋ < 2 := Int.floor_lt.2 (by push_cast; linarith)
      unfold cellDist
      omega
    unfold cellSteps
    rw [if_neg (by linarith), if_pos h2]
    omega
  · rw [h.2.2.2.1, cellSteps_in h.1 h.2.2.1]

theorem cellSteps_pos (hfl : RoundsToNearest fl) (he0 : 0 ≤ eps) (he1 : eps ≤ 1 / 2) (hed : IsDouble eps) {v : ℚ}
    (hv : GoodCoord fl eps v) (h : v ≥ fl (1 - eps) ∨ v < -eps) : 0 < cellSteps eps v := by
  rcases good_cases hfl he0 he1 hed hv with h' | h' | h' | h'
  · have := cellDist_pos_of_gt (eps := eps) (v := v) h'.2.1
    unfold cellSteps; omega
  · unfold cellSteps; rw [if_pos h'.2.1]; omega
  · unfold cellSteps; rw [if_pos h'.2.1]; omega
  · rcases h with h | h
    · linarith [h'.2.1]
    · linarith [h'.1]

theorem cellSteps_le (he0 : 0 ≤ eps) (he1 : eps ≤ 1 / 2) (v : ℚ) : (cellSteps eps v : ℤ) ≤ 2 * ⌈|v|⌉ := by
  have h1 := cellDist_le (v := v) he0 (by linarith : eps < 1)
  by_cases h : v < -eps
  · have h2 : (1 : ℤ) ≤ ⌈|v|⌉ := by
      rw [Int.one_le_ceil_iff]
      exact abs_pos.2 (by linarith)
    unfold cellSteps
    rw [if_pos h]
    push_cast
    omega
  · have h2 : (0 : ℤ) ≤ ⌈|v|⌉ := Int.ceil_nonneg (abs_nonneg v)
    unfold cellSteps
    rw [if_neg h]
    push_cast
    omega

/-- `w` comes from `v` by an integer translation with at most one rounding. -/
def FromCoord (eps v w : ℚ) : Prop := ∃ z : ℤ, w = v - z ∨ (-eps ≤ w ∧ |w - (v - z)| ≤ 1 / 2 ^ 53)

theorem fromCoord_step (hfl : RoundsToNearest fl) (he0 : 0 ≤ eps) (he1 : eps ≤ 1 / 2) (hed : IsDouble eps) {v w : ℚ}
    (hw : GoodCoord fl eps w) (h : FromCoord eps v w) : FromCoord eps v (directStepF fl eps w) := by
  obtain ⟨z, hz⟩ := h
  rcases good_cases hfl he0 he1 hed hw with h | h | h | h
  · rw [h.2.2.1]
    refine ⟨z + 1, hz.imp (fun hz => by rw [hz]; push_cast; ring) (fun hz => ⟨by linarith [h.2.1], ?_⟩)⟩
    rw [show w - 1 - (v - ((z + 1 : ℤ) : ℚ)) = w - (v - z) by push_cast; ring]
    exact hz.2
  · rw [h.2.2.2.1]
    refine ⟨z - 1, Or.inl ?_⟩
    rcases hz with hz | hz
    · rw [hz]; push_cast; ring
    · linarith [h.2.1, hz.1]
  · obtain ⟨h1, h2, -, h3, -, h4, h5, -⟩ := h
    rw [h3]
    rcases hz with hz | hz
    · refine ⟨z - 1, Or.inr ⟨by linarith, ?_⟩⟩
      have e := nearest_rounds hfl (w + 1)
      rw [abs_of_nonneg (a := w + 1) (by linarith)] at e
      rw [show v - ((z - 1 : ℤ) : ℚ) = w + 1 by rw [hz]; push_cast; ring]
      refine le_trans e ?_
      rw [one_div, ← one_div]
      exact mul_le_of_le_one_left (by norm_num) (by linarith)
    · linarith [hz.1]
  · rw [h.2.2.2.1]; exact ⟨z, hz⟩

theorem FromCoord.err {v w : ℚ} (h : FromCoord eps v w) : ∃ z : ℤ, |w - (v - z)| ≤ 1 / 2 ^ 53 := by
  obtain ⟨z, hz⟩ := h
  refine ⟨z, ?_⟩
  rcases hz with hz | hz
  · rw [hz, sub_self, abs_zero]; norm_num
  · exact hz.2

/-- Largest number of steps left. -/
def cellStepsMax (eps : ℚ) (v : Fin 3 → ℚ) : ℕ := max (max (cellSteps eps (v 0)) (cellSteps eps (v 1))) (cellSteps eps (v 2))

theorem directLoopF_ok (hfl : RoundsToNearest fl) (he0 : 0 ≤ eps) (he1 : eps ≤ 1 / 2) (hed : IsDouble eps)
    (v : Fin 3 → ℚ) (hv : ∀ i, GoodCoord fl eps (v i)) :
    ∃ w, directLoopF fl eps v = some (.ok w) ∧ (∀ i, -eps ≤ w i ∧ w i < 1 - eps) ∧
      ∀ i, ∃ z : ℤ, |w i - (v i - z)| ≤ 1 / 2 ^ 53 := by
  have e0 : fl (0 - eps) = -eps := by rw [zero_sub]; exact fl_of_isDouble hfl (isDouble_neg hed)
  obtain ⟨s, h1, ⟨h2, h3⟩, h4⟩ := pyWhile_total
    (fun v : Fin 3 → ℚ => decide (v 0 ≥ fl (1 - eps) ∨ v 1 ≥ fl (1 - eps) ∨ v 2 ≥ fl (1 - eps)
      ∨ v 0 < fl (0 - eps) ∨ v 1 < fl (0 - eps) ∨ v 2 < fl (0 - eps)))
    (fun v => .ok (fun i => directStepF fl eps (v i)))
    (fun w => (∀ i, GoodCoord fl eps (w i)) ∧ ∀ i, FromCoord eps (v i) (w i))
    (fun w => cellStepsMax eps w) (by
      rintro w ⟨i1, i2⟩ hc
      simp only [decide_eq_true_eq, e0] at hc
      have hpos : 0 < cellStepsMax eps w := by
        unfold cellStepsMax
        rcases hc with hc | hc | hc | hc | hc | hc
        · have := cellSteps_pos hfl he0 he1 hed (i1 0) (Or.inl hc); omega
        · have := cellSteps_pos hfl he0 he1 hed (i1 1) (Or.inl hc); omega
        · have := cellSteps_pos hfl he0 he1 hed (i1 2) (Or.inl hc); omega
        · have := cellSteps_pos hfl he0 he1 hed (i1 0) (Or.inr hc); omega
        · have := cellSteps_pos hfl he0 he1 hed (i1 1) (Or.inr hc); omega
        · have := cellSteps_pos hfl he0 he1 hed (i1 2) (Or.inr hc); omega
      refine ⟨_, rfl, ⟨fun i => good_step hfl he0 he1 hed (i1 i), fun i => fromCoord_step hfl he0 he1 hed (i1 i) (i2 i)⟩, ?_⟩
      have a0 := cellSteps_step hfl he0 he1 hed (i1 0)
      have a1 := cellSteps_step hfl he0 he1 hed (i1 1)
      have a2 := cellSteps_step hfl he0 he1 hed (i1 2)
      unfold cellStepsMax at hpos ⊢
      simp only
      omega) v ⟨hv, fun i => ⟨0, Or.inl (by simp)⟩⟩
  refine ⟨s, h1, ?_, fun i => (h3 i).err⟩
  simp only [decide_eq_false_iff_not, not_or, not_lt, not_le, ge_iff_le, e0] at h4
  obtain ⟨a, b, c, d, e, f⟩ := h4
  intro i
  fin_cases i
  · exact ⟨d, lt_of_lt_limit hfl (h2 0).dbl a⟩
  · exact ⟨e, lt_of_lt_limit hfl (h2 1).dbl b⟩
  · exact ⟨f, lt_of_lt_limit hfl (h2 2).dbl c⟩

theorem wrapLoopF_ok (hfl : RoundsToNearest fl) (he0 : 0 ≤ eps) (he1 : eps ≤ 1 / 2) (hed : IsDouble eps)
    (v : Fin 3 → ℚ) (hv : ∀ i, GoodCoord fl eps (v i)) :
    ∃ c w, wrapLoopF fl eps v = some (.ok (c, w)) ∧ (∀ i, -eps ≤ w i ∧ w i ≤ fl (1 - eps)) ∧
      ∀ i, ∃ z : ℤ, |w i - (v i - z)| ≤ 1 / 2 ^ 53 := by
  have e0 : fl (0 - eps) = -eps := by rw [zero_sub]; exact fl_of_isDouble hfl (isDouble_neg hed)
  obtain ⟨s, h1, ⟨h2, h3, -⟩, h4⟩ := pyWhile_total
    (fun s : ℕ × (Fin 3 → ℚ) => decide (s.2 0 > fl (1 - eps) ∨ s.2 1 > fl (1 - eps) ∨ s.2 2 > fl (1 - eps)
      ∨ s.2 0 < fl (0 - eps) ∨ s.2 1 < fl (0 - eps) ∨ s.2 2 < fl (0 - eps)))
    (fun s =>
      let c := s.1 + 1
      if (c : ℤ) > max ⌈|max3 v|⌉ ⌈|min3 v|⌉ * 2 then .error .sysExit else .ok (c, fun i => wrapStepF fl eps (s.2 i)))
    (fun s => (∀ i, GoodCoord fl eps (s.2 i)) ∧ (∀ i, FromCoord eps (v i) (s.2 i)) ∧
      ((s.1 + cellStepsMax eps s.2 : ℕ) : ℤ) ≤ max ⌈|max3 v|⌉ ⌈|min3 v|⌉ * 2)
    (fun s => cellStepsMax eps s.2) (by
      rintro ⟨c, w⟩ ⟨i1, i2, i3⟩ hc
      simp only [decide_eq_true_eq, e0] at hc
      simp only at i1 i2 i3
      have hpos : 0 < cellStepsMax eps w := by
        unfold cellStepsMax
        rcases hc with hc | hc | hc | hc | hc | hc
        · have := cellSteps_pos hfl he0 he1 hed (i1 0) (Or.inl (le_of_lt hc)); omega
        · have := cellSteps_pos hfl he0 he1 hed (i1 1) (Or.inl (le_of_lt hc)); omega
        · have := cellSteps_pos hfl he0 he1 hed (i1 2) (Or.inl (le_of_lt hc)); omega
        · have := cellSteps_pos hfl he0 he1 hed (i1 0) (Or.inr hc); omega
        · have := cellSteps_pos hfl he0 he1 hed (i1 1) (Or.inr hc); omega
        · have := cellSteps_pos hfl he0 he1 hed (i1 2) (Or.inr hc); omega
      have hstep : ∀ i, wrapStepF fl eps (w i) = directStepF fl eps (w i) := fun i => good_steps_eq hfl he0 he1 hed (i1 i)
      have a0 := cellSteps_step hfl he0 he1 hed (i1 0)
      have a1 := cellSteps_step hfl he0 he1 hed (i1 1)
      have a2 := cellSteps_step hfl he0 he1 hed (i1 2)
      have hdec : cellStepsMax eps (fun i => directStepF fl eps (w i)) < cellStepsMax eps w := by
        unfold cellStepsMax at hpos ⊢
        simp only
        omega
      refine ⟨(c + 1, fun i => wrapStepF fl eps (w i)), ?_, ⟨?_, ?_, ?_⟩, ?_⟩
      · simp only
        rw [if_neg]
        push_cast at i3 ⊢
        omega
      · intro i; simp only [hstep]; exact good_step hfl he0 he1 hed (i1 i)
      · intro i; simp only [hstep]; exact fromCoord_step hfl he0 he1 hed (i1 i) (i2 i)
      · simp only [hstep]
        omega
      · simp only [hstep]
        exact hdec) (0, v) ⟨hv, fun i => ⟨0, Or.inl (by simp)⟩, by
          have b0 := cellSteps_le he0 he1 (v 0)
          have b1 := cellSteps_le he0 he1 (v 1)
          have b2 := cellSteps_le he0 he1 (v 2)
          have m0 := abs_le_minmax v 0
          have m1 := abs_le_minmax v 1
          have m2 := abs_le_minmax v 2
          simp only [Nat.zero_add]
          unfold cellStepsMax
          push_cast
          omega⟩
  refine ⟨s.1, s.2, h1, ?_, fun i => (h3 i).err⟩
  simp only [decide_eq_false_iff_not, not_or, not_lt, gt_iff_lt, e0] at h4
  obtain ⟨a, b, c, d, e, f⟩ := h4
  intro i
  fin_cases i
  · exact ⟨d, a⟩
  · exact ⟨e, b⟩
  · exact ⟨f, c⟩

/-- A coordinate that hits a limit below `1-eps` keeps the loop of `cartesian2direct` going. -/
theorem bad_step (hfl : RoundsToNearest fl) (he0 : 0 ≤ eps) (he1 : eps ≤ 1 / 2) (hed : IsDouble eps)
    (ht : fl (1 - eps) < 1 - eps) {v : ℚ} (hd : IsDouble v) (hb : |v| ≤ 2 ^ 53) (hh : HitsLimit fl eps v) :
    (v ≥ fl (1 - eps) ∨ v < -eps) ∧ IsDouble (directStepF fl eps v) ∧ |directStepF fl eps v| ≤ 2 ^ 53 ∧
      HitsLimit fl eps (directStepF fl eps v) := by
  obtain ⟨t0, t1⟩ := limit_range hfl he0 he1
  have e0 : fl (0 - eps) = -eps := by rw [zero_sub]; exact fl_of_isDouble hfl (isDouble_neg hed)
  obtain ⟨hb0, hb1⟩ := abs_le.1 hb
  by_cases h1 : fl (1 - eps) ≤ v
  · refine ⟨Or.inl h1, ?_⟩
    have hds := isDouble_sub_one hd (by linarith) hb1
    have hge : (v - 1 ≥ -eps) ∨ v = fl (1 - eps) := by
      rcases lt_or_eq_of_le h1 with h | h
      · left; linarith [ge_of_gt_limit hfl hd h]
      · exact Or.inr h.symm
    by_cases h2 : v - 1 ≥ -eps
    · have s1 : directStepF fl eps v = v - 1 := by
        unfold directStepF
        rw [if_neg (not_lt.2 h1), fl_of_isDouble hfl hds, e0]
        simp only
        rw [if_pos h2]
      rw [s1]
      refine ⟨hds, ?_, ?_⟩
      · rw [abs_le]; constructor
        · have : (0 : ℚ) ≤ 2 ^ 53 - 1 := by norm_num
          linarith
        · linarith
      · have := (hitsLimit_sub (fl := fl) (eps := eps) (v := v) 1).2
        push_cast at this
        exact this hh
    · have s1 : directStepF fl eps v = v := by
        unfold directStepF
        rw [if_neg (not_lt.2 h1), fl_of_isDouble hfl hds, e0]
        simp only
        rw [if_neg h2, sub_add_cancel, fl_of_isDouble hfl hd]
      rw [s1]
      exact ⟨hd, hb, hh⟩
  · rw [not_le] at h1
    have hlt : v < -eps := by
      by_contra h2
      rw [not_lt] at h2
      unfold HitsLimit at hh
      rcases le_or_gt 0 v with h0 | h0
      · rw [Int.floor_eq_zero_iff.2 ⟨h0, by linarith⟩, Int.cast_zero, sub_zero, fl_of_isDouble hfl hd] at hh
        linarith [hh.2]
      · have hfloor : ⌊v⌋ = -1 := Int.floor_eq_iff.2 ⟨by push_cast; linarith, by push_cast; linarith⟩
        rw [hfloor] at hh
        push_cast at hh
        linarith [hh.1]
    refine ⟨Or.inr hlt, ?_⟩
    have s1 : directStepF fl eps v = fl (v + 1) := by
      unfold directStepF
      rw [if_pos h1, e0]
      simp only
      rw [if_neg (not_le.2 hlt)]
    rw [s1]
    by_cases h3 : v ≤ -1
    · have hda := isDouble_add_one hd h3 hb0
      rw [fl_of_isDouble hfl hda]
      refine ⟨hda, ?_, ?_⟩
      · rw [abs_le]; constructor
        · linarith
        · have : (0 : ℚ) ≤ 2 ^ 53 := by norm_num
          linarith
      · have := (hitsLimit_sub (fl := fl) (eps := eps) (v := v) (-1)).2
        push_cast at this
        rw [sub_neg_eq_add] at this
        exact this hh
    · rw [not_le] at h3
      have hfloor : ⌊v⌋ = -1 := Int.floor_eq_iff.2 ⟨by push_cast; linarith, by push_cast; linarith⟩
      have heq : fl (v + 1) = fl (1 - eps) := by
        have := hh.2
        rw [hfloor] at this
        push_cast at this
        rwa [sub_neg_eq_add] at this
      rw [heq]
      refine ⟨(hfl _).1, ?_, ?_⟩
      · rw [abs_le]
        have : (1 : ℚ) ≤ 2 ^ 53 := by norm_num
        constructor <;> linarith
      · unfold HitsLimit
        rw [Int.floor_eq_zero_iff.2 ⟨by linarith, by linarith⟩, Int.cast_zero, sub_zero, fl_of_isDouble hfl (hfl _).1]
        exact ⟨ht, rfl⟩

/-- Coordinates that keep the loop going. -/
structure BadCoord (fl : ℚ → ℚ) (eps v : ℚ) : Prop where
  dbl : IsDouble v
  bound : |v| ≤ 2 ^ 53
  hits : HitsLimit fl eps v

theorem directLoopF_none (hfl : RoundsToNearest fl) (he0 : 0 ≤ eps) (he1 : eps ≤ 1 / 2) (hed : IsDouble eps)
    (ht : fl (1 - eps) < 1 - eps) (v : Fin 3 → ℚ) (i : Fin 3) (hd : IsDouble (v i)) (hb : |v i| ≤ 2 ^ 53)
    (hh : HitsLimit fl eps (v i)) : directLoopF fl eps v = none := by
  have e0 : fl (0 - eps) = -eps := by rw [zero_sub]; exact fl_of_isDouble hfl (isDouble_neg hed)
  unfold directLoopF
  refine pyWhile_never (Inv := fun w => BadCoord fl eps (w i)) (s := v) ?_ ?_
  swap
  · exact BadCoord.mk hd hb hh
  intro w hw
  obtain ⟨k1, k2, k3, k4⟩ := bad_step hfl he0 he1 hed ht hw.dbl hw.bound hw.hits
  refine ⟨?_, _, rfl, BadCoord.mk k2 k3 k4⟩
  rw [decide_eq_true_eq, e0]
  obtain rfl | rfl | rfl : i = 0 ∨ i = 1 ∨ i = 2 := by omega
  · rcases k1 with k | k
    · exact Or.inl k
    · exact Or.inr (Or.inr (Or.inr (Or.inl k)))
  · rcases k1 with k | k
    · exact Or.inr (Or.inl k)
    · exact Or.inr (Or.inr (Or.inr (Or.inr (Or.inl k))))
  · rcases k1 with k | k
    · exact Or.inr (Or.inr (Or.inl k))
    · exact Or.inr (Or.inr (Or.inr (Or.inr (Or.inr k))))

end

end Phenum
