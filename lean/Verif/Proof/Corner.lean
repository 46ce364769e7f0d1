import Mathlib.Tactic.Linarith
import Mathlib.Data.Real.Basic
/-
Quadratic forms in two variables: the best corner of a reduced parallelogram is better than its neighbours.
-/
namespace Phenum

/-- `a u² + 2 c u v + b v²` -/
def qf (a b c u v : ℝ) : ℝ := a * u ^ 2 + 2 * c * (u * v) + b * v ^ 2

/-- a reduced form, roughly -/
structure RedForm (a b c : ℝ) : Prop where
  pos : 0 < a
  le : a ≤ 102 / 100 * b
  small : |2 * c| ≤ 101 / 100 * a

variable {a b c u v : ℝ}

theorem RedForm.neg (h : RedForm a b c) : RedForm a b (-c) := ⟨h.pos, h.le, by rw [mul_neg, abs_neg]; exact h.small⟩

theorem RedForm.b_pos (h : RedForm a b c) : 0 < b := by
  have := h.pos
  have := h.le
  linarith

/-- the products of the off-diagonal coefficient -/
theorem RedForm.mul_le (h : RedForm a b c) {x : ℝ} (hx : -(1 / 100) ≤ x) :
    |2 * c * x| ≤ 101 / 100 * (a * x) + 3 / 100 * a := by
  have ha := h.pos
  rw [abs_mul]
  have h1 : |x| ≤ x + 2 / 100 := by rw [abs_le]; constructor <;> linarith
  have h2 := mul_le_mul h.small h1 (abs_nonneg x) (by linarith)
  nlinarith

theorem corner_bounds (h : RedForm a b c) (hu : -(1 / 100) ≤ u) (hv : -(1 / 100) ≤ v)
    (h1 : qf a b c u v ≤ qf a b c (u - 1) v) (h2 : qf a b c u v ≤ qf a b c u (v - 1)) :
    u ≤ 1 / 2 + 52 / 100 * v + 2 / 100 ∧ v ≤ 1 / 2 + 52 / 100 * u + 2 / 100 := by
  have ha := h.pos
  have hb := h.b_pos
  have hle := h.le
  unfold qf at h1 h2
  have e1 : 2 * u * a ≤ a - 2 * c * v := by nlinarith
  have e2 : 2 * v * b ≤ b - 2 * c * u := by nlinarith
  have m1 := neg_le_of_abs_le (h.mul_le hv)
  have m2 := neg_le_of_abs_le (h.mul_le hu)
  constructor
  · by_contra hc
    nlinarith
  · by_contra hc
    have hx : a * (u + 2 / 100) ≤ 102 / 100 * b * (u + 2 / 100) := mul_le_mul_of_nonneg_right hle (by linarith)
    nlinarith

/-- the best of the four corners is at least as good as its eight neighbours -/
theorem corner_best (h : RedForm a b c) (hu : -(1 / 100) ≤ u) (hu' : u ≤ 1 + 1 / 100) (hv : -(1 / 100) ≤ v) (hv' : v ≤ 1 + 1 / 100)
    (h1 : qf a b c u v ≤ qf a b c (u - 1) v) (h2 : qf a b c u v ≤ qf a b c u (v - 1)) (h3 : qf a b c u v ≤ qf a b c (u - 1) (v - 1)) :
    ∀ s t : ℤ, -1 ≤ s → s ≤ 1 → -1 ≤ t → t ≤ 1 → qf a b c u v ≤ qf a b c (u + s) (v + t) := by
  have ha := h.pos
  have hb := h.b_pos
  have hle := h.le
  obtain ⟨bu, bv⟩ := corner_bounds h hu hv h1 h2
  have m1 := abs_le.mp (h.mul_le hv)
  have m2 := abs_le.mp (h.mul_le hu)
  have m3 := abs_le.mp h.small
  have hx : a * (u + 2 / 100) ≤ 102 / 100 * b * (u + 2 / 100) := mul_le_mul_of_nonneg_right hle (by linarith)
  have hy : a * (v + 2 / 100) ≤ 102 / 100 * b * (v + 2 / 100) := mul_le_mul_of_nonneg_right hle (by linarith)
  have p1 : 0 ≤ a * (1 / 2 + 52 / 100 * v + 2 / 100 - u) := mul_nonneg ha.le (by linarith)
  have p2 : 0 ≤ a * (1 / 2 + 52 / 100 * u + 2 / 100 - v) := mul_nonneg ha.le (by linarith)
  have p3 : 0 ≤ b * (1 / 2 + 52 / 100 * v + 2 / 100 - u) := mul_nonneg hb.le (by linarith)
  have p4 : 0 ≤ b * (1 / 2 + 52 / 100 * u + 2 / 100 - v) := mul_nonneg hb.le (by linarith)
  have p5 : 0 ≤ a * (u + 1 / 100) := mul_nonneg ha.le (by linarith)
  have p6 : 0 ≤ b * (v + 1 / 100) := mul_nonneg hb.le (by linarith)
  have p7 : 0 ≤ a * (v + 1 / 100) := mul_nonneg ha.le (by linarith)
  have p8 : 0 ≤ b * (u + 1 / 100) := mul_nonneg hb.le (by linarith)
  have q10 : qf a b c u v ≤ qf a b c (u + 1) v := by
    unfold qf
    linarith
  have q01 : qf a b c u v ≤ qf a b c u (v + 1) := by
    unfold qf
    linarith
  have q11 : qf a b c u v ≤ qf a b c (u + 1) (v + 1) := by
    unfold qf
    linarith
  have q1m : qf a b c u v ≤ qf a b c (u + 1) (v - 1) := by
    unfold qf at *
    by_cases hc : 1 / 4 ≤ v
    · have h4 := abs_le.mp (h.mul_le (x := 1 - v) (by linarith))
      have : 0 ≤ a * (v - 1 / 4) := mul_nonneg ha.le (by linarith)
      linarith
    · have : 0 ≤ b * (1 / 4 - v) := mul_nonneg hb.le (by linarith)
      have : 0 ≤ a * (1 / 4 - v) := mul_nonneg ha.le (by linarith)
      linarith
  have qm1 : qf a b c u v ≤ qf a b c (u - 1) (v + 1) := by
    unfold qf at *
    by_cases hc : 1 / 4 ≤ u
    · have h4 := abs_le.mp (h.mul_le (x := 1 - u) (by linarith))
      have : 0 ≤ a * (u - 1 / 4) := mul_nonneg ha.le (by linarith)
      linarith
    · have : 0 ≤ a * (1 / 4 - u) := mul_nonneg ha.le (by linarith)
      linarith
  intro s t hs hs' ht ht'
  have hs3 : s = -1 ∨ s = 0 ∨ s = 1 := by omega
  have ht3 : t = -1 ∨ t = 0 ∨ t = 1 := by omega
  rcases hs3 with rfl | rfl | rfl <;> rcases ht3 with rfl | rfl | rfl <;> push_cast <;>
    try simp only [add_zero, ← sub_eq_add_neg]
  all_goals first | assumption | exact le_refl _

/-- the best corner is close -/
theorem corner_close (h : RedForm a b c) (hu : -(1 / 100) ≤ u) (hu' : u ≤ 1 + 1 / 100) (hv : -(1 / 100) ≤ v) (hv' : v ≤ 1 + 1 / 100)
    (h1 : qf a b c u v ≤ qf a b c (u - 1) v) (h2 : qf a b c u v ≤ qf a b c u (v - 1)) (h3 : qf a b c u v ≤ qf a b c (u - 1) (v - 1)) :
    qf a b c u v ≤ 26 / 100 * (a + b) := by
  have ha := h.pos
  have hb := h.b_pos
  have hle := h.le
  have clip : ∀ x : ℝ, -(1 / 100) ≤ x → x ≤ 1 + 1 / 100 → ∃ p, 0 ≤ p ∧ p ≤ 1 ∧ |x - p| ≤ 1 / 100 := by
    intro x hx hx'
    by_cases h0 : x < 0
    · exact ⟨0, le_refl _, zero_le_one, by rw [sub_zero, abs_le]; constructor <;> linarith⟩
    · by_cases h1 : 1 < x
      · exact ⟨1, zero_le_one, le_refl _, by rw [abs_le]; constructor <;> linarith⟩
      · exact ⟨x, by linarith, by linarith, by rw [sub_self, abs_zero]; norm_num⟩
  obtain ⟨p, p0, p1, pu⟩ := clip u hu hu'
  obtain ⟨q, q0, q1, qv⟩ := clip v hv hv'
  have w1 : 0 ≤ p * (1 - q) := mul_nonneg p0 (by linarith)
  have w2 : 0 ≤ (1 - p) * q := mul_nonneg (by linarith) q0
  have w3 : 0 ≤ p * q := mul_nonneg p0 q0
  have k1 := mul_le_mul_of_nonneg_left h1 w1
  have k2 := mul_le_mul_of_nonneg_left h2 w2
  have k3 := mul_le_mul_of_nonneg_left h3 w3
  have avg : qf a b c u v ≤ a * ((u - p) ^ 2 + p * (1 - p)) + b * ((v - q) ^ 2 + q * (1 - q)) + 2 * c * ((u - p) * (v - q)) := by
    unfold qf at *
    linarith
  have su : (u - p) ^ 2 ≤ 1 / 10000 := by
    rw [← sq_abs]
    have := abs_nonneg (u - p)
    nlinarith
  have sv : (v - q) ^ 2 ≤ 1 / 10000 := by
    rw [← sq_abs]
    have := abs_nonneg (v - q)
    nlinarith
  have tp : p * (1 - p) ≤ 1 / 4 := by nlinarith [sq_nonneg (p - 1 / 2)]
  have tq : q * (1 - q) ≤ 1 / 4 := by nlinarith [sq_nonneg (q - 1 / 2)]
  have hcr : 2 * c * ((u - p) * (v - q)) ≤ 101 / 100 * a * (1 / 10000) := by
    refine le_trans (le_abs_self _) ?_
    rw [abs_mul]
    refine mul_le_mul h.small ?_ (abs_nonneg _) (by linarith)
    rw [abs_mul]
    have := mul_le_mul pu qv (abs_nonneg _) (by norm_num)
    linarith
  have e1 : a * ((u - p) ^ 2 + p * (1 - p)) ≤ a * (1 / 10000 + 1 / 4) := mul_le_mul_of_nonneg_left (by linarith) ha.le
  have e2 : b * ((v - q) ^ 2 + q * (1 - q)) ≤ b * (1 / 10000 + 1 / 4) := mul_le_mul_of_nonneg_left (by linarith) hb.le
  linarith

end Phenum
