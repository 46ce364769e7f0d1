import Verif.Model.PolyaFloat
import Verif.Spec.Double
import Mathlib.Algebra.Order.Floor.Ring
import Mathlib.Data.Rat.Floor
import Mathlib.Tactic.Ring
import Mathlib.Tactic.Linarith
import Mathlib.Tactic.Positivity
import Mathlib.Tactic.FieldSimp
import Mathlib.Tactic.NormNum
/-
Double precision: the relative error of one rounding.
-/
namespace Phenum

/-- A rounding function with relative error at most 2^-53 (half a unit in the last of 53 binary digits), as IEEE double
precision has it where no overflow or underflow takes place. -/
def Spec.RoundsTo53 (fl : ℚ → ℚ) : Prop := ∀ x : ℚ, |fl x - x| ≤ |x| * (1 / 2 ^ 53)

theorem roundEven_err (q : ℚ) : |(roundEven q : ℚ) - q| ≤ 1 / 2 := by
  unfold roundEven
  have hf : q.floor = ⌊q⌋ := rfl
  simp only [hf]
  have h1 := Int.floor_le q
  have h2 := Int.lt_floor_add_one q
  split_ifs with a b c
  · rw [abs_le]; constructor <;> linarith
  · rw [abs_le]; push_cast; constructor <;> linarith
  · rw [abs_le]; constructor <;> linarith
  · rw [abs_le]; push_cast; constructor <;> linarith

theorem binExp_le {q : ℚ} (hq : q ≠ 0) : (2 : ℚ) ^ binExp q ≤ |q| := by
  unfold binExp
  simp only
  split_ifs with h
  · have hn : q.num.natAbs ≠ 0 := by simpa using hq
    have hd : q.den ≠ 0 := q.den_ne_zero
    have h1 : (2 : ℚ) ^ (Nat.log2 q.num.natAbs) ≤ q.num.natAbs := by exact_mod_cast Nat.log2_self_le hn
    have h2 : (q.den : ℚ) < 2 ^ (Nat.log2 q.den + 1) := by exact_mod_cast Nat.lt_log2_self
    have hab : |q| = (q.num.natAbs : ℚ) / q.den := by
      conv_lhs => rw [← Rat.num_div_den q]
      rw [abs_div, Nat.abs_cast, Nat.cast_natAbs, Int.cast_abs]
    rw [hab, le_div_iff₀ (by positivity)]
    have e1 : (2 : ℚ) ^ ((Nat.log2 q.num.natAbs : ℤ) - (Nat.log2 q.den : ℤ) - 1) * 2 ^ (Nat.log2 q.den + 1)
        = 2 ^ (Nat.log2 q.num.natAbs) := by
      rw [← zpow_natCast, ← zpow_natCast, ← zpow_add₀ (by norm_num)]
      congr 1
      push_cast
      ring
    calc _ ≤ (2 : ℚ) ^ ((Nat.log2 q.num.natAbs : ℤ) - (Nat.log2 q.den : ℤ) - 1) * 2 ^ (Nat.log2 q.den + 1) :=
          mul_le_mul_of_nonneg_left h2.le (zpow_pos (by norm_num) _).le
      _ ≤ _ := by rw [e1]; exact h1
  · exact not_lt.1 h

/-- IEEE double precision has this relative error. -/
theorem fl53_rounds : Spec.RoundsTo53 fl53 := by
  intro q
  unfold fl53
  split_ifs with h
  · simp [h]
  · have hb := binExp_le h
    have hr := roundEven_err (q * 2 ^ (52 - binExp q))
    have e : (2 : ℚ) ^ (52 - binExp q) * 2 ^ (binExp q - 52) = 1 := by
      rw [← zpow_add₀ (by norm_num)]; simp
    have e2 : ((roundEven (q * 2 ^ (52 - binExp q)) : ℚ) * 2 ^ (binExp q - 52) - q)
        = ((roundEven (q * 2 ^ (52 - binExp q)) : ℚ) - q * 2 ^ (52 - binExp q)) * 2 ^ (binExp q - 52) := by
      rw [sub_mul, mul_assoc q, e, mul_one]
    rw [e2, abs_mul, abs_of_nonneg (a := (2 : ℚ) ^ (binExp q - 52)) (zpow_pos (by norm_num) _).le]
    have e3 : (2 : ℚ) ^ (binExp q - 52) = 2 ^ binExp q * (1 / 2 ^ 52) := by
      rw [zpow_sub₀ (by norm_num), div_eq_mul_inv, one_div]
      norm_num
    calc _ ≤ 1 / 2 * (2 : ℚ) ^ (binExp q - 52) := mul_le_mul_of_nonneg_right hr (zpow_pos (by norm_num) _).le
      _ = 2 ^ binExp q * (1 / 2 ^ 53) := by rw [e3]; ring
      _ ≤ _ := mul_le_mul_of_nonneg_right hb (by positivity)

/-! ### Rounding to nearest -/

open Spec

theorem roundEven_nearest (q : ℚ) (z : ℤ) : |(roundEven q : ℚ) - q| ≤ |(z : ℚ) - q| := by
  by_cases hz : roundEven q = z
  · rw [hz]
  · have h1 := roundEven_err q
    have h2 : (1 : ℚ) ≤ |((roundEven q - z : ℤ) : ℚ)| := by
      rw [← Int.cast_abs]
      exact_mod_cast Int.one_le_abs (sub_ne_zero.2 hz)
    have h3 : |((roundEven q - z : ℤ) : ℚ)| ≤ |(roundEven q : ℚ) - q| + |(z : ℚ) - q| := by
      push_cast
      calc |(roundEven q : ℚ) - z| = |((roundEven q : ℚ) - q) - (z - q)| := by congr 1; ring
        _ ≤ _ := abs_sub _ _
    linarith

theorem lt_binExp {q : ℚ} (hq : q ≠ 0) : |q| < (2 : ℚ) ^ (binExp q + 1) := by
  have hd : q.den ≠ 0 := q.den_ne_zero
  have hab : |q| = (q.num.natAbs : ℚ) / q.den := by
    conv_lhs => rw [← Rat.num_div_den q]
    rw [abs_div, Nat.abs_cast, Nat.cast_natAbs, Int.cast_abs]
  unfold binExp
  simp only
  split_ifs with h
  · simpa using h
  · have h1 : (q.num.natAbs : ℚ) < 2 ^ (Nat.log2 q.num.natAbs + 1) := by exact_mod_cast Nat.lt_log2_self
    have h2 : (2 : ℚ) ^ (Nat.log2 q.den) ≤ q.den := by exact_mod_cast Nat.log2_self_le hd
    rw [hab, div_lt_iff₀ (by positivity)]
    have e1 : (2 : ℚ) ^ ((Nat.log2 q.num.natAbs : ℤ) - (Nat.log2 q.den : ℤ) + 1) * 2 ^ (Nat.log2 q.den)
        = 2 ^ (Nat.log2 q.num.natAbs + 1) := by
      rw [← zpow_natCast, ← zpow_natCast, ← zpow_add₀ (by norm_num)]
      congr 1
      push_cast
      ring
    calc _ < (2 : ℚ) ^ (Nat.log2 q.num.natAbs + 1) := h1
      _ = _ := e1.symm
      _ ≤ _ := mul_le_mul_of_nonneg_left h2 (zpow_pos (by norm_num) _).le

/-- `fl53` rounds to a nearest double. -/
theorem fl53_nearest : RoundsToNearest fl53 := by
  intro q
  unfold fl53
  split_ifs with h
  · refine ⟨⟨0, 0, by norm_num, by simp⟩, fun y _ => ?_⟩
    rw [h, sub_self, abs_zero]
    exact abs_nonneg _
  · have hk : (0 : ℚ) < (2 : ℚ) ^ (52 - binExp q) := zpow_pos (by norm_num) _
    have hk' : (0 : ℚ) < (2 : ℚ) ^ (binExp q - 52) := zpow_pos (by norm_num) _
    have e : (2 : ℚ) ^ (52 - binExp q) * 2 ^ (binExp q - 52) = 1 := by
      rw [← zpow_add₀ (by norm_num)]; simp
    have hq : q = q * 2 ^ (52 - binExp q) * 2 ^ (binExp q - 52) := by rw [mul_assoc, e, mul_one]
    -- the scaled number
    have hlo : (2 : ℚ) ^ 52 ≤ |q * 2 ^ (52 - binExp q)| := by
      rw [abs_mul, abs_of_pos hk]
      have := mul_le_mul_of_nonneg_right (binExp_le h) hk.le
      rw [← zpow_add₀ (by norm_num)] at this
      norm_num at this ⊢
      exact this
    have hhi : |q * 2 ^ (52 - binExp q)| < (2 : ℚ) ^ 53 := by
      rw [abs_mul, abs_of_pos hk]
      have := mul_lt_mul_of_pos_right (lt_binExp h) hk
      rw [← zpow_add₀ (by norm_num), show binExp q + 1 + (52 - binExp q) = ((53 : ℕ) : ℤ) by push_cast; ring, zpow_natCast] at this
      exact this
    generalize q * 2 ^ (52 - binExp q) = X at *
    refine ⟨⟨roundEven X, binExp q - 52, ?_, rfl⟩, ?_⟩
    · obtain ⟨B, hB⟩ : ∃ B : ℤ, (B : ℚ) = 2 ^ 53 := ⟨2 ^ 53, by norm_num⟩
      have h1 := roundEven_nearest X B
      have h2 := roundEven_nearest X (-B)
      push_cast at h1 h2
      rw [hB] at h1 h2
      rw [abs_lt] at hhi
      rw [abs_of_nonneg (a := (2 : ℚ) ^ 53 - X) (by linarith), abs_le] at h1
      rw [abs_of_nonpos (a := -(2 : ℚ) ^ 53 - X) (by linarith), abs_le] at h2
      rw [abs_le]
      constructor
      · have : (-2 ^ 53 : ℚ) ≤ (roundEven X : ℚ) := by linarith [h2.1]
        exact_mod_cast this
      · have : (roundEven X : ℚ) ≤ 2 ^ 53 := by linarith [h1.2]
        exact_mod_cast this
    · rintro y ⟨m, f, hm, rfl⟩
      have main : |(roundEven X : ℚ) - X| ≤ |(m : ℚ) * 2 ^ (f - (binExp q - 52)) - X| := by
        rcases le_or_gt 0 (f - (binExp q - 52)) with hf | hf
        · obtain ⟨k, hk⟩ := Int.eq_ofNat_of_zero_le hf
          rw [hk]
          have := roundEven_nearest X (m * 2 ^ k)
          push_cast at this
          simpa using this
        · have hm' : |(m : ℚ)| ≤ 2 ^ 53 := by exact_mod_cast hm
          have hp : (2 : ℚ) ^ (f - (binExp q - 52)) ≤ 1 / 2 := by
            have : (2 : ℚ) ^ (f - (binExp q - 52)) ≤ 2 ^ (-1 : ℤ) := zpow_le_zpow_right₀ (by norm_num) (by omega)
            norm_num at this ⊢
            exact this
          have hp0 : (0 : ℚ) < (2 : ℚ) ^ (f - (binExp q - 52)) := zpow_pos (by norm_num) _
          have hY : |(m : ℚ) * 2 ^ (f - (binExp q - 52))| ≤ 2 ^ 52 := by
            rw [abs_mul, abs_of_pos hp0]
            calc _ ≤ (2 : ℚ) ^ 53 * (1 / 2) := mul_le_mul hm' hp hp0.le (by norm_num)
              _ = _ := by norm_num
          generalize (m : ℚ) * 2 ^ (f - (binExp q - 52)) = Y at *
          rw [abs_le] at hY
          obtain ⟨B, hB⟩ : ∃ B : ℤ, (B : ℚ) = 2 ^ 52 := ⟨2 ^ 52, by norm_num⟩
          rcases le_or_gt 0 X with hX | hX
          · rw [abs_of_nonneg hX] at hlo
            have := roundEven_nearest X B
            rw [hB] at this
            rw [abs_of_nonpos (a := (2 : ℚ) ^ 52 - X) (by linarith)] at this
            rw [abs_of_nonpos (a := Y - X) (by linarith)]
            linarith
          · rw [abs_of_neg hX] at hlo
            have := roundEven_nearest X (-B)
            push_cast at this
            rw [hB] at this
            rw [abs_of_nonneg (a := -(2 : ℚ) ^ 52 - X) (by linarith)] at this
            rw [abs_of_nonneg (a := Y - X) (by linarith)]
            linarith
      have e1 : (m : ℚ) * 2 ^ f - q = ((m : ℚ) * 2 ^ (f - (binExp q - 52)) - X) * 2 ^ (binExp q - 52) := by
        rw [sub_mul, mul_assoc, ← zpow_add₀ (by norm_num), ← hq]
        congr 3
        ring
      have e2 : (roundEven X : ℚ) * 2 ^ (binExp q - 52) - q = ((roundEven X : ℚ) - X) * 2 ^ (binExp q - 52) := by
        rw [sub_mul, ← hq]
      rw [e1, e2, abs_mul, abs_mul]
      exact mul_le_mul_of_nonneg_right main (abs_nonneg _)

/-! consequences -/

section
variable {fl : ℚ → ℚ}

theorem fl_of_isDouble (hfl : RoundsToNearest fl) {x : ℚ} (hx : IsDouble x) : fl x = x := by
  have := (hfl x).2 x hx
  rw [sub_self, abs_zero] at this
  exact sub_eq_zero.1 (abs_nonpos_iff.1 this)

theorem nearest_rounds (hfl : RoundsToNearest fl) : RoundsTo53 fl := by
  intro x
  exact le_trans ((hfl x).2 _ (fl53_nearest x).1) (fl53_rounds x)

theorem isDouble_int {z : ℤ} (h : |z| ≤ 2 ^ 53) : IsDouble z := ⟨z, 0, h, by simp⟩

theorem isDouble_neg {x : ℚ} (h : IsDouble x) : IsDouble (-x) := by
  obtain ⟨m, e, hm, rfl⟩ := h
  exact ⟨-m, e, by rwa [abs_neg], by push_cast; ring⟩

/-- Rounding is monotone in this sense. -/
theorem nearest_mono (hfl : RoundsToNearest fl) {x y : ℚ} (h : x < y) : fl x ≤ fl y := by
  by_contra hlt
  rw [not_le] at hlt
  have h1 := (hfl x).2 _ (hfl y).1
  have h2 := (hfl y).2 _ (hfl x).1
  rw [← sq_le_sq] at h1 h2
  nlinarith

end

end Phenum
