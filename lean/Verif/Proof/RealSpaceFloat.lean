import Verif.Model.RealSpaceFloat
import Verif.Proof.RealSpace
import Verif.Proof.CellFloat
/-
The limits of the loops of `map_enumStr_to_real_space` in floating point.
-/
namespace Phenum
open Spec

/-- truncation depends only on the open interval between two integers -/
theorem intTrunc_near {x y : ℚ} {D : ℕ} (hD : 0 < D) (hx : ∃ p : ℤ, x * D = p) (hni : ∀ m : ℤ, x ≠ m)
    (h : |y - x| * D < 1) : intTrunc y = intTrunc x := by
  obtain ⟨p, hp⟩ := hx
  have hDq : (0 : ℚ) < D := by exact_mod_cast hD
  set m := ⌊x⌋ with hm
  have h1 : (m : ℚ) < x := lt_of_le_of_ne (Int.floor_le x) (fun h => hni m h.symm)
  have h2 : x < m + 1 := Int.lt_floor_add_one x
  have h1' : (m : ℚ) * D + 1 ≤ x * D := by
    have : (m : ℚ) * D < x * D := mul_lt_mul_of_pos_right h1 hDq
    rw [hp] at this ⊢
    have h3 : m * (D : ℤ) < p := by exact_mod_cast this
    exact_mod_cast h3
  have h2' : x * D + 1 ≤ (m + 1) * D := by
    have : x * D < (m + 1) * D := mul_lt_mul_of_pos_right h2 hDq
    rw [hp] at this ⊢
    have h3 : p < (m + 1) * (D : ℤ) := by exact_mod_cast this
    exact_mod_cast h3
  have ha := abs_le.1 (le_refl |y - x|)
  have h3 : (m : ℚ) < y := by
    by_contra hc
    rw [not_lt] at hc
    have := mul_le_mul_of_nonneg_right hc hDq.le
    have := mul_le_mul_of_nonneg_right ha.1 hDq.le
    linarith
  have h4 : y < m + 1 := by
    by_contra hc
    rw [not_lt] at hc
    have := mul_le_mul_of_nonneg_right hc hDq.le
    have := mul_le_mul_of_nonneg_right ha.2 hDq.le
    linarith
  have fy : ⌊y⌋ = m := Int.floor_eq_iff.2 ⟨h3.le, h4⟩
  have cx : ⌈x⌉ = m + 1 := by rw [Int.ceil_eq_iff]; push_cast; exact ⟨by linarith, h2.le⟩
  have cy : ⌈y⌉ = m + 1 := by rw [Int.ceil_eq_iff]; push_cast; exact ⟨by linarith, h4.le⟩
  unfold intTrunc
  rw [fy, cy, cx, ← hm]
  by_cases h0 : 0 ≤ m
  · have hmq : (0 : ℚ) ≤ m := by exact_mod_cast h0
    rw [if_pos (by linarith), if_pos (by linarith)]
  · have hmq : (m : ℚ) + 1 ≤ 0 := by exact_mod_cast (by omega : m + 1 ≤ 0)
    rw [if_neg (by linarith), if_neg (by linarith)]

/-- a dyadic number: its denominator is a power of two -/
def Spec.IsDyadic (x : ℚ) : Prop := ∃ (j : ℕ) (m : ℤ), x * 2 ^ j = m

theorem Spec.IsDyadic.add {x y : ℚ} (hx : IsDyadic x) (hy : IsDyadic y) : IsDyadic (x + y) := by
  obtain ⟨i, m, hm⟩ := hx
  obtain ⟨j, n, hn⟩ := hy
  refine ⟨i + j, m * 2 ^ j + n * 2 ^ i, ?_⟩
  push_cast
  rw [← hm, ← hn, pow_add]
  ring

theorem Spec.IsDyadic.neg {x : ℚ} (hx : IsDyadic x) : IsDyadic (-x) := by
  obtain ⟨i, m, hm⟩ := hx
  exact ⟨i, -m, by push_cast; rw [← hm]; ring⟩

theorem Spec.IsDyadic.mul {x y : ℚ} (hx : IsDyadic x) (hy : IsDyadic y) : IsDyadic (x * y) := by
  obtain ⟨i, m, hm⟩ := hx
  obtain ⟨j, n, hn⟩ := hy
  refine ⟨i + j, m * n, ?_⟩
  push_cast
  rw [← hm, ← hn, pow_add]
  ring

theorem isDyadic_int (z : ℤ) : IsDyadic z := ⟨0, z, by simp⟩

theorem isDyadic_div_pow (z : ℤ) (k : ℕ) : IsDyadic ((z : ℚ) / 2 ^ k) :=
  ⟨k, z, by rw [div_mul_cancel₀]; positivity⟩

/-- a dyadic number with a small denominator is a double -/
theorem isDouble_of_dyadic {x : ℚ} (hx : IsDyadic x) {D : ℕ} (hD : 0 < D) (hp : ∃ p : ℤ, x * D = p)
    (hb : |x| * D ≤ 2 ^ 53) : IsDouble x := by
  obtain ⟨j, m, hj⟩ := hx
  obtain ⟨p, hp⟩ := hp
  have hden : x.den ∣ 2 ^ j := by
    have h : x = Rat.divInt m ((2 ^ j : ℕ) : ℤ) := by
      rw [Rat.divInt_eq_div, eq_div_iff (by positivity)]; exact_mod_cast hj
    have h2 := Rat.den_dvd m ((2 ^ j : ℕ) : ℤ)
    rw [← h] at h2
    exact_mod_cast h2
  have hdenD : x.den ≤ D := by
    have h : x = Rat.divInt p ((D : ℕ) : ℤ) := by
      rw [Rat.divInt_eq_div, eq_div_iff (by positivity)]; exact_mod_cast hp
    have h2 := Rat.den_dvd p ((D : ℕ) : ℤ)
    rw [← h] at h2
    exact Nat.le_of_dvd hD (by exact_mod_cast h2)
  obtain ⟨i, -, hi⟩ := (Nat.dvd_prime_pow Nat.prime_two).1 hden
  have hpos : (0 : ℚ) < x.den := by exact_mod_cast x.den_pos
  have hnum : |(x.num : ℚ)| ≤ 2 ^ 53 := by
    have e : (x.num : ℚ) = x * x.den := by rw [eq_comm]; exact Rat.mul_den_eq_num x
    rw [e, abs_mul, abs_of_pos hpos]
    refine le_trans ?_ hb
    exact mul_le_mul_of_nonneg_left (by exact_mod_cast hdenD) (abs_nonneg _)
  refine ⟨x.num, -(i : ℤ), by exact_mod_cast hnum, ?_⟩
  conv_lhs => rw [← Rat.num_div_den x, hi]
  rw [zpow_neg, zpow_natCast, div_eq_mul_inv]
  push_cast
  rfl

section
variable {fl : ℚ → ℚ} (hfl : RoundsToNearest fl)
include hfl

/-- one rounding: error and bound -/
theorem step_err {x y E B : ℚ} {z : ℤ} (hz : (z : ℚ) = B) (hz53 : B ≤ 2 ^ 53) (hB : |x| ≤ B) (hE : |x - y| ≤ E) :
    |fl x - y| ≤ E + B / 2 ^ 53 ∧ |fl x| ≤ B := by
  have hB0 : 0 ≤ B := le_trans (abs_nonneg _) hB
  constructor
  · have h := nearest_rounds hfl x
    have : |fl x - y| ≤ |fl x - x| + |x - y| := abs_sub_le _ _ _
    have h2 : |x| * (1 / 2 ^ 53) ≤ B / 2 ^ 53 := by rw [div_eq_mul_one_div B]; exact mul_le_mul_of_nonneg_right hB (by norm_num)
    linarith
  · have hd : IsDouble B := by
      rw [← hz]; apply isDouble_int
      have : |(z : ℚ)| ≤ 2 ^ 53 := by rw [hz, abs_of_nonneg hB0]; exact hz53
      exact_mod_cast this
    rw [abs_le] at hB ⊢
    constructor
    · have := nearest_mono' hfl hB.1
      rwa [fl_of_isDouble hfl (isDouble_neg hd)] at this
    · have := nearest_mono' hfl hB.2
      rwa [fl_of_isDouble hfl hd] at this

variable {a b c d e f : ℤ} (H : IsHNF6 a b c d e f) (hbc : b < c) (hdf : d < f) (hN : a * c * f ≤ 2 ^ 49)
include H hbc hdf hN

theorem sizes : a * f ≤ 2 ^ 49 ∧ f ≤ 2 ^ 49 ∧ a * c ≤ 2 ^ 49 ∧ c ≤ 2 ^ 49 := by
  have ha := H.a0
  have hc := H.c0
  have hf := H.f0
  have e1 : a * f ≤ a * c * f := by nlinarith [mul_pos ha hf]
  have e2 : a * c ≤ a * c * f := by nlinarith [mul_pos ha hc]
  have e3 : f ≤ a * f := by nlinarith
  have e4 : c ≤ a * c := by nlinarith
  omega

/-- the limits of the second loop are right -/
theorem z2_same {z1 : ℤ} (h0 : 0 ≤ z1) (h1 : z1 < a) :
    intTrunc (z2Off fl a b z1) = intTrunc (((b * z1 : ℤ) : ℚ) / a) ∧
    intTrunc (fl (c + z2Off fl a b z1)) = intTrunc ((c : ℚ) + ((b * z1 : ℤ) : ℚ) / a) := by
  obtain ⟨-, -, hac, hc49⟩ := sizes hfl H hbc hdf hN
  have ha : (0 : ℚ) < a := by exact_mod_cast H.a0
  have hc : (0 : ℚ) < c := by exact_mod_cast H.c0
  have hcB : (c : ℚ) ≤ 2 ^ 49 := by exact_mod_cast hc49
  have hacB : (a : ℚ) * c ≤ 2 ^ 49 := by exact_mod_cast hac
  set x : ℚ := ((b * z1 : ℤ) : ℚ) / a with hx
  have hx0 : 0 ≤ x := div_nonneg (by exact_mod_cast mul_nonneg H.b0 h0) ha.le
  have hxc : x ≤ c := by
    rw [hx, div_le_iff₀ ha]
    have : b * z1 ≤ c * a := by nlinarith [H.b0]
    exact_mod_cast this
  have habs : |x| ≤ c := by rw [abs_of_nonneg hx0]; exact hxc
  obtain ⟨e1, b1⟩ := step_err hfl (x := x) (y := x) (E := 0) (B := c) (z := c) rfl (by linarith) habs (by simp)
  have e1' : |z2Off fl a b z1 - x| ≤ c / 2 ^ 53 := by
    have : |fl x - x| ≤ 0 + c / 2 ^ 53 := e1
    unfold z2Off; rw [← hx]; linarith
  have hb2 : |(c : ℚ) + z2Off fl a b z1| ≤ 2 * c := by
    have : |z2Off fl a b z1| ≤ c := b1
    refine (abs_add_le _ _).trans ?_
    rw [abs_of_pos hc]; linarith
  obtain ⟨e2, b2⟩ := step_err hfl (x := (c : ℚ) + z2Off fl a b z1) (y := c + x) (E := c / 2 ^ 53) (B := 2 * c) (z := 2 * c)
    (by push_cast; rfl) (by linarith) hb2 (by rw [add_sub_add_left_eq_sub]; exact e1')
  obtain ⟨an, han⟩ : ∃ n : ℕ, a = n := ⟨a.toNat, by have := H.a0; omega⟩
  have han0 : 0 < an := by have := H.a0; omega
  have hanq : (an : ℚ) = a := by rw [han]; push_cast; rfl
  have hxa : x * an = ((b * z1 : ℤ) : ℚ) := by rw [hanq, hx, div_mul_cancel₀ _ ha.ne']
  by_cases hint : ∃ m : ℤ, x = m
  · obtain ⟨m, hm⟩ := hint
    have hmb : 0 ≤ m ∧ m ≤ c := ⟨by rw [hm] at hx0; exact_mod_cast hx0, by rw [hm] at hxc; exact_mod_cast hxc⟩
    have h1 : z2Off fl a b z1 = m := by
      unfold z2Off; rw [← hx, hm]
      apply fl_of_isDouble hfl (isDouble_int _)
      rw [abs_of_nonneg hmb.1]; omega
    rw [h1, hm]
    refine ⟨rfl, ?_⟩
    rw [fl_of_isDouble hfl]
    have : ((c : ℚ) + m) = ((c + m : ℤ) : ℚ) := by push_cast; rfl
    rw [this]
    apply isDouble_int
    rw [abs_of_nonneg (by omega)]; omega
  · rw [not_exists] at hint
    refine ⟨intTrunc_near han0 ⟨_, hxa⟩ hint ?_, intTrunc_near han0 ⟨c * a + b * z1, ?_⟩ ?_ ?_⟩
    · rw [hanq]
      have := mul_le_mul_of_nonneg_right e1' ha.le
      have h2 : (c : ℚ) / 2 ^ 53 * a < 1 := by
        rw [div_mul_eq_mul_div, div_lt_one (by norm_num)]; nlinarith
      linarith
    · rw [add_mul, hxa, hanq]; push_cast; ring
    · intro m hm
      apply hint (m - c)
      push_cast; linarith
    · rw [hanq]
      have := mul_le_mul_of_nonneg_right e2 ha.le
      have h2 : ((c : ℚ) / 2 ^ 53 + 2 * c / 2 ^ 53) * a < 1 := by
        rw [← add_div, div_mul_eq_mul_div, div_lt_one (by norm_num)]; nlinarith
      linarith

/-- the errors of the limits of the third loop -/
theorem z3_err {z1 z2 : ℤ} (h0 : 0 ≤ z1) (h1 : z1 < a) (h2 : 0 ≤ z2) (h3 : z2 ≤ 2 * c) :
    |z3Lo fl a b c d e z1 z2 - zOff a b c d e z1 z2| ≤ 9 * f / 2 ^ 53 ∧
    |z3Hi fl a b c d e f z1 z2 - (f + zOff a b c d e z1 z2)| ≤ 12 * f / 2 ^ 53 := by
  obtain ⟨haf, hf49, -, -⟩ := sizes hfl H hbc hdf hN
  have ha : (0 : ℚ) < a := by exact_mod_cast H.a0
  have hc : (0 : ℚ) < c := by exact_mod_cast H.c0
  have hf : (0 : ℚ) < f := by exact_mod_cast H.f0
  have hfB : (f : ℚ) ≤ 2 ^ 49 := by exact_mod_cast hf49
  have hafB : (a : ℚ) * f ≤ 2 ^ 49 := by exact_mod_cast haf
  have hz0 : (0 : ℚ) ≤ z1 := by exact_mod_cast h0
  have hza : (z1 : ℚ) ≤ a := by exact_mod_cast h1.le
  have hd0 : (0 : ℚ) ≤ d := by exact_mod_cast H.d0
  have hd1 : (d : ℚ) ≤ f := by exact_mod_cast hdf.le
  -- (e*b)/c
  set x1 : ℚ := ((e * b : ℤ) : ℚ) / c with hx1
  have x10 : 0 ≤ x1 := div_nonneg (by exact_mod_cast mul_nonneg H.e0 H.b0) hc.le
  have x1f : x1 ≤ f := by
    rw [hx1, div_le_iff₀ hc]
    have : e * b ≤ f * c := by nlinarith [H.e0, H.b0, H.ef]
    exact_mod_cast this
  obtain ⟨e1, b1⟩ := step_err hfl (x := x1) (y := x1) (E := 0) (B := f) (z := f) rfl (by linarith)
    (by rw [abs_of_nonneg x10]; exact x1f) (by simp)
  have r10 : 0 ≤ fl x1 := by
    have := nearest_mono' hfl x10
    rwa [show fl 0 = 0 from fl_of_isDouble hfl isDouble_zero] at this
  have r1f : fl x1 ≤ f := (abs_le.1 b1).2
  -- d - ...
  obtain ⟨e2, b2⟩ := step_err hfl (x := d - fl x1) (y := d - x1) (E := 0 + f / 2 ^ 53) (B := f) (z := f) rfl (by linarith)
    (by rw [abs_le]; constructor <;> linarith) (by rw [sub_sub_sub_cancel_left, abs_sub_comm]; exact e1)
  set r2 := fl (d - fl x1) with hr2
  -- z1 * ...
  have hb3 : |z1 * r2| ≤ (a : ℚ) * f := by
    rw [abs_mul, abs_of_nonneg hz0]; exact mul_le_mul hza b2 (abs_nonneg _) ha.le
  obtain ⟨e3, b3⟩ := step_err hfl (x := z1 * r2) (y := z1 * (d - x1)) (E := a * (0 + f / 2 ^ 53 + f / 2 ^ 53)) (B := a * f) (z := a * f)
    (by push_cast; rfl) (by linarith) hb3
    (by rw [← mul_sub, abs_mul, abs_of_nonneg hz0]; exact mul_le_mul hza e2 (abs_nonneg _) ha.le)
  set r3 := fl (z1 * r2) with hr3
  -- .../a
  have hb4 : |r3 / a| ≤ (f : ℚ) := by
    rw [abs_div, abs_of_pos ha, div_le_iff₀ ha]; linarith
  have he4 : |r3 / a - z1 * (d - x1) / a| ≤ 3 * f / 2 ^ 53 := by
    rw [← sub_div, abs_div, abs_of_pos ha, div_le_iff₀ ha]
    refine e3.trans (le_of_eq ?_)
    ring
  obtain ⟨e4, b4⟩ := step_err hfl (B := f) (z := f) rfl (by linarith) hb4 he4
  have hmid : z3Mid fl a b c d e z1 = fl (r3 / a) := rfl
  rw [← hmid] at e4 b4
  -- (e*z2)/c
  set x5 : ℚ := ((e * z2 : ℤ) : ℚ) / c with hx5
  have x50 : 0 ≤ x5 := div_nonneg (by exact_mod_cast mul_nonneg H.e0 h2) hc.le
  have x5f : x5 ≤ 2 * f := by
    rw [hx5, div_le_iff₀ hc]
    have : e * z2 ≤ 2 * f * c := by nlinarith [H.e0, H.ef]
    exact_mod_cast this
  obtain ⟨e5, b5⟩ := step_err hfl (x := x5) (y := x5) (E := 0) (B := 2 * f) (z := 2 * f) (by push_cast; rfl) (by linarith)
    (by rw [abs_of_nonneg x50]; exact x5f) (by simp)
  have hz : zOff a b c d e z1 z2 = z1 * (d - x1) / a + x5 := rfl
  set mid := z3Mid fl a b c d e z1
  set y4 := z1 * (d - x1) / a
  constructor
  · have hb : |mid + fl x5| ≤ 3 * f := by
      refine (abs_add_le _ _).trans ?_
      linarith
    have he : |mid + fl x5 - (y4 + x5)| ≤ 6 * f / 2 ^ 53 := by
      rw [add_sub_add_comm]
      refine (abs_add_le _ _).trans ?_
      refine (add_le_add e4 e5).trans (le_of_eq ?_)
      ring
    obtain ⟨h, -⟩ := step_err hfl (B := 3 * f) (z := 3 * f) (by push_cast; rfl) (by linarith) hb he
    rw [hz]
    refine h.trans (le_of_eq ?_)
    ring
  · have hb : |f + mid| ≤ 2 * f := by
      refine (abs_add_le _ _).trans ?_
      rw [abs_of_pos hf]; linarith
    obtain ⟨e6, b6⟩ := step_err hfl (x := f + mid) (y := f + y4) (E := 3 * f / 2 ^ 53 + f / 2 ^ 53) (B := 2 * f) (z := 2 * f) (by push_cast; rfl) (by linarith) hb
      (by rw [add_sub_add_left_eq_sub]; exact e4)
    have hb7 : |fl (f + mid) + fl x5| ≤ 4 * f := by
      refine (abs_add_le _ _).trans ?_
      linarith
    have he7 : |fl (f + mid) + fl x5 - (f + y4 + x5)| ≤ 8 * f / 2 ^ 53 := by
      rw [add_sub_add_comm]
      refine (abs_add_le _ _).trans ?_
      refine (add_le_add e6 e5).trans (le_of_eq ?_)
      ring
    obtain ⟨h, -⟩ := step_err hfl (B := 4 * f) (z := 4 * f) (by push_cast; rfl) (by linarith) hb7 he7
    rw [hz, ← add_assoc]
    refine h.trans (le_of_eq ?_)
    ring

theorem zOff_den (z1 z2 : ℤ) : zOff a b c d e z1 z2 * ((a * c : ℤ) : ℚ) = ((z1 * (d * c - e * b) + e * z2 * a : ℤ) : ℚ) := by
  have ha : (a : ℚ) ≠ 0 := by exact_mod_cast H.a0.ne'
  have hc : (c : ℚ) ≠ 0 := by exact_mod_cast H.c0.ne'
  unfold zOff
  push_cast
  field_simp

/-- where the exact limits are not integers, rounding has no effect -/
theorem z3_same {z1 z2 : ℤ} (h0 : 0 ≤ z1) (h1 : z1 < a) (h2 : 0 ≤ z2) (h3 : z2 ≤ 2 * c)
    (hni : ∀ m : ℤ, zOff a b c d e z1 z2 ≠ m) :
    intTrunc (z3Lo fl a b c d e z1 z2) = intTrunc (zOff a b c d e z1 z2) ∧
    intTrunc (z3Hi fl a b c d e f z1 z2) = intTrunc ((f : ℚ) + zOff a b c d e z1 z2) := by
  obtain ⟨el, eh⟩ := z3_err hfl H hbc hdf hN h0 h1 h2 h3
  have hac : 0 < a * c := mul_pos H.a0 H.c0
  obtain ⟨D, hD⟩ : ∃ n : ℕ, a * c = n := ⟨(a * c).toNat, by omega⟩
  have hDq : (D : ℚ) = ((a * c : ℤ) : ℚ) := by rw [hD]; push_cast; rfl
  have hD0 : 0 < D := by omega
  have hDp : (0 : ℚ) < D := by exact_mod_cast hD0
  have hf : (0 : ℚ) < f := by exact_mod_cast H.f0
  have hNq : (D : ℚ) * f ≤ 2 ^ 49 := by rw [hDq]; exact_mod_cast hN
  have hden := zOff_den hfl H hbc hdf hN z1 z2
  refine ⟨intTrunc_near hD0 ⟨_, by rw [hDq]; exact hden⟩ hni ?_, intTrunc_near hD0 ⟨f * (a * c) + (z1 * (d * c - e * b) + e * z2 * a), ?_⟩ ?_ ?_⟩
  · have := mul_le_mul_of_nonneg_right el hDp.le
    have h2 : 9 * (f : ℚ) / 2 ^ 53 * D < 1 := by
      rw [div_mul_eq_mul_div, div_lt_one (by norm_num)]; nlinarith
    linarith
  · rw [add_mul, hDq, hden]; push_cast; ring
  · intro m hm
    apply hni (m - f)
    push_cast; linarith
  · have := mul_le_mul_of_nonneg_right eh hDp.le
    have h2 : 12 * (f : ℚ) / 2 ^ 53 * D < 1 := by
      rw [div_mul_eq_mul_div, div_lt_one (by norm_num)]; nlinarith
    linarith

/-- the loops visit the same points, if they do so in the columns whose limits are integers -/
theorem interiorPointsF_eq
    (hex : ∀ z1 z2 : ℤ, 0 ≤ z1 → z1 < a → ⌊((b * z1 : ℤ) : ℚ) / a⌋ ≤ z2 → z2 < ⌊((b * z1 : ℤ) : ℚ) / a⌋ + c →
      ∀ m : ℤ, zOff a b c d e z1 z2 = m →
        intTrunc (z3Lo fl a b c d e z1 z2) = m ∧ intTrunc (z3Hi fl a b c d e f z1 z2) = f + m) :
    interiorPointsF fl a b c d e f = interiorPoints a b c d e f := by
  unfold interiorPointsF interiorPoints
  apply List.flatMap_congr
  intro z1 hz1
  rw [mem_pyRange] at hz1
  obtain ⟨l2, u2⟩ := z2_same hfl H hbc hdf hN hz1.1 hz1.2
  rw [l2, u2]
  apply List.flatMap_congr
  intro z2 hz2
  rw [range2_eq H hz1.1, mem_pyRange] at hz2
  have ha : (0 : ℚ) < a := by exact_mod_cast H.a0
  have hfl0 : 0 ≤ ⌊((b * z1 : ℤ) : ℚ) / a⌋ := Int.floor_nonneg.2 (div_nonneg (by exact_mod_cast mul_nonneg H.b0 hz1.1) ha.le)
  have hflc : ⌊((b * z1 : ℤ) : ℚ) / a⌋ ≤ c := by
    have h1 : ((b * z1 : ℤ) : ℚ) / a ≤ c := by
      rw [div_le_iff₀ ha]
      have : b * z1 ≤ c * a := by nlinarith [H.b0]
      exact_mod_cast this
    have := (Int.floor_le (((b * z1 : ℤ) : ℚ) / a)).trans h1
    exact_mod_cast this
  have key : intTrunc (z3Lo fl a b c d e z1 z2) = intTrunc (zOff a b c d e z1 z2) ∧
      intTrunc (z3Hi fl a b c d e f z1 z2) = intTrunc ((f : ℚ) + zOff a b c d e z1 z2) := by
    by_cases hint : ∃ m : ℤ, zOff a b c d e z1 z2 = m
    · obtain ⟨m, hm⟩ := hint
      obtain ⟨k1, k2⟩ := hex z1 z2 hz1.1 hz1.2 hz2.1 hz2.2 m hm
      rw [k1, k2, hm]
      have t : ∀ w : ℤ, intTrunc (w : ℚ) = w := by intro w; unfold intTrunc; split <;> simp
      refine ⟨(t m).symm, ?_⟩
      rw [← t (f + m)]; push_cast; rfl
    · rw [not_exists] at hint
      exact z3_same hfl H hbc hdf hN hz1.1 hz1.2 (by omega) (by omega) hint
  rw [key.1, key.2]

/-- in columns with integer limits and dyadic parts nothing is rounded -/
theorem z3_exact {z1 z2 : ℤ} (h0 : 0 ≤ z1) (h1 : z1 < a) (h2 : 0 ≤ z2) (h3 : z2 ≤ 2 * c) {m : ℤ}
    (hm : zOff a b c d e z1 z2 = m)
    (hx : z1 = 0 ∨ IsDyadic (((e * b : ℤ) : ℚ) / c) ∧ IsDyadic ((z1 : ℚ) * (d - ((e * b : ℤ) : ℚ) / c) / a)) :
    z3Lo fl a b c d e z1 z2 = m ∧ z3Hi fl a b c d e f z1 z2 = f + m := by
  obtain ⟨haf, hf49, hac49, hc49⟩ := sizes hfl H hbc hdf hN
  have ha : (0 : ℚ) < a := by exact_mod_cast H.a0
  have hc : (0 : ℚ) < c := by exact_mod_cast H.c0
  have hf : (0 : ℚ) < f := by exact_mod_cast H.f0
  have hf0 := H.f0
  have hfB : (f : ℚ) ≤ 2 ^ 49 := by exact_mod_cast hf49
  have hafB : (a : ℚ) * f ≤ 2 ^ 49 := by exact_mod_cast haf
  have hNq : (a : ℚ) * c * f ≤ 2 ^ 49 := by exact_mod_cast hN
  have hz0 : (0 : ℚ) ≤ z1 := by exact_mod_cast h0
  have hza : (z1 : ℚ) ≤ a := by exact_mod_cast h1.le
  have hd0 : (0 : ℚ) ≤ d := by exact_mod_cast H.d0
  have hd1 : (d : ℚ) ≤ f := by exact_mod_cast hdf.le
  set x1 : ℚ := ((e * b : ℤ) : ℚ) / c with hx1
  have x10 : 0 ≤ x1 := div_nonneg (by exact_mod_cast mul_nonneg H.e0 H.b0) hc.le
  have x1f : x1 ≤ f := by
    rw [hx1, div_le_iff₀ hc]
    have : e * b ≤ f * c := by nlinarith [H.e0, H.b0, H.ef]
    exact_mod_cast this
  set x5 : ℚ := ((e * z2 : ℤ) : ℚ) / c with hx5
  have x50 : 0 ≤ x5 := div_nonneg (by exact_mod_cast mul_nonneg H.e0 h2) hc.le
  have x5f : x5 ≤ 2 * f := by
    rw [hx5, div_le_iff₀ hc]
    have : e * z2 ≤ 2 * f * c := by nlinarith [H.e0, H.ef]
    exact_mod_cast this
  have hz : zOff a b c d e z1 z2 = z1 * (d - x1) / a + x5 := rfl
  set y4 : ℚ := z1 * (d - x1) / a with hy4
  have hdx : |(d : ℚ) - x1| ≤ f := by rw [abs_le]; constructor <;> linarith
  have hzd : |z1 * ((d : ℚ) - x1)| ≤ a * f := by
    rw [abs_mul, abs_of_nonneg hz0]; exact mul_le_mul hza hdx (abs_nonneg _) ha.le
  have hy4b : |y4| ≤ f := by
    rw [hy4, abs_div, abs_of_pos ha, div_le_iff₀ ha]; linarith
  have hsum : y4 + x5 = m := by rw [← hz, hm]
  have hmb : |(m : ℚ)| ≤ 3 * f := by
    rw [← hsum]
    refine (abs_add_le _ _).trans ?_
    rw [abs_of_nonneg x50]; linarith
  have hmz : |m| ≤ 3 * f := by exact_mod_cast hmb
  have hm53 : |m| ≤ 2 ^ 53 := by omega
  have hfm53 : |f + m| ≤ 2 ^ 53 := by
    have := abs_add_le f m
    rw [abs_of_pos hf0] at this
    omega
  have hflm : fl m = m := fl_of_isDouble hfl (isDouble_int hm53)
  have hflfm : fl (f + m) = f + m := by
    have := fl_of_isDouble hfl (isDouble_int hfm53)
    push_cast at this; exact this
  have hflf : fl (f : ℚ) = f := fl_of_isDouble hfl (isDouble_int (by rw [abs_of_pos hf0]; omega))
  -- the parts are doubles
  have parts : z3Mid fl a b c d e z1 = y4 ∧ fl (f + y4) = f + y4 ∧ fl x5 = x5 := by
    rcases hx with rfl | ⟨q1, q4⟩
    · have hy0 : y4 = 0 := by rw [hy4]; simp
      have hfl0 : fl 0 = 0 := fl_of_isDouble hfl isDouble_zero
      rw [hy0, zero_add] at hsum
      refine ⟨?_, ?_, ?_⟩
      · rw [hy0]; unfold z3Mid; simp [hfl0]
      · rw [hy0, add_zero]; exact hflf
      · rw [hsum]; exact hflm
    · obtain ⟨cn, hcn⟩ : ∃ n : ℕ, c = n := ⟨c.toNat, by have := H.c0; omega⟩
      obtain ⟨D, hD⟩ : ∃ n : ℕ, a * c = n := ⟨(a * c).toNat, by have := mul_pos H.a0 H.c0; omega⟩
      have hcn0 : 0 < cn := by have := H.c0; omega
      have hD0 : 0 < D := by have := mul_pos H.a0 H.c0; omega
      have hcq : (cn : ℚ) = c := by rw [hcn]; push_cast; rfl
      have hDq : (D : ℚ) = a * c := by rw [← Int.cast_mul, hD]; push_cast; rfl
      have n1 : x1 * cn = ((e * b : ℤ) : ℚ) := by rw [hcq, hx1, div_mul_cancel₀ _ hc.ne']
      have dcf : (c : ℚ) * f ≤ 2 ^ 49 := by
        have : (1 : ℚ) ≤ a := by exact_mod_cast H.a0
        nlinarith [mul_pos hc hf]
      have i1 : fl x1 = x1 := by
        apply fl_of_isDouble hfl (isDouble_of_dyadic q1 hcn0 ⟨_, n1⟩ _)
        rw [hcq, abs_of_nonneg x10]
        have := mul_le_mul_of_nonneg_right x1f hc.le
        linarith
      have q2 : IsDyadic ((d : ℚ) - x1) := by
        rw [sub_eq_add_neg]; exact (isDyadic_int d).add q1.neg
      have i2 : fl (d - x1) = d - x1 := by
        apply fl_of_isDouble hfl (isDouble_of_dyadic q2 hcn0 ⟨d * c - e * b, _⟩ _)
        · rw [sub_mul, n1, hcq]; push_cast; ring
        · rw [hcq]
          have := mul_le_mul_of_nonneg_right hdx hc.le
          linarith
      have i3 : fl (z1 * (d - x1)) = z1 * (d - x1) := by
        apply fl_of_isDouble hfl (isDouble_of_dyadic ((isDyadic_int z1).mul q2) hcn0 ⟨z1 * (d * c - e * b), _⟩ _)
        · rw [mul_assoc, sub_mul, n1, hcq]; push_cast; ring
        · rw [hcq]
          have := mul_le_mul_of_nonneg_right hzd hc.le
          linarith
      have n4 : y4 * D = ((z1 * (d * c - e * b) : ℤ) : ℚ) := by
        rw [hy4, hDq, hx1]; push_cast; field_simp
      have i4 : fl y4 = y4 := by
        apply fl_of_isDouble hfl (isDouble_of_dyadic q4 hD0 ⟨_, n4⟩ _)
        rw [hDq]
        have := mul_le_mul_of_nonneg_right hy4b (mul_pos ha hc).le
        linarith
      refine ⟨?_, ?_, ?_⟩
      · unfold z3Mid; rw [← hx1, i1, i2, i3, ← hy4, i4]
      · apply fl_of_isDouble hfl (isDouble_of_dyadic ((isDyadic_int f).add q4) hD0 ⟨f * (a * c) + z1 * (d * c - e * b), _⟩ _)
        · rw [add_mul, n4, hDq]; push_cast; ring
        · rw [hDq]
          have h := abs_add_le (f : ℚ) y4
          rw [abs_of_pos hf] at h
          have := mul_le_mul_of_nonneg_right (h.trans (by linarith : (f : ℚ) + |y4| ≤ 2 * f)) (mul_pos ha hc).le
          linarith
      · have q5 : IsDyadic x5 := by
          have : x5 = m + -y4 := by linarith
          rw [this]; exact (isDyadic_int m).add q4.neg
        apply fl_of_isDouble hfl (isDouble_of_dyadic q5 hcn0 ⟨e * z2, _⟩ _)
        · rw [hcq, hx5, div_mul_cancel₀ _ hc.ne']
        · rw [hcq, abs_of_nonneg x50]
          have := mul_le_mul_of_nonneg_right x5f hc.le
          linarith
  obtain ⟨p1, p2, p3⟩ := parts
  constructor
  · unfold z3Lo; rw [p1, ← hx5, p3, hsum, hflm]
  · unfold z3Hi; rw [p1, p2, ← hx5, p3, add_assoc, hsum, hflfm]

end

theorem intTrunc_int (w : ℤ) : intTrunc (w : ℚ) = w := by unfold intTrunc; split <;> simp

end Phenum
