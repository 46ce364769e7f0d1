import Verif.Model.DecorateFloat
import Verif.Props.Decorate
import Verif.Proof.CellFloat
/-
C72: the number of displaced atoms in double precision.
-/
namespace Phenum
open Spec

/-- the fraction that gives, in exact arithmetic, the number of arrows found in floating point -/
def effFrac (fl : ℚ → ℚ) (c : ℕ) (a : ℚ) : ℚ := (pyTrunc (fl (c * a)) : ℚ) / c

theorem pyTrunc_int (z : ℤ) : pyTrunc (z : ℚ) = z := by unfold pyTrunc; split <;> simp

theorem pyTrunc_eff {fl : ℚ → ℚ} (h0 : fl 0 = 0) (c : ℕ) (a : ℚ) : pyTrunc ((c : ℚ) * effFrac fl c a) = pyTrunc (fl (c * a)) := by
  by_cases hc : c = 0
  · subst hc; simp [h0]
  · have : (c : ℚ) * effFrac fl c a = (pyTrunc (fl (c * a)) : ℚ) := by
      unfold effFrac; rw [mul_div_cancel₀]; exact_mod_cast hc
    rw [this, pyTrunc_int]

theorem arrowEntriesF_eq {fl : ℚ → ℚ} (h0 : fl 0 = 0) : ∀ (cs : List ℕ) (as : List ℚ) (lab : ℕ), cs.length ≤ as.length →
    arrowEntriesF fl lab cs as = arrowEntries lab cs (List.zipWith (effFrac fl) cs as) := by
  intro cs
  induction cs with
  | nil => intro as lab _; simp [arrowEntriesF, arrowEntries]
  | cons c cs ih =>
    intro as lab h
    cases as with
    | nil => simp at h
    | cons a as =>
      simp only [arrowEntriesF, List.zipWith_cons_cons, arrowEntries]
      rw [ih as (lab + 1) (by simpa using h), pyTrunc_eff h0]

theorem arrowConcsF_eq {fl : ℚ → ℚ} (h0 : fl 0 = 0) (cs : List ℕ) (as : List ℚ) (h : cs.length ≤ as.length) :
    arrowConcsF fl cs as = arrowConcs cs (List.zipWith (effFrac fl) cs as) := by
  unfold arrowConcsF arrowConcs
  rw [arrowEntriesF_eq h0 cs as 1 h]

/-- the computed number of arrows -/
theorem trunc_count {fl : ℚ → ℚ} (hfl : RoundsToNearest fl) {n p q : ℕ} (hq : 0 < q) (hp : p ≤ q) (hN : n * q ≤ 2 ^ 51) :
    0 ≤ pyTrunc (fl (n * fl ((p : ℚ) / q))) ∧ pyTrunc (fl (n * fl ((p : ℚ) / q))) ≤ n ∧
    (pyTrunc (fl (n * fl ((p : ℚ) / q))) = (n * p / q : ℕ) ∨
      (q ∣ n * p ∧ fl (n * fl ((p : ℚ) / q)) < (n * p / q : ℕ) ∧ pyTrunc (fl (n * fl ((p : ℚ) / q))) = (n * p / q : ℕ) - 1)) := by
  have hqq : (0 : ℚ) < q := by exact_mod_cast hq
  have hn51 : n ≤ 2 ^ 51 := le_trans (Nat.le_mul_of_pos_right n hq) hN
  have hNq : (n : ℚ) * q ≤ 2 ^ 51 := by exact_mod_cast hN
  have hn0 : (0 : ℚ) ≤ n := Nat.cast_nonneg n
  have x0 : (0 : ℚ) ≤ (p : ℚ) / q := by positivity
  have x1 : (p : ℚ) / q ≤ 1 := by rw [div_le_one hqq]; exact_mod_cast hp
  have f0 : fl 0 = 0 := fl_of_isDouble hfl isDouble_zero
  have f1 : fl 1 = 1 := fl_of_isDouble hfl isDouble_one
  have fn : fl (n : ℚ) = n := by
    have := fl_of_isDouble hfl (isDouble_int (z := (n : ℤ)) (by rw [Nat.abs_cast]; exact_mod_cast hn51.trans (by norm_num)))
    exact_mod_cast this
  have y0 : 0 ≤ fl ((p : ℚ) / q) := by have := nearest_mono' hfl x0; rwa [f0] at this
  have y1 : fl ((p : ℚ) / q) ≤ 1 := by have := nearest_mono' hfl x1; rwa [f1] at this
  have ey : |fl ((p : ℚ) / q) - (p : ℚ) / q| ≤ 1 / 2 ^ 53 := by
    have := nearest_rounds hfl ((p : ℚ) / q)
    rw [abs_of_nonneg x0] at this
    exact this.trans (by nlinarith)
  set y := fl ((p : ℚ) / q) with hy
  have w0 : 0 ≤ (n : ℚ) * y := mul_nonneg hn0 y0
  have w1 : (n : ℚ) * y ≤ n := by nlinarith
  have v0 : 0 ≤ fl (n * y) := by have := nearest_mono' hfl w0; rwa [f0] at this
  have v1 : fl (n * y) ≤ n := by have := nearest_mono' hfl w1; rwa [fn] at this
  have ev : |fl (n * y) - n * y| ≤ n / 2 ^ 53 := by
    have := nearest_rounds hfl (n * y)
    rw [abs_of_nonneg w0] at this
    refine this.trans ?_
    rw [div_eq_mul_one_div (n : ℚ)]
    exact mul_le_mul_of_nonneg_right w1 (by norm_num)
  have etot : |fl (n * y) - n * ((p : ℚ) / q)| ≤ 2 * n / 2 ^ 53 := by
    have h1 : |(n : ℚ) * y - n * ((p : ℚ) / q)| ≤ n / 2 ^ 53 := by
      rw [← mul_sub, abs_mul, abs_of_nonneg hn0, div_eq_mul_one_div (n : ℚ)]
      exact mul_le_mul_of_nonneg_left ey hn0
    have := abs_sub_le (fl (n * y)) (n * y) (n * ((p : ℚ) / q))
    have h2 : (2 : ℚ) * n / 2 ^ 53 = n / 2 ^ 53 + n / 2 ^ 53 := by ring
    linarith
  set v := fl (n * y) with hv
  have ht : pyTrunc v = ⌊v⌋ := if_pos v0
  rw [ht]
  have b0 : 0 ≤ ⌊v⌋ := Int.floor_nonneg.2 v0
  have b1 : ⌊v⌋ ≤ n := by
    have := (Int.floor_le v).trans v1
    exact_mod_cast this
  refine ⟨b0, b1, ?_⟩
  -- in units of 1/q
  have hxq : (n : ℚ) * ((p : ℚ) / q) * q = ((n * p : ℕ) : ℚ) := by push_cast; field_simp
  have hsmall : 2 * (n : ℚ) / 2 ^ 53 * q < 1 := by
    rw [div_mul_eq_mul_div, div_lt_one (by norm_num)]
    nlinarith
  have hvq : |v * q - ((n * p : ℕ) : ℚ)| < 1 := by
    rw [← hxq, ← sub_mul, abs_mul, abs_of_pos hqq]
    exact lt_of_le_of_lt (mul_le_mul_of_nonneg_right etot hqq.le) hsmall
  rw [abs_lt] at hvq
  set m := n * p / q with hm
  have hmod := Nat.div_add_mod (n * p) q
  rw [← hm] at hmod
  have hlt := Nat.mod_lt (n * p) hq
  have hup : v < m + 1 := by
    by_contra hc
    rw [not_lt] at hc
    have h1 : ((m : ℚ) + 1) * q ≤ v * q := mul_le_mul_of_nonneg_right hc hqq.le
    have h2 : n * p + 1 ≤ (m + 1) * q := by
      have : (m + 1) * q = q * m + q := by ring
      omega
    have h2' : ((n * p : ℕ) : ℚ) + 1 ≤ (m + 1) * q := by exact_mod_cast h2
    linarith
  by_cases hdv : q ∣ n * p
  · have hmq : ((n * p : ℕ) : ℚ) = m * q := by
      have : n * p = m * q := (Nat.div_mul_cancel hdv).symm
      exact_mod_cast this
    have hlo : (m : ℚ) - 1 < v := by
      by_contra hc
      rw [not_lt] at hc
      have h1 : v * q ≤ ((m : ℚ) - 1) * q := mul_le_mul_of_nonneg_right hc hqq.le
      have : (1 : ℚ) ≤ q := by exact_mod_cast hq
      nlinarith
    by_cases hge : (m : ℚ) ≤ v
    · left
      rw [Int.floor_eq_iff]
      exact ⟨by exact_mod_cast hge, by exact_mod_cast hup⟩
    · right
      rw [not_le] at hge
      refine ⟨hdv, hge, ?_⟩
      rw [Int.floor_eq_iff]
      push_cast
      exact ⟨hlo.le, by linarith⟩
  · left
    have hpos : 0 < n * p % q := Nat.pos_of_ne_zero (fun h => hdv (Nat.dvd_of_mod_eq_zero h))
    have hge : (m : ℚ) ≤ v := by
      by_contra hc
      rw [not_le] at hc
      have h1 : v * q < (m : ℚ) * q := mul_lt_mul_of_pos_right hc hqq
      have h2 : m * q + 1 ≤ n * p := by
        have : m * q = q * m := by ring
        omega
      have h2' : (m : ℚ) * q + 1 ≤ ((n * p : ℕ) : ℚ) := by exact_mod_cast h2
      linarith
    rw [Int.floor_eq_iff]
    exact ⟨by exact_mod_cast hge, by exact_mod_cast hup⟩

/-- the decoration in floating point -/
theorem decorationF {fl : ℚ → ℚ} (hfl : RoundsToNearest fl) (cList ps : List ℕ) (q : ℕ) (hq : 0 < q)
    (hlen : cList.length ≤ ps.length) (hps : ∀ p ∈ ps, p ≤ q) (hcs : ∀ c ∈ cList, c * q ≤ 2 ^ 51) :
    ∃ d, arrowConcsF fl cList (ps.map (fun p : ℕ => fl ((p : ℚ) / q))) = .ok d ∧
      (∀ s ∈ d, (s.1 = 1 ∨ s.1 = -1) ∧ 1 ≤ s.2 ∧ s.2 ≤ cList.length) ∧ d.length = cList.sum ∧ ArrowsLast d ∧ ByConcentration d ∧
      ∀ i, i < cList.length → d.count (1, i + 1) + d.count (-1, i + 1) = cList.getD i 0 ∧
        ((d.count (1, i + 1) : ℕ) : ℤ) = pyTrunc (fl ((cList.getD i 0 : ℕ) * fl ((ps.getD i 0 : ℕ) / q))) := by
  have f0 : fl 0 = 0 := fl_of_isDouble hfl isDouble_zero
  rw [arrowConcsF_eq f0 _ _ (by simpa using hlen)]
  obtain ⟨d, h1, h2, h3, h4, h5, h6⟩ := C40_arrow_concs cList
    (List.zipWith (effFrac fl) cList (ps.map (fun p : ℕ => fl ((p : ℚ) / q)))) (by simp [hlen])
  refine ⟨d, h1, h2, h4, h5, h6, ?_⟩
  intro i hi
  obtain ⟨h7, h8⟩ := h3 i hi
  refine ⟨h8, ?_⟩
  rw [h7]
  have hip : i < ps.length := by omega
  have e1 : (List.zipWith (effFrac fl) cList (ps.map (fun p : ℕ => fl ((p : ℚ) / q)))).getD i 0 =
      effFrac fl (cList.getD i 0) (fl ((ps.getD i 0 : ℕ) / q)) := by
    simp [List.getD_eq_getElem?_getD, hi, hip]
  rw [e1]
  have hc : cList.getD i 0 * q ≤ 2 ^ 51 := by
    apply hcs
    rw [List.getD_eq_getElem?_getD, List.getElem?_eq_getElem hi, Option.getD_some]; exact List.getElem_mem hi
  have hp : ps.getD i 0 ≤ q := by
    apply hps
    rw [List.getD_eq_getElem?_getD, List.getElem?_eq_getElem hip, Option.getD_some]; exact List.getElem_mem hip
  obtain ⟨t0, t1, -⟩ := trunc_count hfl hq hp hc
  set n := cList.getD i 0
  set y := fl ((ps.getD i 0 : ℕ) / q)
  have key := pyTrunc_eff f0 n y
  have hnn : 0 ≤ (n : ℚ) * effFrac fl n y := by
    unfold effFrac
    exact mul_nonneg (Nat.cast_nonneg n) (div_nonneg (by exact_mod_cast t0) (Nat.cast_nonneg n))
  have ht : pyTrunc ((n : ℚ) * effFrac fl n y) = ⌊(n : ℚ) * effFrac fl n y⌋ := if_pos hnn
  unfold arrowCount
  rw [← ht, key, if_pos ⟨hnn, t1⟩]
  exact Int.toNat_of_nonneg t0

/-- C72. The number of displaced atoms in double precision: for arrow fractions `p/q` (the program holds the nearest
doubles) `arrow_concs` returns a decoration with the right number of atoms of each species, of which `n*p/q`, rounded
down, are displaced; the only exception is that, where `n*p/q` is an integer, there may be one displaced atom less. -/
theorem C72_arrow_count (fl : ℚ → ℚ) (hfl : RoundsToNearest fl) (cList ps : List ℕ) (q : ℕ) (hq : 0 < q)
    (hlen : cList.length ≤ ps.length) (hps : ∀ p ∈ ps, p ≤ q) (hcs : ∀ c ∈ cList, c * q ≤ 2 ^ 51) :
    ∃ d, arrowConcsF fl cList (ps.map (fun p : ℕ => fl ((p : ℚ) / q))) = .ok d ∧
      (∀ s ∈ d, (s.1 = 1 ∨ s.1 = -1) ∧ 1 ≤ s.2 ∧ s.2 ≤ cList.length) ∧ d.length = cList.sum ∧ ArrowsLast d ∧ ByConcentration d ∧
      ∀ i, i < cList.length → d.count (1, i + 1) + d.count (-1, i + 1) = cList.getD i 0 ∧
        (d.count (1, i + 1) = cList.getD i 0 * ps.getD i 0 / q ∨
          (q ∣ cList.getD i 0 * ps.getD i 0 ∧ d.count (1, i + 1) + 1 = cList.getD i 0 * ps.getD i 0 / q)) := by
  obtain ⟨d, h1, h2, h3, h4, h5, h6⟩ := decorationF hfl cList ps q hq hlen hps hcs
  refine ⟨d, h1, h2, h3, h4, h5, ?_⟩
  intro i hi
  obtain ⟨h7, h8⟩ := h6 i hi
  refine ⟨h7, ?_⟩
  have hip : i < ps.length := by omega
  have hc : cList.getD i 0 * q ≤ 2 ^ 51 := by
    apply hcs
    rw [List.getD_eq_getElem?_getD, List.getElem?_eq_getElem hi, Option.getD_some]; exact List.getElem_mem hi
  have hp : ps.getD i 0 ≤ q := by
    apply hps
    rw [List.getD_eq_getElem?_getD, List.getElem?_eq_getElem hip, Option.getD_some]; exact List.getElem_mem hip
  obtain ⟨-, -, h | ⟨h, -, h'⟩⟩ := trunc_count hfl hq hp hc
  · left
    rw [h] at h8
    exact_mod_cast h8
  · right
    refine ⟨h, ?_⟩
    rw [h'] at h8
    have : ((d.count (1, i + 1) : ℕ) : ℤ) + 1 = ((cList.getD i 0 * ps.getD i 0 / q : ℕ) : ℤ) := by linarith
    exact_mod_cast this

/-- the test for one fraction with a finite decimal expansion -/
def decOk (n m : ℕ) : Bool :=
  decide (¬ ((m : ℚ) / n).den ∣ 10 ^ 5) || decide ((m : ℚ) ≤ fl53 (n * fl53 ((m : ℚ) / n)))

theorem decOk_49 : (List.range 50).all (fun n => decide (n = 0) || (List.range (n + 1)).all (fun m => decOk n m)) = true := by
  decide +kernel

/-- C72. With at most 49 atoms of a species and a fraction given as a decimal number of any number `k` of digits (up to
`49 * 10^k ≤ 2^51`), the number of displaced atoms in IEEE double precision is exactly the given fraction of the number
of atoms, rounded down. -/
theorem C72_decimal (cList ps : List ℕ) (k : ℕ) (hlen : cList.length ≤ ps.length) (hps : ∀ p ∈ ps, p ≤ 10 ^ k)
    (hcs : ∀ c ∈ cList, c ≤ 49) (hk : 49 * 10 ^ k ≤ 2 ^ 51) :
    ∃ d, arrowConcsF fl53 cList (ps.map (fun p : ℕ => fl53 ((p : ℚ) / (10 ^ k : ℕ)))) = .ok d ∧
      ∀ i, i < cList.length → d.count (1, i + 1) + d.count (-1, i + 1) = cList.getD i 0 ∧
        d.count (1, i + 1) = cList.getD i 0 * ps.getD i 0 / 10 ^ k := by
  have hcs' : ∀ c ∈ cList, c * 10 ^ k ≤ 2 ^ 51 := fun c hc => le_trans (Nat.mul_le_mul_right _ (hcs c hc)) hk
  have hq : 0 < 10 ^ k := by positivity
  obtain ⟨d, h1, -, -, -, -, h6⟩ := decorationF fl53_nearest cList ps (10 ^ k) hq hlen hps hcs'
  refine ⟨d, h1, ?_⟩
  intro i hi
  obtain ⟨h7, h8⟩ := h6 i hi
  refine ⟨h7, ?_⟩
  have hip : i < ps.length := by omega
  have hc : cList.getD i 0 ∈ cList := by
    rw [List.getD_eq_getElem?_getD, List.getElem?_eq_getElem hi, Option.getD_some]; exact List.getElem_mem hi
  have hp : ps.getD i 0 ≤ 10 ^ k := by
    apply hps
    rw [List.getD_eq_getElem?_getD, List.getElem?_eq_getElem hip, Option.getD_some]; exact List.getElem_mem hip
  have hn49 := hcs _ hc
  obtain ⟨-, -, h | ⟨hdv, hlt, -⟩⟩ := trunc_count fl53_nearest hq hp (hcs' _ hc)
  · rw [h] at h8
    exact_mod_cast h8
  · exfalso
    generalize cList.getD i 0 = n at *
    generalize ps.getD i 0 = p at *
    set m := n * p / 10 ^ k with hm
    have hmq : n * p = m * 10 ^ k := (Nat.div_mul_cancel hdv).symm
    have hn0 : n ≠ 0 := by
      rintro rfl
      have : m = 0 := by rw [hm]; simp
      rw [this] at hlt
      have h0 : fl53 0 = 0 := fl_of_isDouble fl53_nearest isDouble_zero
      simp [h0] at hlt
    have hmn : m ≤ n := by
      have : m * 10 ^ k ≤ n * 10 ^ k := by rw [← hmq]; exact Nat.mul_le_mul_left n hp
      exact Nat.le_of_mul_le_mul_right this hq
    have hnq : (n : ℚ) ≠ 0 := by exact_mod_cast hn0
    have hfr : (p : ℚ) / (10 ^ k : ℕ) = (m : ℚ) / n := by
      rw [div_eq_div_iff (by positivity) hnq]
      have : p * n = m * 10 ^ k := by rw [← hmq]; ring
      exact_mod_cast this
    rw [hfr] at hlt
    have hall := List.all_eq_true.1 decOk_49 n (List.mem_range.2 (by omega))
    rw [Bool.or_eq_true, decide_eq_true_eq] at hall
    have hok := List.all_eq_true.1 (hall.resolve_left hn0) m (List.mem_range.2 (by omega))
    unfold decOk at hok
    rw [Bool.or_eq_true, decide_eq_true_eq, decide_eq_true_eq] at hok
    rcases hok with hden | hle
    · apply hden
      -- the denominator divides 10^k and is at most 49
      have hd1 : ((m : ℚ) / n).den ∣ 10 ^ k := by
        rw [← hfr]
        have h2 := Rat.den_dvd (p : ℤ) ((10 ^ k : ℕ) : ℤ)
        rw [Rat.divInt_eq_div, Int.cast_natCast, Int.cast_natCast] at h2
        exact Int.natCast_dvd_natCast.1 h2
      have hd2 : ((m : ℚ) / n).den ∣ n := by
        have h2 := Rat.den_dvd (m : ℤ) (n : ℤ)
        rw [Rat.divInt_eq_div, Int.cast_natCast, Int.cast_natCast] at h2
        exact Int.natCast_dvd_natCast.1 h2
      have hd3 : ((m : ℚ) / n).den ≤ 49 := (Nat.le_of_dvd (by omega) hd2).trans hn49
      generalize ((m : ℚ) / n).den = t at hd1 hd3
      have h25 : t ∣ 2 ^ k * 5 ^ k := by rw [← Nat.mul_pow]; exact hd1
      obtain ⟨u, v, hu, hv, rfl⟩ := (Nat.dvd_mul).1 h25
      obtain ⟨i, -, rfl⟩ := (Nat.dvd_prime_pow Nat.prime_two).1 hu
      obtain ⟨j, -, rfl⟩ := (Nat.dvd_prime_pow Nat.prime_five).1 hv
      have hi5 : i ≤ 5 := by
        by_contra hc
        have h1 : 2 ^ 6 ≤ 2 ^ i := Nat.pow_le_pow_right (by norm_num) (by omega)
        have h2 : 1 ≤ 5 ^ j := Nat.one_le_pow _ _ (by norm_num)
        nlinarith
      have hj5 : j ≤ 5 := by
        by_contra hc
        have h1 : 5 ^ 6 ≤ 5 ^ j := Nat.pow_le_pow_right (by norm_num) (by omega)
        have h2 : 1 ≤ 2 ^ i := Nat.one_le_pow _ _ (by norm_num)
        nlinarith
      have : (10 : ℕ) ^ 5 = 2 ^ 5 * 5 ^ 5 := by norm_num
      rw [this]
      exact Nat.mul_dvd_mul (Nat.pow_dvd_pow 2 hi5) (Nat.pow_dvd_pow 5 hj5)
    · exact absurd hlt (not_lt.2 hle)

/-- C72. The bound 49 is sharp: of 50 atoms with the fraction 0.58 only 28 are displaced instead of 29. -/
theorem C72_one_short : ∃ d, arrowConcsF fl53 [50] [fl53 (58 / 100)] = .ok d ∧ d.count (1, 1) = 28 ∧ d.count (-1, 1) = 22 ∧
    50 * 58 / 100 = 29 := by
  obtain ⟨d, h1, -, -, -, -, h6⟩ := decorationF fl53_nearest [50] [58] 100 (by norm_num) (by simp) (by simp) (by simp)
  refine ⟨d, by simpa using h1, ?_⟩
  obtain ⟨h7, h8⟩ := h6 0 (by simp)
  have e : pyTrunc (fl53 (([50].getD 0 0 : ℕ) * fl53 (([58].getD 0 0 : ℕ) / (100 : ℕ)))) = 28 := by decide +kernel
  rw [e] at h8
  have h9 : d.count (1, 1) = 28 := by exact_mod_cast h8
  have h10 : d.count (1, 1) + d.count (-1, 1) = 50 := h7
  exact ⟨h9, by omega, by norm_num⟩

/-- Two species with 8 and 4 atoms, a quarter and none displaced: the hypotheses are met and there are two arrows. -/
example : ∃ d, arrowConcsF fl53 [8, 4] ([25, 0].map (fun p : ℕ => fl53 ((p : ℚ) / (10 ^ 2 : ℕ)))) = .ok d ∧ d.count (1, 1) = 2 := by
  obtain ⟨d, h, hc⟩ := C72_decimal [8, 4] [25, 0] 2 (by simp) (by simp) (by simp) (by norm_num)
  exact ⟨d, by simpa using h, by simpa using (hc 0 (by simp)).2⟩

end Phenum
