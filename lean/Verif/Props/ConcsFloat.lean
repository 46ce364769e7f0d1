import Verif.Proof.Double
import Verif.Props.Concs
import Verif.Props.PolyaFloat
/-
C69: the restricted list of concentrations in floating point.
-/
namespace Phenum
open Spec

section
variable {fl : ℚ → ℚ}

theorem keeps_int (hk : KeepsIntegers fl) {z : ℤ} (h0 : 0 ≤ z) (h1 : z ≤ 2 ^ 53) : fl z = z := by
  lift z to ℕ using h0
  exact_mod_cast hk z (by exact_mod_cast h1)

/-- A quotient of two small integers, at most 1. -/
theorem frac_err (hk : KeepsIntegers fl) (hr : RoundsTo53 fl) {p q : ℤ} (h0 : 0 ≤ p) (h1 : p ≤ q) (hq0 : 0 < q)
    (hq : q ≤ 2 ^ 53) : |fl (fl p / fl q) - (p : ℚ) / q| ≤ 1 / 2 ^ 53 := by
  rw [keeps_int hk h0 (by omega), keeps_int hk (le_of_lt hq0) hq]
  have hq' : (0 : ℚ) < q := by exact_mod_cast hq0
  have hp' : (0 : ℚ) ≤ p := by exact_mod_cast h0
  have hpq : (p : ℚ) ≤ q := by exact_mod_cast h1
  have h2 : (p : ℚ) / q ≤ 1 := (div_le_one hq').2 hpq
  have h3 : (0 : ℚ) ≤ (p : ℚ) / q := div_nonneg hp' hq'.le
  have := hr ((p : ℚ) / q)
  rw [abs_of_nonneg h3] at this
  linarith

theorem frac_range {p q : ℤ} (h0 : 0 ≤ p) (h1 : p ≤ q) (hq0 : 0 < q) : (0 : ℚ) ≤ (p : ℚ) / q ∧ (p : ℚ) / q ≤ 1 := by
  have hq' : (0 : ℚ) < q := by exact_mod_cast hq0
  have hp' : (0 : ℚ) ≤ p := by exact_mod_cast h0
  have hpq : (p : ℚ) ≤ q := by exact_mod_cast h1
  exact ⟨div_nonneg hp' hq'.le, (div_le_one hq').2 hpq⟩

/-- An entry of the volume table is off by less than 1/2. -/
theorem volF_err (hk : KeepsIntegers fl) (hr : RoundsTo53 fl) {size nB : ℕ} {d c : ℤ} (h0 : 0 ≤ c) (h1 : c ≤ d) (hd0 : 0 < d)
    (hd : d ≤ 2 ^ 53) (hn : size * nB ≤ 2 ^ 40) (hs : size ≤ 2 ^ 53) (hb : nB ≤ 2 ^ 53) :
    |volF fl size nB d c - (c : ℚ) / d * size * nB| < 1 / 2 := by
  unfold volF
  have e1 := frac_err hk hr h0 h1 hd0 hd
  obtain ⟨f0, f1⟩ := frac_range h0 h1 hd0
  rw [hk size hs, hk nB hb]
  generalize (c : ℚ) / d = f at *
  generalize fl (fl c / fl d) = g at *
  rw [abs_le] at e1
  have hs0 : (0 : ℚ) ≤ size := Nat.cast_nonneg _
  have hb0 : (0 : ℚ) ≤ nB := Nat.cast_nonneg _
  have hn' : (size : ℚ) * nB ≤ 2 ^ 40 := by exact_mod_cast hn
  have e2 := hr (g * size)
  rw [abs_mul, abs_of_nonneg hs0] at e2
  have hg : |g| ≤ 2 := by rw [abs_le]; constructor <;> norm_num at e1 ⊢ <;> linarith
  -- after the first product
  have e3 : |fl (g * size) - f * size| ≤ 3 / 2 ^ 53 * size := by
    have a1 : |g - f| ≤ 1 / 2 ^ 53 := abs_le.2 e1
    have a2 : |g * size - f * size| ≤ 1 / 2 ^ 53 * size := by
      rw [← sub_mul, abs_mul, abs_of_nonneg hs0]
      exact mul_le_mul_of_nonneg_right a1 hs0
    have a3 : |g| * size * (1 / 2 ^ 53) ≤ 2 * size * (1 / 2 ^ 53) :=
      mul_le_mul_of_nonneg_right (mul_le_mul_of_nonneg_right hg hs0) (by norm_num)
    calc _ = |(fl (g * size) - g * size) + (g * size - f * size)| := by congr 1; ring
      _ ≤ _ := abs_add_le _ _
      _ ≤ 2 * size * (1 / 2 ^ 53) + 1 / 2 ^ 53 * size := add_le_add (le_trans e2 a3) a2
      _ = _ := by ring
  have e4 := hr (fl (g * size) * nB)
  rw [abs_mul, abs_of_nonneg hb0] at e4
  have hg2 : |fl (g * size)| ≤ 2 * size := by
    have : |f * size| ≤ size := by
      rw [abs_mul, abs_of_nonneg hs0, abs_of_nonneg f0]
      exact mul_le_of_le_one_left hs0 f1
    calc _ = |(fl (g * size) - f * size) + f * size| := by congr 1; ring
      _ ≤ _ := abs_add_le _ _
      _ ≤ 3 / 2 ^ 53 * size + size := add_le_add e3 this
      _ ≤ _ := by linarith
  have a2 : |fl (g * size) * nB - f * size * nB| ≤ 3 / 2 ^ 53 * (size * nB) := by
    rw [← sub_mul, abs_mul, abs_of_nonneg hb0, ← mul_assoc]
    exact mul_le_mul_of_nonneg_right e3 hb0
  have a3 : |fl (g * size)| * nB * (1 / 2 ^ 53) ≤ 2 * (size * nB) * (1 / 2 ^ 53) := by
    rw [← mul_assoc 2]
    exact mul_le_mul_of_nonneg_right (mul_le_mul_of_nonneg_right hg2 hb0) (by norm_num)
  calc _ = |(fl (fl (g * size) * nB) - fl (g * size) * nB) + (fl (g * size) * nB - f * size * nB)| := by congr 1; ring
    _ ≤ _ := abs_add_le _ _
    _ ≤ 2 * (size * nB) * (1 / 2 ^ 53) + 3 / 2 ^ 53 * (size * nB) := add_le_add (le_trans e4 a3) a2
    _ = 5 / 2 ^ 53 * (size * nB) := by ring
    _ ≤ 5 / 2 ^ 53 * 2 ^ 40 := mul_le_mul_of_nonneg_left hn' (by norm_num)
    _ < _ := by norm_num

/-- The two comparisons for one species. -/
theorem test_iff (hk : KeepsIntegers fl) (hr : RoundsTo53 fl) {n : ℕ} {d x lo hi : ℤ} {eps : ℚ} (hn0 : 0 < n) (hd0 : 0 < d)
    (hn : n ≤ 2 ^ 53) (hd : d ≤ 2 ^ 53) (he0 : 1 / 2 ^ 50 ≤ eps) (he1 : eps ≤ 1) (he : (eps + 1 / 2 ^ 50) * n * d < 1)
    (hx0 : 0 ≤ x) (hx : x ≤ n) (hl0 : 0 ≤ lo) (hl : lo ≤ d) (hh0 : 0 ≤ hi) (hh : hi ≤ d) :
    (¬ (fl (fl x / fl n) < fl (fl (fl lo / fl d) - eps)) ∧ ¬ (fl (fl x / fl n) > fl (fl (fl hi / fl d) + eps))) ↔
      ((lo : ℚ) / d ≤ (x : ℚ) / n ∧ (x : ℚ) / n ≤ (hi : ℚ) / d) := by
  have ex := frac_err hk hr hx0 hx (by exact_mod_cast hn0) (by exact_mod_cast hn)
  have el := frac_err hk hr hl0 hl hd0 hd
  have eh := frac_err hk hr hh0 hh hd0 hd
  obtain ⟨fl0, fl1⟩ := frac_range hl0 hl hd0
  obtain ⟨fh0, fh1⟩ := frac_range hh0 hh hd0
  push_cast at ex
  have e1 := hr (fl (fl lo / fl d) - eps)
  have e2 := hr (fl (fl hi / fl d) + eps)
  have key1 := fun h => frac_ge_of_lt (x := x) (q := lo) (eps := eps + 1 / 2 ^ 50) hn0 hd0 he h
  have key2 := fun h => frac_le_of_lt (x := x) (q := hi) (eps := eps + 1 / 2 ^ 50) hn0 hd0 he h
  generalize fl (fl lo / fl d) = L at *
  generalize fl (fl hi / fl d) = H at *
  generalize fl (fl x / fl n) = X at *
  generalize (lo : ℚ) / d = l at *
  generalize (hi : ℚ) / d = h at *
  generalize (x : ℚ) / n = y at *
  rw [abs_le] at ex el eh
  have b1 : |L - eps| ≤ 3 := by rw [abs_le]; constructor <;> norm_num at el ⊢ <;> linarith
  have b2 : |H + eps| ≤ 3 := by rw [abs_le]; constructor <;> norm_num at eh ⊢ <;> linarith
  have c1 : |fl (L - eps) - (L - eps)| ≤ 3 * (1 / 2 ^ 53) := le_trans e1 (mul_le_mul_of_nonneg_right b1 (by norm_num))
  have c2 : |fl (H + eps) - (H + eps)| ≤ 3 * (1 / 2 ^ 53) := le_trans e2 (mul_le_mul_of_nonneg_right b2 (by norm_num))
  rw [abs_le] at c1 c2
  constructor
  · rintro ⟨t1, t2⟩
    refine ⟨key1 (fun t => t1 ?_), key2 (fun t => t2 ?_)⟩
    · norm_num at *; linarith
    · norm_num at *; linarith
  · rintro ⟨t1, t2⟩
    refine ⟨fun t => ?_, fun t => ?_⟩
    · norm_num at *; linarith
    · norm_num at *; linarith

theorem concOkF_iff (hk : KeepsIntegers fl) (hr : RoundsTo53 fl) {n : ℕ} {d : ℤ} {eps : ℚ} (hn0 : 0 < n) (hd0 : 0 < d)
    (hn : n ≤ 2 ^ 53) (hd : d ≤ 2 ^ 53) (he0 : 1 / 2 ^ 50 ≤ eps) (he1 : eps ≤ 1) (he : (eps + 1 / 2 ^ 50) * n * d < 1) :
    ∀ (a : List ℤ) (concs : List ConcRange), a.length = concs.length →
      (∀ c ∈ concs, c.2.2 = d ∧ 0 ≤ min c.1 c.2.1 ∧ max c.1 c.2.1 ≤ d) → (∀ x ∈ a, 0 ≤ x ∧ x ≤ n) →
      (concOkF fl eps n concs a = true ↔ InRanges n concs a) := by
  intro a
  induction a with
  | nil =>
    intro concs hl _ _
    have : concs = [] := List.length_eq_zero_iff.1 hl.symm
    subst this
    simp [concOkF, InRanges]
  | cons x a ih =>
    intro concs hl hc ha
    cases concs with
    | nil => simp at hl
    | cons c concs =>
      simp only [List.length_cons, Nat.add_right_cancel_iff] at hl
      have hi := ih concs hl (fun c hc' => hc c (by simp [hc'])) (fun x hx => ha x (by simp [hx]))
      obtain ⟨hcd, hc0, hc1⟩ := hc c (by simp)
      obtain ⟨hx0, hx1⟩ := ha x (by simp)
      unfold concOkF at hi ⊢
      rw [InRanges, List.forall₂_cons, List.zip_cons_cons, List.all_cons, Bool.and_eq_true, hi, InRanges, Bool.and_eq_true,
        decide_eq_true_eq, decide_eq_true_eq, hcd]
      refine and_congr_left (fun _ => ?_)
      exact test_iff hk hr hn0 hd0 hn hd he0 he1 he hx0 hx1 hc0 (le_trans min_le_max hc1) (le_trans hc0 min_le_max) hc1

/-- The counters cover all counts allowed by the ranges. -/
theorem inRanges_counterF (hk : KeepsIntegers fl) (hr : RoundsTo53 fl) {size nB : ℕ} {d : ℤ} (hn : 0 < size * nB)
    (hd0 : 0 < d) (hd : d ≤ 2 ^ 53) (hn1 : size * nB ≤ 2 ^ 40) (hs : size ≤ 2 ^ 53) (hb : nB ≤ 2 ^ 53) :
    ∀ (a : List ℤ) (concs : List ConcRange), (∀ c ∈ concs, c.2.2 = d ∧ 0 ≤ min c.1 c.2.1 ∧ max c.1 c.2.1 ≤ d) →
      InRanges (size * nB) concs a →
      ∃ cs, OdoValid ((concs.map (volRowF fl size nB d)).map (fun r => (r.2 - r.1).toNat)) cs ∧
        a = odoLab ((concs.map (volRowF fl size nB d)).map (fun r => r.1)) cs := by
  intro a
  have hn' : (0 : ℚ) < (size * nB : ℕ) := by exact_mod_cast hn
  induction a with
  | nil =>
    intro concs _ h
    cases h
    exact ⟨[], by simp, by simp [odoLab]⟩
  | cons x a ih =>
    intro concs hc h
    cases concs with
    | nil => cases h
    | cons c concs =>
      rw [InRanges, List.forall₂_cons] at h
      obtain ⟨cs, h1, h2⟩ := ih concs (fun c hc' => hc c (by simp [hc'])) h.2
      obtain ⟨hcd, hc0, hc1⟩ := hc c (by simp)
      rw [hcd] at h
      have hlo : (volRowF fl size nB d c).1 ≤ x := by
        have h3 : (((min c.1 c.2.1 : ℤ) : ℚ) / d * size * nB) ≤ x := by
          rw [mul_assoc, ← Nat.cast_mul]
          exact (le_div_iff₀ hn').1 h.1.1
        have h4 := abs_lt.1 (volF_err hk hr hc0 (le_trans min_le_max hc1) hd0 hd hn1 hs hb)
        have h5 := Int.floor_le (volF fl size nB d (min c.1 c.2.1))
        have h6 : ((volRowF fl size nB d c).1 : ℚ) < ((x + 1 : ℤ) : ℚ) := by
          push_cast
          simp only [volRowF]
          linarith
        have h7 := Int.cast_lt.1 h6
        omega
      have hhi : x ≤ (volRowF fl size nB d c).2 := by
        have h3 : (x : ℚ) ≤ (((max c.1 c.2.1 : ℤ) : ℚ) / d * size * nB) := by
          rw [mul_assoc, ← Nat.cast_mul]
          exact (div_le_iff₀ hn').1 h.1.2
        have h4 := abs_lt.1 (volF_err hk hr (le_trans hc0 min_le_max) hc1 hd0 hd hn1 hs hb)
        have h5 := Int.le_ceil (volF fl size nB d (max c.1 c.2.1))
        have h6 : (x : ℚ) < (((volRowF fl size nB d c).2 + 1 : ℤ) : ℚ) := by
          push_cast
          simp only [volRowF]
          linarith
        have h7 := Int.cast_lt.1 h6
        omega
      refine ⟨(x - (volRowF fl size nB d c).1).toNat :: cs, ?_, ?_⟩
      · simp only [List.map_cons]
        exact List.Forall₂.cons (by omega) h1
      · simp only [List.map_cons, odoLab, List.zipWith_cons_cons]
        rw [show odoLab _ cs = List.zipWith _ _ cs from rfl] at h2
        rw [← h2]
        congr 1
        omega

theorem volRowF_nonneg (hk : KeepsIntegers fl) (hr : RoundsTo53 fl) {size nB : ℕ} {d : ℤ} {c : ConcRange}
    (hd0 : 0 < d) (hd : d ≤ 2 ^ 53) (hs : size ≤ 2 ^ 53) (hb : nB ≤ 2 ^ 53)
    (hc0 : 0 ≤ min c.1 c.2.1) (hc1 : max c.1 c.2.1 ≤ d) : 0 ≤ (volRowF fl size nB d c).1 := by
  have pos : ∀ x : ℚ, 0 ≤ x → 0 ≤ fl x := by
    intro x hx
    have := hr x
    rw [abs_of_nonneg hx, abs_le] at this
    have h2 : x * (1 / 2 ^ 53) ≤ x := mul_le_of_le_one_right hx (by norm_num)
    linarith [this.1]
  rw [volRowF]
  refine Int.floor_nonneg.2 ?_
  unfold volF
  rw [keeps_int hk hc0 (le_trans min_le_max (le_trans hc1 hd)), keeps_int hk hd0.le hd, hk _ hs, hk _ hb]
  have h1 : (0 : ℚ) ≤ ((min c.1 c.2.1 : ℤ) : ℚ) := by exact_mod_cast hc0
  have h2 : (0 : ℚ) ≤ d := by exact_mod_cast hd0.le
  exact pos _ (mul_nonneg (pos _ (mul_nonneg (pos _ (div_nonneg h1 h2)) (Nat.cast_nonneg _))) (Nat.cast_nonneg _))

theorem volRowF_le (hk : KeepsIntegers fl) (hr : RoundsTo53 fl) {size nB : ℕ} {d : ℤ} {c : ConcRange}
    (hd0 : 0 < d) (hd : d ≤ 2 ^ 53) (hn1 : size * nB ≤ 2 ^ 40) (hs : size ≤ 2 ^ 53) (hb : nB ≤ 2 ^ 53)
    (hc0 : 0 ≤ min c.1 c.2.1) (hc1 : max c.1 c.2.1 ≤ d) : (volRowF fl size nB d c).1 ≤ (volRowF fl size nB d c).2 := by
  have h1 := abs_lt.1 (volF_err (fl := fl) hk hr hc0 (le_trans min_le_max hc1) hd0 hd hn1 hs hb)
  have h2 := abs_lt.1 (volF_err (fl := fl) hk hr (le_trans hc0 min_le_max) hc1 hd0 hd hn1 hs hb)
  have h3 := Int.floor_le (volF fl size nB d (min c.1 c.2.1))
  have h4 := Int.le_ceil (volF fl size nB d (max c.1 c.2.1))
  have hd' : (0 : ℚ) < d := by exact_mod_cast hd0
  have hmm : ((min c.1 c.2.1 : ℤ) : ℚ) / d * size * nB ≤ ((max c.1 c.2.1 : ℤ) : ℚ) / d * size * nB := by
    have h1 : ((min c.1 c.2.1 : ℤ) : ℚ) ≤ ((max c.1 c.2.1 : ℤ) : ℚ) := by exact_mod_cast min_le_max
    have h2 : ((min c.1 c.2.1 : ℤ) : ℚ) / d ≤ ((max c.1 c.2.1 : ℤ) : ℚ) / d := div_le_div_of_nonneg_right h1 hd'.le
    exact mul_le_mul_of_nonneg_right (mul_le_mul_of_nonneg_right h2 (by positivity)) (by positivity)
  have h6 : ((volRowF fl size nB d c).1 : ℚ) < (((volRowF fl size nB d c).2 + 1 : ℤ) : ℚ) := by
    push_cast
    simp only [volRowF]
    linarith
  have h7 := Int.cast_lt.1 h6
  omega

end

theorem mem_le_sum : ∀ (a : List ℤ), (∀ x ∈ a, 0 ≤ x) → ∀ x ∈ a, x ≤ a.sum := by
  intro a
  induction a with
  | nil => simp
  | cons y a ih =>
    intro h x hx
    have h0 : 0 ≤ a.sum := List.sum_nonneg (fun z hz => h z (by simp [hz]))
    have hy := h y (by simp)
    rw [List.sum_cons]
    rcases List.mem_cons.1 hx with rfl | hx
    · omega
    · have := ih (fun z hz => h z (by simp [hz])) x hx
      omega

theorem odoLab_nonneg : ∀ (lo : List ℤ) (cs : List ℕ), (∀ x ∈ lo, 0 ≤ x) → ∀ x ∈ odoLab lo cs, 0 ≤ x := by
  intro lo
  induction lo with
  | nil => simp [odoLab]
  | cons l lo ih =>
    intro cs h x hx
    cases cs with
    | nil => simp [odoLab] at hx
    | cons c cs =>
      simp only [odoLab, List.zipWith_cons_cons, List.mem_cons] at hx
      rcases hx with rfl | hx
      · have := h l (by simp)
        omega
      · exact ih cs (fun z hz => h z (by simp [hz])) x hx

/-- C69: in floating point (a rounding that keeps the integers up to 2^53 and has relative error at most 2^-53), with
ranges inside [0,1] over one denominator and a tolerance `eps` of at least 2^-50 that satisfies
`(eps + 2^-50)*n*denominator < 1` for `n` sites, `get_concs_for_size` terminates and lists exactly once each tuple of
counts that sums to the number of sites and whose exact fractions lie inside the given closed ranges. -/
theorem C69_restricted_concs_float (fl : ℚ → ℚ) (hk : KeepsIntegers fl) (hr : RoundsTo53 fl) (eps : ℚ) (size nB : ℕ)
    (concs : List ConcRange) (d : ℤ)
    (hn : 0 < size * nB) (hne : concs ≠ []) (hd : 0 < d)
    (hc : ∀ c ∈ concs, c.2.2 = d ∧ 0 ≤ min c.1 c.2.1 ∧ max c.1 c.2.1 ≤ d)
    (hn1 : size * nB ≤ 2 ^ 40) (he0 : 1 / 2 ^ 50 ≤ eps) (he1 : eps ≤ 1)
    (he : (eps + 1 / 2 ^ 50) * (size * nB : ℕ) * d < 1) :
    ∃ out, concsRestrictedF fl eps size nB concs = some (.ok out) ∧ out.Nodup ∧
      ∀ a : List ℤ, a ∈ out ↔ a.sum = (size * nB : ℕ) ∧ InRanges (size * nB) concs a := by
  have hnpos : (1 : ℚ) ≤ (size * nB : ℕ) := by exact_mod_cast hn
  have hdpos : (1 : ℚ) ≤ d := by exact_mod_cast hd
  have hd53 : d ≤ 2 ^ 53 := by
    by_contra hlt
    rw [not_le] at hlt
    have h1 : (2 ^ 53 : ℚ) < d := by exact_mod_cast hlt
    have h2 : (1 / 2 ^ 50 : ℚ) ≤ (eps + 1 / 2 ^ 50) * (size * nB : ℕ) := by
      have h3 : (1 / 2 ^ 50 : ℚ) ≤ eps + 1 / 2 ^ 50 := by
        have : (0 : ℚ) ≤ 1 / 2 ^ 50 := by norm_num
        linarith
      calc (1 / 2 ^ 50 : ℚ) ≤ (eps + 1 / 2 ^ 50) * 1 := by rw [mul_one]; exact h3
        _ ≤ _ := mul_le_mul_of_nonneg_left hnpos (le_trans (by norm_num) h3)
    have h4 : (1 / 2 ^ 50 : ℚ) * 2 ^ 53 ≤ (eps + 1 / 2 ^ 50) * (size * nB : ℕ) * d :=
      mul_le_mul h2 h1.le (by norm_num) (le_trans (by norm_num) h2)
    norm_num at h4 he
    linarith
  have hs : size ≤ 2 ^ 53 := by
    have : 0 < nB := Nat.pos_of_mul_pos_left hn
    have := Nat.le_mul_of_pos_right size this
    omega
  have hb : nB ≤ 2 ^ 53 := by
    have : 0 < size := Nat.pos_of_mul_pos_right hn
    have := Nat.le_mul_of_pos_left nB this
    omega
  cases concs with
  | nil => exact absurd rfl hne
  | cons c0 rest =>
    have hc0 := (hc c0 (by simp)).1
    have hnz : ((c0 :: rest).any (fun c => decide (c.2.2 = 0))) = false := by
      rw [List.any_eq_false]
      intro c hcm
      rw [decide_eq_true_eq, (hc c hcm).1]
      omega
    have hemp : (((c0 :: rest).map (volRowF fl size nB d)).any (fun r => decide (r.2 < r.1))) = false := by
      rw [List.any_eq_false]
      intro r hr'
      rw [decide_eq_true_eq, not_lt]
      obtain ⟨c, hcm, rfl⟩ := List.mem_map.1 hr'
      exact volRowF_le hk hr hd hd53 hn1 hs hb (hc c hcm).2.1 (hc c hcm).2.2
    obtain ⟨s, h1, h2, h3⟩ := odo_total_gen (size * nB) (by omega) (concOkF fl eps (size * nB) (c0 :: rest))
      (((c0 :: rest).map (volRowF fl size nB d)).map (fun r => r.1))
      (((c0 :: rest).map (volRowF fl size nB d)).map (fun r => (r.2 - r.1).toNat)) (by simp)
    refine ⟨s.2.out, ?_, h2, fun a => ?_⟩
    · simp only [concsRestrictedF, hnz, Bool.false_eq_true, if_false, hc0, hemp]
      simp only [List.length_map] at h1
      rw [h1]
    · rw [h3]
      constructor
      · rintro ⟨cs, k1, k2, k3, k4⟩
        have hnn : ∀ x ∈ a, 0 ≤ x := by
          rw [k2]
          refine odoLab_nonneg _ _ (fun x hx => ?_)
          obtain ⟨r, hr', rfl⟩ := List.mem_map.1 hx
          obtain ⟨c, hcm, rfl⟩ := List.mem_map.1 hr'
          exact volRowF_nonneg hk hr hd hd53 hs hb (hc c hcm).2.1 (hc c hcm).2.2
        refine ⟨k3, (concOkF_iff hk hr hn hd (by omega) hd53 he0 he1 he a _ ?_ hc ?_).1 k4⟩
        · rw [k2, odoLab, List.length_zipWith, k1.length]
          simp
        · intro x hx
          exact ⟨hnn x hx, k3 ▸ mem_le_sum a hnn x hx⟩
      · rintro ⟨k3, k4⟩
        obtain ⟨cs, k1, k2⟩ := inRanges_counterF hk hr hn hd hd53 hn1 hs hb a _ hc k4
        have hnn : ∀ x ∈ a, 0 ≤ x := by
          rw [k2]
          refine odoLab_nonneg _ _ (fun x hx => ?_)
          obtain ⟨r, hr', rfl⟩ := List.mem_map.1 hx
          obtain ⟨c, hcm, rfl⟩ := List.mem_map.1 hr'
          exact volRowF_nonneg hk hr hd hd53 hs hb (hc c hcm).2.1 (hc c hcm).2.2
        exact ⟨cs, k1, k2, k3, (concOkF_iff hk hr hn hd (by omega) hd53 he0 he1 he a _ k4.length_eq hc
          (fun x hx => ⟨hnn x hx, k3 ▸ mem_le_sum a hnn x hx⟩)).2 k4⟩

theorem nearest_keeps {fl : ℚ → ℚ} (hfl : RoundsToNearest fl) : KeepsIntegers fl := by
  intro z hz
  have : IsDouble ((z : ℤ) : ℚ) := isDouble_int (by rw [abs_of_nonneg (by positivity)]; exact_mod_cast hz)
  exact_mod_cast fl_of_isDouble hfl this

/-- C69: rounding to a nearest double (with 53 binary digits) is such a rounding, and the code's tolerance `1E-10`, as a
double, is small enough whenever the number of sites times the denominator is at most 9*10^9. -/
theorem C69_nearest (fl : ℚ → ℚ) (hfl : RoundsToNearest fl) (size nB : ℕ) (concs : List ConcRange) (d : ℤ)
    (hn : 0 < size * nB) (hne : concs ≠ []) (hd : 0 < d)
    (hc : ∀ c ∈ concs, c.2.2 = d ∧ 0 ≤ min c.1 c.2.1 ∧ max c.1 c.2.1 ≤ d)
    (hnd : (size * nB : ℕ) * d ≤ 9 * 10 ^ 9) :
    ∃ out, concsRestrictedF fl (fl (1 / 10 ^ 10)) size nB concs = some (.ok out) ∧ out.Nodup ∧
      ∀ a : List ℤ, a ∈ out ↔ a.sum = (size * nB : ℕ) ∧ InRanges (size * nB) concs a := by
  have he := abs_le.1 (nearest_rounds hfl (1 / 10 ^ 10))
  rw [abs_of_nonneg (a := (1 / 10 ^ 10 : ℚ)) (by norm_num)] at he
  have hnd' : ((size * nB : ℕ) : ℚ) * d ≤ 9 * 10 ^ 9 := by exact_mod_cast hnd
  refine C69_restricted_concs_float fl (nearest_keeps hfl) (nearest_rounds hfl) _ size nB concs d hn hne hd hc ?_ ?_ ?_ ?_
  · have h1 : ((size * nB : ℕ) : ℤ) * 1 ≤ (size * nB : ℕ) * d := mul_le_mul_of_nonneg_left (by omega) (by positivity)
    have h2 : ((size * nB : ℕ) : ℤ) ≤ 9 * 10 ^ 9 := by omega
    have h3 : size * nB ≤ 9 * 10 ^ 9 := by exact_mod_cast h2
    omega
  · generalize fl (1 / 10 ^ 10) = e at *
    norm_num at he ⊢
    linarith
  · generalize fl (1 / 10 ^ 10) = e at *
    norm_num at he ⊢
    linarith
  · generalize fl (1 / 10 ^ 10) = e at *
    have h0 : (0 : ℚ) ≤ e + 1 / 2 ^ 50 := by norm_num at he ⊢; linarith
    rw [mul_assoc]
    refine lt_of_le_of_lt (mul_le_mul_of_nonneg_left hnd' h0) ?_
    norm_num at he ⊢
    linarith

/-- C69: IEEE double precision (53 binary digits, ties to even) rounds to a nearest double. -/
theorem C69_double : RoundsToNearest fl53 := fl53_nearest

/-- Hypotheses of C69 met: two species, the first between 1/3 and 2/3, in a cell of 9 sites (thirds are not doubles);
the tuples (3,6) and (6,3), whose fractions are the ends of the range, are listed, and (2,7) is not. -/
example : ∃ out, concsRestrictedF fl53 (fl53 (1 / 10 ^ 10)) 9 1 [(1, 2, 3), (0, 3, 3)] = some (.ok out) ∧
    [3, 6] ∈ out ∧ [6, 3] ∈ out ∧ [2, 7] ∉ out := by
  obtain ⟨out, h1, -, h3⟩ := C69_nearest fl53 C69_double 9 1 [(1, 2, 3), (0, 3, 3)] 3 (by norm_num) (by simp)
    (by norm_num) (by simp) (by norm_num)
  refine ⟨out, h1, (h3 _).2 ⟨by norm_num, ?_⟩, (h3 _).2 ⟨by norm_num, ?_⟩, fun h => ?_⟩
  · exact List.Forall₂.cons (by norm_num) (List.Forall₂.cons (by norm_num) List.Forall₂.nil)
  · exact List.Forall₂.cons (by norm_num) (List.Forall₂.cons (by norm_num) List.Forall₂.nil)
  · have := ((h3 _).1 h).2
    cases this with
    | cons h _ => norm_num at h

/-- C69: the bound on sites times denominator is needed. With the denominator 10^11 and one site, the composition
(0,1) is listed although the range of the first species starts at 10^-11: the tolerance 1E-10 is larger than the
difference. -/
theorem C69_limit : ¬ InRanges 1 [(1, 10 ^ 11, 10 ^ 11), (0, 10 ^ 11, 10 ^ 11)] [0, 1] ∧
    ∃ out, concsRestrictedF fl53 (fl53 (1 / 10 ^ 10)) 1 1 [(1, 10 ^ 11, 10 ^ 11), (0, 10 ^ 11, 10 ^ 11)] = some (.ok out) ∧
      [0, 1] ∈ out := by
  constructor
  · intro h
    cases h with
    | cons h _ => norm_num at h
  · have e1 : volRowF fl53 1 1 (10 ^ 11) (1, 10 ^ 11, 10 ^ 11) = (0, 1) := by decide +kernel
    have e2 : volRowF fl53 1 1 (10 ^ 11) (0, 10 ^ 11, 10 ^ 11) = (0, 1) := by decide +kernel
    have e3 : concOkF fl53 (fl53 (1 / 10 ^ 10)) 1 [(1, 10 ^ 11, 10 ^ 11), (0, 10 ^ 11, 10 ^ 11)] [0, 1] = true := by
      decide +kernel
    obtain ⟨s, h1, h2, h3⟩ := odo_total_gen 1 (by omega)
      (concOkF fl53 (fl53 (1 / 10 ^ 10)) 1 [(1, 10 ^ 11, 10 ^ 11), (0, 10 ^ 11, 10 ^ 11)]) [0, 0] [1, 1] (by simp)
    refine ⟨s.2.out, ?_, (h3 _).2 ⟨[0, 1], ?_, ?_, by norm_num, e3⟩⟩
    · simp only [concsRestrictedF, List.map_cons, List.map_nil, e1, e2]
      rw [if_neg (by simp), if_neg (by simp)]
      simp only [sub_zero, Int.toNat_one, Nat.mul_one, List.length_cons, List.length_nil] at h1 ⊢
      rw [h1]
    · exact List.Forall₂.cons (by omega) (List.Forall₂.cons (by omega) List.Forall₂.nil)
    · simp [odoLab]

end Phenum
