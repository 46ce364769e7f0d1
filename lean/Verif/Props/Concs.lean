import Verif.Proof.Concs
import Mathlib.Data.List.Nodup
/-
C25, C26: lists of concentrations.
-/
namespace Phenum

theorem mem_pyProduct {α : Type} {rs : List (List α)} {l : List α} :
    l ∈ pyProduct rs ↔ List.Forall₂ (fun x r => x ∈ r) l rs := by
  induction rs generalizing l with
  | nil => simp [pyProduct]
  | cons r rs ih =>
    simp only [pyProduct, List.mem_flatMap, List.mem_map]
    constructor
    · rintro ⟨x, hx, l', hl', rfl⟩
      exact List.Forall₂.cons hx (ih.1 hl')
    · intro h
      cases h with
      | cons hx h => exact ⟨_, hx, _, ih.2 h, rfl⟩

theorem nodup_pyProduct {α : Type} {rs : List (List α)} (h : ∀ r ∈ rs, r.Nodup) : (pyProduct rs).Nodup := by
  induction rs with
  | nil => simp [pyProduct]
  | cons r rs ih =>
    simp only [pyProduct]
    rw [List.nodup_flatMap]
    constructor
    · intro x _
      exact (ih (fun r hr => h r (by simp [hr]))).map (fun a b hab => by simpa using hab)
    · refine (h r (by simp)).imp ?_
      intro x y hxy l hx hy
      simp only [List.mem_map] at hx hy
      obtain ⟨a, -, rfl⟩ := hx
      obtain ⟨b, -, hb⟩ := hy
      simp at hb
      exact hxy hb.1.symm

/-- C25: without restrictions, `get_concs_for_size` lists every tuple of `nspecies` counts summing to the number of
sites `size*nB`, exactly once. -/
theorem C25_concs_complete (size nspecies nB : ℕ) :
    (concsFree size nspecies nB).Nodup ∧
      ∀ l : List ℕ, l ∈ concsFree size nspecies nB ↔ l.length = nspecies ∧ l.sum = size * nB := by
  constructor
  · refine (nodup_pyProduct (fun r hr => ?_)).filter _
    rw [List.eq_of_mem_replicate hr]
    exact List.nodup_range
  · intro l
    simp only [concsFree, List.mem_filter, mem_pyProduct, decide_eq_true_eq]
    constructor
    · rintro ⟨h, hs⟩
      exact ⟨by simpa using h.length_eq, hs⟩
    · rintro ⟨hl, hs⟩
      refine ⟨?_, hs⟩
      have key : ∀ (l : List ℕ) (b : ℕ), l.sum ≤ b →
          List.Forall₂ (fun x r => x ∈ r) l (List.replicate l.length (List.range (b + 1))) := by
        intro l
        induction l with
        | nil => intro b _; simp
        | cons x l ih =>
          intro b hb
          simp only [List.sum_cons] at hb
          simp only [List.length_cons, List.replicate_succ]
          exact List.Forall₂.cons (List.mem_range.2 (by omega)) (ih b (by omega))
      rw [← hl]
      exact key l _ (le_of_eq hs)

example : concsFree 2 2 1 = [[0, 2], [1, 1], [2, 0]] := by decide

/-- The tuple of counts `a` has, for every species, a fraction `a_i/n` inside the closed range between
`c0/denominator` and `c1/denominator`. -/
def InRanges (n : ℕ) (concs : List ConcRange) (a : List ℤ) : Prop :=
  List.Forall₂ (fun (x : ℤ) (c : ConcRange) =>
    ((min c.1 c.2.1 : ℤ) : ℚ) / c.2.2 ≤ (x : ℚ) / n ∧ (x : ℚ) / n ≤ ((max c.1 c.2.1 : ℤ) : ℚ) / c.2.2) a concs

/-- `x/n` and `q/d` closer than `1/(n d)`. -/
theorem frac_le_of_lt {x q : ℤ} {n : ℕ} {d : ℤ} {eps : ℚ} (hn : 0 < n) (hd : 0 < d) (he : eps * n * d < 1)
    (h : ¬ ((x : ℚ) / n > (q : ℚ) / d + eps)) : (x : ℚ) / n ≤ (q : ℚ) / d := by
  have hn' : (0 : ℚ) < n := by exact_mod_cast hn
  have hd' : (0 : ℚ) < d := by exact_mod_cast hd
  rw [gt_iff_lt, not_lt] at h
  rw [div_le_div_iff₀ hn' hd']
  have h1 : (x : ℚ) / n * (n * d) ≤ ((q : ℚ) / d + eps) * (n * d) := mul_le_mul_of_nonneg_right h (by positivity)
  have h2 : (x : ℚ) / n * (n * d) = x * d := by field_simp
  have h3 : ((q : ℚ) / d + eps) * (n * d) = q * n + eps * n * d := by field_simp
  rw [h2, h3] at h1
  have h4 : (x * d : ℚ) < q * n + 1 := by linarith
  have h5 : x * d < q * n + 1 := by exact_mod_cast h4
  have h6 : x * d ≤ q * n := by omega
  exact_mod_cast h6

theorem frac_ge_of_lt {x q : ℤ} {n : ℕ} {d : ℤ} {eps : ℚ} (hn : 0 < n) (hd : 0 < d) (he : eps * n * d < 1)
    (h : ¬ ((x : ℚ) / n < (q : ℚ) / d - eps)) : (q : ℚ) / d ≤ (x : ℚ) / n := by
  have := frac_le_of_lt (x := -x) (q := -q) hn hd he (by
    push_cast
    rw [neg_div, neg_div]
    intro h'
    exact h (by linarith))
  push_cast at this
  rw [neg_div, neg_div] at this
  linarith

theorem concOk_iff {n : ℕ} {d : ℤ} {eps : ℚ} (hn : 0 < n) (hd : 0 < d) (he0 : 0 ≤ eps) (he : eps * n * d < 1) :
    ∀ (a : List ℤ) (concs : List ConcRange), a.length = concs.length → (∀ c ∈ concs, c.2.2 = d) →
      (concOk eps n concs a = true ↔ InRanges n concs a) := by
  intro a
  induction a with
  | nil =>
    intro concs hl _
    have : concs = [] := List.length_eq_zero_iff.1 hl.symm
    subst this
    simp [concOk, InRanges]
  | cons x a ih =>
    intro concs hl hc
    cases concs with
    | nil => simp at hl
    | cons c concs =>
      simp only [List.length_cons, Nat.add_right_cancel_iff] at hl
      have hi := ih concs hl (fun c hc' => hc c (by simp [hc']))
      have hcd := hc c (by simp)
      unfold concOk at hi ⊢
      rw [InRanges, List.forall₂_cons, List.zip_cons_cons, List.all_cons, Bool.and_eq_true, hi, InRanges, Bool.and_eq_true,
        decide_eq_true_eq, decide_eq_true_eq, hcd]
      refine and_congr_left (fun _ => ?_)
      constructor
      · rintro ⟨h1, h2⟩
        exact ⟨frac_ge_of_lt hn hd he h1, frac_le_of_lt hn hd he h2⟩
      · rintro ⟨h1, h2⟩
        exact ⟨by rw [not_lt]; linarith, by rw [gt_iff_lt, not_lt]; linarith⟩

/-- The counters cover all counts allowed by the ranges. -/
theorem inRanges_counter {size nB : ℕ} {d : ℤ} (hn : 0 < size * nB) :
    ∀ (a : List ℤ) (concs : List ConcRange), (∀ c ∈ concs, c.2.2 = d) → InRanges (size * nB) concs a →
      ∃ cs, OdoValid ((concs.map (volRow size nB d)).map (fun r => (r.2 - r.1).toNat)) cs ∧
        a = odoLab ((concs.map (volRow size nB d)).map (fun r => r.1)) cs := by
  intro a
  have hn' : (0 : ℚ) < (size * nB : ℕ) := by exact_mod_cast hn
  induction a with
  | nil =>
    intro concs _ h
    cases h
    exact ⟨[], by simp, by simp [odoLab]⟩
  | cons x a ih =>
    intro concs hc h
    cases concs with
    | nil => cases h
    | cons c concs =>
      rw [InRanges, List.forall₂_cons] at h
      obtain ⟨cs, h1, h2⟩ := ih concs (fun c hc' => hc c (by simp [hc'])) h.2
      rw [hc c (by simp)] at h
      have hlo : (volRow size nB d c).1 ≤ x := by
        have : (((min c.1 c.2.1 : ℤ) : ℚ) / d * size * nB) ≤ x := by
          rw [mul_assoc, ← Nat.cast_mul]
          exact (le_div_iff₀ hn').1 h.1.1
        exact Int.cast_le.1 (le_trans (Int.floor_le _) this : ((volRow size nB d c).1 : ℚ) ≤ x)
      have hhi : x ≤ (volRow size nB d c).2 := by
        have : (x : ℚ) ≤ (((max c.1 c.2.1 : ℤ) : ℚ) / d * size * nB) := by
          rw [mul_assoc, ← Nat.cast_mul]
          exact (div_le_iff₀ hn').1 h.1.2
        exact Int.cast_le.1 (le_trans this (Int.le_ceil _) : (x : ℚ) ≤ ((volRow size nB d c).2 : ℚ))
      refine ⟨(x - (volRow size nB d c).1).toNat :: cs, ?_, ?_⟩
      · simp only [List.map_cons]
        exact List.Forall₂.cons (by omega) h1
      · simp only [List.map_cons, odoLab, List.zipWith_cons_cons]
        rw [show odoLab _ cs = List.zipWith _ _ cs from rfl] at h2
        rw [← h2]
        congr 1
        omega

/-- C26: with restrictions (all over the same positive denominator, and a tolerance too small to matter),
`get_concs_for_size` terminates and lists exactly once each tuple of counts that sums to the number of sites and
whose fractions lie inside the given closed ranges. -/
theorem C26_restricted_concs (eps : ℚ) (size nB : ℕ) (concs : List ConcRange) (d : ℤ)
    (hn : 0 < size * nB) (hne : concs ≠ []) (hd : 0 < d) (hc : ∀ c ∈ concs, c.2.2 = d)
    (he0 : 0 ≤ eps) (he : eps * (size * nB : ℕ) * d < 1) :
    ∃ out, concsRestricted eps size nB concs = some (.ok out) ∧ out.Nodup ∧
      ∀ a : List ℤ, a ∈ out ↔ a.sum = (size * nB : ℕ) ∧ InRanges (size * nB) concs a := by
  cases concs with
  | nil => exact absurd rfl hne
  | cons c0 rest =>
    have hc0 := hc c0 (by simp)
    have hnz : ((c0 :: rest).any (fun c => decide (c.2.2 = 0))) = false := by
      rw [List.any_eq_false]
      intro c hcm
      rw [decide_eq_true_eq, hc c hcm]
      omega
    have hemp : (((c0 :: rest).map (volRow size nB d)).any (fun r => decide (r.2 < r.1))) = false := by
      rw [List.any_eq_false]
      intro r hr
      rw [decide_eq_true_eq, not_lt]
      obtain ⟨c, -, rfl⟩ := List.mem_map.1 hr
      have hd' : (0 : ℚ) < d := by exact_mod_cast hd
      have hmm : ((min c.1 c.2.1 : ℤ) : ℚ) / d * size * nB ≤ ((max c.1 c.2.1 : ℤ) : ℚ) / d * size * nB := by
        have h1 : ((min c.1 c.2.1 : ℤ) : ℚ) ≤ ((max c.1 c.2.1 : ℤ) : ℚ) := by exact_mod_cast min_le_max
        have h2 : ((min c.1 c.2.1 : ℤ) : ℚ) / d ≤ ((max c.1 c.2.1 : ℤ) : ℚ) / d := div_le_div_of_nonneg_right h1 hd'.le
        exact mul_le_mul_of_nonneg_right (mul_le_mul_of_nonneg_right h2 (by positivity)) (by positivity)
      exact Int.cast_le.1 (le_trans (Int.floor_le _) (le_trans hmm (Int.le_ceil _)) :
        ((volRow size nB d c).1 : ℚ) ≤ ((volRow size nB d c).2 : ℚ))
    obtain ⟨s, h1, h2, h3⟩ := odo_total eps (size * nB) (by omega) (c0 :: rest)
      (((c0 :: rest).map (volRow size nB d)).map (fun r => r.1))
      (((c0 :: rest).map (volRow size nB d)).map (fun r => (r.2 - r.1).toNat)) (by simp)
    refine ⟨s.2.out, ?_, h2, fun a => ?_⟩
    · simp only [concsRestricted, hnz, Bool.false_eq_true, if_false, hc0, hemp]
      simp only [List.length_map] at h1
      rw [h1]
    · rw [h3]
      constructor
      · rintro ⟨cs, k1, k2, k3, k4⟩
        refine ⟨k3, (concOk_iff hn hd he0 he a _ ?_ hc).1 k4⟩
        rw [k2, odoLab, List.length_zipWith, k1.length]
        simp
      · rintro ⟨k3, k4⟩
        obtain ⟨cs, k1, k2⟩ := inRanges_counter hn a _ hc k4
        exact ⟨cs, k1, k2, k3, (concOk_iff hn hd he0 he a _ k4.length_eq hc).2 k4⟩

/-- Hypotheses of C26 met: two species, the first between 1/4 and 1/2, in a cell of 8 sites, tolerance 1E-10; the
tuple (3,5) is listed. -/
example : ∃ out, concsRestricted (1 / 10 ^ 10) 8 1 [(1, 2, 4), (0, 4, 4)] = some (.ok out) ∧ [3, 5] ∈ out := by
  obtain ⟨out, h1, -, h3⟩ := C26_restricted_concs (1 / 10 ^ 10) 8 1 [(1, 2, 4), (0, 4, 4)] 4 (by norm_num) (by simp)
    (by norm_num) (by simp) (by norm_num) (by norm_num)
  refine ⟨out, h1, (h3 _).2 ⟨by norm_num, ?_⟩⟩
  unfold InRanges
  refine List.Forall₂.cons (by norm_num) (List.Forall₂.cons (by norm_num) List.Forall₂.nil)

/-- C26: the common denominator is needed. The volume table divides every range by the denominator of the first
species, so that with ranges `[0,1,1]` and `[1,2,2]` the composition (1,1) of a cell of two sites, whose fractions
1/2 and 1/2 lie in the ranges [0,1] and [1/2,1], is not listed. -/
theorem C26_denominators_matter :
    InRanges 2 [(0, 1, 1), (1, 2, 2)] [1, 1] ∧
      ∃ out, concsRestricted (1 / 10 ^ 10) 2 1 [(0, 1, 1), (1, 2, 2)] = some (.ok out) ∧ [1, 1] ∉ out := by
  constructor
  · unfold InRanges
    refine List.Forall₂.cons (by norm_num) (List.Forall₂.cons (by norm_num) List.Forall₂.nil)
  · obtain ⟨s, h1, h2, h3⟩ := odo_total (1 / 10 ^ 10) 2 (by omega) [(0, 1, 1), (1, 2, 2)] [0, 2] [2, 2] (by simp)
    refine ⟨s.2.out, ?_, ?_⟩
    · have e1 : volRow 2 1 1 (0, 1, 1) = (0, 2) := by
        simp only [volRow, Prod.mk.injEq]; norm_num
      have e2 : volRow 2 1 1 (1, 2, 2) = (2, 4) := by
        simp only [volRow, Prod.mk.injEq]; norm_num
      simp only [concsRestricted, List.map_cons, List.map_nil, e1, e2]
      simp only [List.length_cons, List.length_nil] at h1
      norm_num
      rw [show (Int.toNat 2) = 2 by decide]
      norm_num at h1
      rw [h1]
    · rw [h3]
      rintro ⟨cs, k1, k2, -⟩
      cases k1 with
      | cons _ k1 => cases k1 with
        | cons _ k1 =>
          cases k1
          simp [odoLab] at k2
          omega

end Phenum
