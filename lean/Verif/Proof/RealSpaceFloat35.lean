import Verif.Proof.RealSpaceFloat
/-
The limits of the loops of `map_enumStr_to_real_space` in IEEE double precision: all supercells of at most 35 cells.
-/
namespace Phenum
open Spec

/-- the test for one column -/
def colOk (a b c d e f z1 z2 : ℤ) : Bool :=
  decide ((z1 * (d * c - e * b) + e * z2 * a) % (a * c) ≠ 0) ||
    (decide (intTrunc (z3Lo fl53 a b c d e z1 z2) = (z1 * (d * c - e * b) + e * z2 * a) / (a * c)) &&
     decide (intTrunc (z3Hi fl53 a b c d e f z1 z2) = f + (z1 * (d * c - e * b) + e * z2 * a) / (a * c)))

/-- the test for all supercells with a given diagonal -/
def diagOk (a c f : ℕ) : Bool :=
  (List.range c).all fun b => (List.range f).all fun d => (List.range f).all fun e =>
    decide (e = 0) || (List.range a).all fun z1 => decide (z1 = 0) || (List.range c).all fun t =>
      colOk a b c d e f z1 ((b * z1 / a + t : ℕ) : ℤ)

/-- a power of two below 16 -/
def isPow2 (n : ℕ) : Bool := n == 1 || n == 2 || n == 4 || n == 8

/-- the diagonals for which rounding takes place, up to a size -/
def diags (N : ℕ) : List (ℕ × ℕ × ℕ) :=
  (((List.range 9).drop 2).flatMap fun a => ((List.range 9).drop 2).flatMap fun c => ((List.range 9).drop 2).map fun f => (a, c, f)).filter
    (fun p => decide (p.1 * p.2.1 * p.2.2 ≤ N) && !(isPow2 p.1 && isPow2 p.2.1))

theorem diagsOk_35 : (diags 35).all (fun p => diagOk p.1 p.2.1 p.2.2) = true := by decide +kernel

theorem diagOk_of {a c f : ℕ} (ha : 2 ≤ a) (hc : 2 ≤ c) (hf : 2 ≤ f) (hN : a * c * f ≤ 35)
    (hp : ¬ (isPow2 a = true ∧ isPow2 c = true)) : diagOk a c f = true := by
  have h1 : a * c ≤ 17 := by nlinarith
  have h2 : a * f ≤ 17 := by nlinarith
  have h3 : c * f ≤ 17 := by nlinarith
  have := List.all_eq_true.1 diagsOk_35 (a, c, f)
  apply this
  unfold diags
  rw [List.mem_filter]
  refine ⟨?_, ?_⟩
  · rw [List.mem_flatMap]
    refine ⟨a, ?_, ?_⟩
    · have : a < 9 := by nlinarith
      revert ha; clear * - this; revert this; revert a; decide
    · rw [List.mem_flatMap]
      refine ⟨c, ?_, ?_⟩
      · have : c < 9 := by nlinarith
        revert hc; clear * - this; revert this; revert c; decide
      · rw [List.mem_map]
        refine ⟨f, ?_, rfl⟩
        have : f < 9 := by nlinarith
        revert hf; clear * - this; revert this; revert f; decide
  · simp only [Bool.and_eq_true, decide_eq_true_eq, Bool.not_eq_true']
    refine ⟨hN, ?_⟩
    rw [← Bool.not_eq_true, Bool.and_eq_true]
    exact hp

theorem colOk_of {a c f b d e z1 t : ℕ} (h : diagOk a c f = true) (hb : b < c) (hd : d < f) (he : e < f) (he0 : e ≠ 0)
    (hz : z1 < a) (hz0 : z1 ≠ 0) (ht : t < c) : colOk a b c d e f z1 ((b * z1 / a + t : ℕ) : ℤ) = true := by
  unfold diagOk at h
  have h1 := List.all_eq_true.1 (List.all_eq_true.1 (List.all_eq_true.1 h b (List.mem_range.2 hb)) d (List.mem_range.2 hd)) e
    (List.mem_range.2 he)
  rw [Bool.or_eq_true, decide_eq_true_eq] at h1
  have h2 := List.all_eq_true.1 (h1.resolve_left he0) z1 (List.mem_range.2 hz)
  rw [Bool.or_eq_true, decide_eq_true_eq] at h2
  exact List.all_eq_true.1 (h2.resolve_left hz0) t (List.mem_range.2 ht)

end Phenum
