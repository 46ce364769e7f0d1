import Verif.Proof.CellFloat
/-
C70: bringing a point into the cell in double precision.
-/
namespace Phenum
open Spec

/-- C70: for lattice coordinates that are doubles up to 2^53, and a tolerance `eps` (a double up to 1/2), the loop of
`cartesian2direct` terminates if and only if not (the double `1.0-eps` lies below the number `1-eps`, and some coordinate has
a fractional part below `1-eps` that rounds to it). When it terminates, the coordinates are in the half-open cell
`[-eps, 1-eps)`, and each differs from the one given by an integer, up to an error of at most 2^-53. -/
theorem C70_cartesian2direct (fl : ℚ → ℚ) (hfl : RoundsToNearest fl) (eps : ℚ) (he0 : 0 ≤ eps) (he1 : eps ≤ 1 / 2)
    (hed : IsDouble eps) (v : Fin 3 → ℚ) (hd : ∀ i, IsDouble (v i)) (hb : ∀ i, |v i| ≤ 2 ^ 53) :
    ((fl (1 - eps) < 1 - eps ∧ ∃ i, HitsLimit fl eps (v i)) → directLoopF fl eps v = none) ∧
    (¬ (fl (1 - eps) < 1 - eps ∧ ∃ i, HitsLimit fl eps (v i)) →
      ∃ w, directLoopF fl eps v = some (.ok w) ∧ (∀ i, -eps ≤ w i ∧ w i < 1 - eps) ∧
        ∀ i, ∃ z : ℤ, |w i - (v i - z)| ≤ 1 / 2 ^ 53) := by
  constructor
  · rintro ⟨ht, i, hi⟩
    exact directLoopF_none hfl he0 he1 hed ht v i (hd i) (hb i) hi
  · intro h
    refine directLoopF_ok hfl he0 he1 hed v (fun i => ⟨hd i, hb i, ?_⟩)
    by_contra hc
    rw [not_or, not_le, not_not] at hc
    exact h ⟨hc.1, i, hc.2⟩

/-- C70: under the same condition `bring_into_cell` ends without meeting its guard, with lattice coordinates between `-eps`
and `1.0-eps` (as computed) that differ from the ones given by integers, up to 2^-53. -/
theorem C70_bring_into_cell (fl : ℚ → ℚ) (hfl : RoundsToNearest fl) (eps : ℚ) (he0 : 0 ≤ eps) (he1 : eps ≤ 1 / 2)
    (hed : IsDouble eps) (v : Fin 3 → ℚ) (hd : ∀ i, IsDouble (v i)) (hb : ∀ i, |v i| ≤ 2 ^ 53)
    (h : ¬ (fl (1 - eps) < 1 - eps ∧ ∃ i, HitsLimit fl eps (v i))) :
    ∃ c w, wrapLoopF fl eps v = some (.ok (c, w)) ∧ (∀ i, -eps ≤ w i ∧ w i ≤ fl (1 - eps)) ∧
      ∀ i, ∃ z : ℤ, |w i - (v i - z)| ≤ 1 / 2 ^ 53 := by
  refine wrapLoopF_ok hfl he0 he1 hed v (fun i => ⟨hd i, hb i, ?_⟩)
  by_contra hc
  rw [not_or, not_le, not_not] at hc
  exact h ⟨hc.1, i, hc.2⟩

/-- Hypotheses met: a third of the third cell, -0.1 and 7.5, as doubles, with the tolerance 1E-10. -/
example : ∃ w, directLoopF fl53 (fl53 (1 / 10 ^ 10)) ![fl53 (7 / 3), fl53 (-1 / 10), fl53 (15 / 2)] = some (.ok w) := by
  obtain ⟨w, h, -⟩ := (C70_cartesian2direct fl53 fl53_nearest (fl53 (1 / 10 ^ 10)) (by decide +kernel) (by decide +kernel)
    (fl53_nearest _).1 ![fl53 (7 / 3), fl53 (-1 / 10), fl53 (15 / 2)]
    (by intro i; fin_cases i <;> exact (fl53_nearest _).1)
    (by intro i; fin_cases i <;> (simp only [Fin.zero_eta, Fin.mk_one, Fin.reduceFinMk, Matrix.cons_val]; decide +kernel))).2 (by
      rintro ⟨-, i, hi⟩
      have := hi.2
      fin_cases i <;> (simp only [Fin.zero_eta, Fin.mk_one, Fin.reduceFinMk, Matrix.cons_val] at this; revert this; decide +kernel))
  exact ⟨w, h⟩

/-- C70: with the tolerance 1E-10 the loop of `cartesian2direct` does not terminate for the direct coordinate
`1.0-1E-10`, because the double `1.0-1E-10` is below the number; the same holds for the tolerance 1E-3 and the
coordinate 0.999. -/
theorem C70_does_not_end : directLoopF fl53 (fl53 (1 / 10 ^ 10)) ![fl53 (1 - fl53 (1 / 10 ^ 10)), 0, 0] = none ∧
    directLoopF fl53 (fl53 (1 / 10 ^ 3)) ![fl53 (999 / 1000), 0, 0] = none := by
  constructor
  · refine directLoopF_none fl53_nearest (by decide +kernel) (by decide +kernel) (fl53_nearest _).1 (by decide +kernel) _ 0 ?_ ?_ ?_
    · exact (fl53_nearest _).1
    · simp only [Matrix.cons_val]; decide +kernel
    · simp only [Matrix.cons_val]
      constructor <;> decide +kernel
  · refine directLoopF_none fl53_nearest (by decide +kernel) (by decide +kernel) (fl53_nearest _).1 (by decide +kernel) _ 0 ?_ ?_ ?_
    · exact (fl53_nearest _).1
    · simp only [Matrix.cons_val]; decide +kernel
    · simp only [Matrix.cons_val]
      constructor <;> decide +kernel

/-- C70: nor does it for the (even) coordinate `2^53+4`, from which subtracting 1 changes nothing. -/
theorem C70_large_coordinate : directLoopF fl53 (fl53 (1 / 10 ^ 10)) ![2 ^ 53 + 4, 0, 0] = none := by
  unfold directLoopF
  refine pyWhile_never (Inv := fun w => w 0 = 2 ^ 53 + 4) (s := ![2 ^ 53 + 4, 0, 0]) ?_ ?_
  · intro w hw
    refine ⟨?_, _, rfl, ?_⟩
    · rw [decide_eq_true_eq]
      left
      rw [hw]
      decide +kernel
    · show directStepF fl53 (fl53 (1 / 10 ^ 10)) (w 0) = _
      rw [hw]
      decide +kernel
  · simp

/-- C70: `bring_into_cell` stops the program with its message "loop does not end" for the lattice coordinates
`(1.0-1E-10, -(1.0-(1.0-1E-10)), 0)`. -/
theorem C70_bring_exits : wrapLoopF fl53 (fl53 (1 / 10 ^ 10))
    ![fl53 (1 - fl53 (1 / 10 ^ 10)), fl53 (1 - fl53 (1 / 10 ^ 10)) - 1, 0] = some (.error .sysExit) := by
  have hm : max ⌈|max3 ![fl53 (1 - fl53 (1 / 10 ^ 10)), fl53 (1 - fl53 (1 / 10 ^ 10)) - 1, 0]|⌉
      ⌈|min3 ![fl53 (1 - fl53 (1 / 10 ^ 10)), fl53 (1 - fl53 (1 / 10 ^ 10)) - 1, 0]|⌉ * 2 = 2 := by decide +kernel
  have s1 : (fun i => wrapStepF fl53 (fl53 (1 / 10 ^ 10))
      ((![fl53 (1 - fl53 (1 / 10 ^ 10)), fl53 (1 - fl53 (1 / 10 ^ 10)) - 1, 0] : Fin 3 → ℚ) i))
      = ![fl53 (1 - fl53 (1 / 10 ^ 10)) - 1, fl53 (1 - fl53 (1 / 10 ^ 10)), 0] := by
    funext i
    fin_cases i <;> (simp only [Fin.zero_eta, Fin.mk_one, Fin.reduceFinMk, Matrix.cons_val]; decide +kernel)
  have s2 : (fun i => wrapStepF fl53 (fl53 (1 / 10 ^ 10))
      ((![fl53 (1 - fl53 (1 / 10 ^ 10)) - 1, fl53 (1 - fl53 (1 / 10 ^ 10)), 0] : Fin 3 → ℚ) i))
      = ![fl53 (1 - fl53 (1 / 10 ^ 10)), fl53 (1 - fl53 (1 / 10 ^ 10)) - 1, 0] := by
    funext i
    fin_cases i <;> (simp only [Fin.zero_eta, Fin.mk_one, Fin.reduceFinMk, Matrix.cons_val]; decide +kernel)
  have c1 : fl53 (1 - fl53 (1 / 10 ^ 10)) - 1 < fl53 (0 - fl53 (1 / 10 ^ 10)) := by decide +kernel
  unfold wrapLoopF
  simp only [hm]
  generalize fl53 (1 / 10 ^ 10) = e at *
  generalize fl53 (1 - e) = t at *
  rw [pyWhile_unfold, if_pos (by rw [decide_eq_true_eq]; exact Or.inr (Or.inr (Or.inr (Or.inr (Or.inl c1)))))]
  simp only [s1]
  rw [if_neg (by norm_num)]
  simp only
  rw [pyWhile_unfold,
    if_pos (by rw [decide_eq_true_eq]; exact Or.inr (Or.inr (Or.inr (Or.inl c1))))]
  simp only [s2]
  rw [if_neg (by norm_num)]
  simp only
  rw [pyWhile_unfold,
    if_pos (by rw [decide_eq_true_eq]; exact Or.inr (Or.inr (Or.inr (Or.inr (Or.inl c1)))))]
  simp only
  rw [if_pos (by norm_num)]

end Phenum
