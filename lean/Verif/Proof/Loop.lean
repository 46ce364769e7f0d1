import Verif.Py
/-
Total correctness rule for `pyWhile`.
-/

theorem pyWhile_unfold {S : Type} (cond : S → Bool) (step : S → Py S) (s : S) :
    pyWhile cond step s = if cond s then
      match step s with
      | .error e => some (.error e)
      | .ok s' => pyWhile cond step s'
    else some (.ok s) := by
  rw [pyWhile]; rfl

/-- If every iteration preserves `Inv` without error and decreases `μ`, the loop terminates normally in a
state satisfying `Inv` in which the condition is false. -/
theorem pyWhile_total {S : Type} (cond : S → Bool) (step : S → Py S) (Inv : S → Prop) (μ : S → Nat)
    (hstep : ∀ s, Inv s → cond s = true → ∃ s', step s = .ok s' ∧ Inv s' ∧ μ s' < μ s)
    (s : S) (h : Inv s) :
    ∃ s', pyWhile cond step s = some (.ok s') ∧ Inv s' ∧ cond s' = false := by
  generalize hn : μ s = n
  induction n using Nat.strongRecOn generalizing s with
  | ind n ih =>
    rw [pyWhile_unfold]
    by_cases hc : cond s = true
    · obtain ⟨s', h1, h2, h3⟩ := hstep s h hc
      rw [if_pos hc, h1]
      exact ih (μ s') (by omega) s' h2 rfl
    · rw [if_neg hc]
      exact ⟨s, rfl, h, by simpa using hc⟩
