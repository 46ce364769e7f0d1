import Verif.Model.SNF
import Verif.Proof.Loop
/-
The Smith normal form algorithm with a bound on the iterations of its inner loops: whenever it succeeds, it gives the
result of `smithNormalForm`. Used to compute concrete cases.
-/
namespace Phenum

/-- `pyWhile` with at most `n` iterations. -/
def whileFuel {S : Type} (cond : S → Bool) (step : S → Py S) : ℕ → S → Option (Py S)
  | 0, _ => none
  | n + 1, s => if cond s then (match step s with
      | .error e => some (.error e)
      | .ok s' => whileFuel cond step n s') else some (.ok s)

theorem whileFuel_eq {S : Type} (cond : S → Bool) (step : S → Py S) (n : ℕ) (s : S) (r : Py S) (h : whileFuel cond step n s = some r) :
    pyWhile cond step s = some r := by
  induction n generalizing s with
  | zero => exact absurd h (by simp [whileFuel])
  | succ n ih =>
    rw [pyWhile_unfold]
    rw [whileFuel] at h
    by_cases hc : cond s = true
    · rw [if_pos hc] at h ⊢
      cases hs : step s with
      | error e => rw [hs] at h; exact h
      | ok s' => rw [hs] at h; exact ih s' h
    · rw [if_neg hc] at h ⊢
      exact h

/-- `snfIter` with bounded loops. -/
def snfIterFuel (n : ℕ) (H : Matrix (Fin 3) (Fin 3) ℤ) (j : Fin 3) (s : SnfState) : Option (Py SnfNext) :=
  match whileFuel (fun s : SnfState => decide (1 < nzCount (fun i => s.M i j))) (snfRowStep H j) n s with
  | none => none
  | some (.error e) => some (.error e)
  | some (.ok s1) =>
    match snfRowSwap H j s1 with
    | .error e => some (.error e)
    | .ok s2 =>
      match whileFuel (fun s : SnfState => decide (1 < nzCount (fun k => s.M j k))) (snfColStep H j) n s2 with
      | none => none
      | some (.error e) => some (.error e)
      | some (.ok s3) => some (snfAfterCols H j s3)

theorem snfIterFuel_eq (n : ℕ) (H : Matrix (Fin 3) (Fin 3) ℤ) (j : Fin 3) (s : SnfState) (r : Py SnfNext) (h : snfIterFuel n H j s = some r) :
    snfIter H j s = some r := by
  unfold snfIterFuel at h
  unfold snfIter snfRows snfCols
  cases h1 : whileFuel (fun s : SnfState => decide (1 < nzCount (fun i => s.M i j))) (snfRowStep H j) n s with
  | none => rw [h1] at h; exact absurd h (by simp)
  | some r1 =>
    rw [whileFuel_eq _ _ _ _ _ h1]
    rw [h1] at h
    cases r1 with
    | error e => exact h
    | ok s1 =>
      simp only at h ⊢
      cases h2 : snfRowSwap H j s1 with
      | error e => rw [h2] at h; exact h
      | ok s2 =>
        rw [h2] at h
        simp only at h ⊢
        cases h3 : whileFuel (fun s : SnfState => decide (1 < nzCount (fun k => s.M j k))) (snfColStep H j) n s2 with
        | none => rw [h3] at h; exact absurd h (by simp)
        | some r3 =>
          rw [whileFuel_eq _ _ _ _ _ h3]
          rw [h3] at h
          exact h

/-- `snfLoop` with bounded inner loops. -/
def snfLoopFuel (n : ℕ) (H : Matrix (Fin 3) (Fin 3) ℤ) : Nat → Fin 3 → SnfState → Option (Py SnfState)
  | 0, _, _ => some (.error .runtimeError)
  | fuel + 1, j, s =>
    match snfIterFuel n H j s with
    | none => none
    | some (.error e) => some (.error e)
    | some (.ok (none, s')) => some (.ok s')
    | some (.ok (some j', s')) => snfLoopFuel n H fuel j' s'

theorem snfLoopFuel_eq (n : ℕ) (H : Matrix (Fin 3) (Fin 3) ℤ) (fuel : ℕ) (j : Fin 3) (s : SnfState) (r : Py SnfState)
    (h : snfLoopFuel n H fuel j s = some r) : snfLoop H fuel j s = some r := by
  induction fuel generalizing j s with
  | zero => exact h
  | succ fuel ih =>
    rw [snfLoopFuel] at h
    rw [snfLoop]
    cases h1 : snfIterFuel n H j s with
    | none => rw [h1] at h; exact absurd h (by simp)
    | some r1 =>
      rw [snfIterFuel_eq _ _ _ _ _ h1]
      rw [h1] at h
      match r1, h with
      | .error e, h => exact h
      | .ok (none, s'), h => exact h
      | .ok (some j', s'), h => exact ih j' s' h

/-- `smithNormalForm` with bounded inner loops. -/
def snfFuel (n : ℕ) (H : Matrix (Fin 3) (Fin 3) ℤ) : Option (Py SnfState) :=
  if H.det < 1 then some (.error .valueError)
  else
    match snfLoopFuel n H 99 0 { M := H, A := 1, B := 1 } with
    | none => none
    | some (.error e) => some (.error e)
    | some (.ok s) => some (snfFinish H s)

theorem snfFuel_eq (n : ℕ) (H : Matrix (Fin 3) (Fin 3) ℤ) (r : Py SnfState) (h : snfFuel n H = some r) : smithNormalForm H = some r := by
  unfold snfFuel at h
  unfold smithNormalForm
  by_cases hd : H.det < 1
  · rw [if_pos hd] at h ⊢; exact h
  · rw [if_neg hd] at h ⊢
    cases h1 : snfLoopFuel n H 99 0 { M := H, A := 1, B := 1 } with
    | none => rw [h1] at h; exact absurd h (by simp)
    | some r1 =>
      rw [snfLoopFuel_eq _ _ _ _ _ _ h1]
      rw [h1] at h
      exact h

end Phenum
