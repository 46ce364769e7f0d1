import Verif.Proof.SnfFuel
import Verif.Model.HNF
import Verif.Model.RealSpace
/-
Evaluation of the Smith normal form in the kernel: the matrices are evaluated at every step. Used to check all supercells of at most seven cells.
-/
namespace Phenum

/-- evaluates the number before going on -/
def forceNat {α : Type} (n : ℕ) (k : ℕ → α) : α := Nat.rec (k 0) (fun m _ => k (m + 1)) n

theorem forceNat_eq {α : Type} (n : ℕ) (k : ℕ → α) : forceNat n k = k n := by cases n <;> rfl

/-- evaluates the integer before going on -/
def forceInt {α : Type} (z : ℤ) (k : ℤ → α) : α :=
  match z with
  | .ofNat n => forceNat n (fun m => k (Int.ofNat m))
  | .negSucc n => forceNat n (fun m => k (Int.negSucc m))

theorem forceInt_eq {α : Type} (z : ℤ) (k : ℤ → α) : forceInt z k = k z := by
  cases z with
  | ofNat n => exact forceNat_eq n (fun m => k (Int.ofNat m))
  | negSucc n => exact forceNat_eq n (fun m => k (Int.negSucc m))

/-- evaluates the entries of the matrix before going on -/
def forceMat {α : Type} (X : Matrix (Fin 3) (Fin 3) ℤ) (k : Matrix (Fin 3) (Fin 3) ℤ → α) : α :=
  forceInt (X 0 0) fun a => forceInt (X 0 1) fun b => forceInt (X 0 2) fun c =>
  forceInt (X 1 0) fun d => forceInt (X 1 1) fun e => forceInt (X 1 2) fun f =>
  forceInt (X 2 0) fun g => forceInt (X 2 1) fun h => forceInt (X 2 2) fun i =>
    k !![a, b, c; d, e, f; g, h, i]

theorem forceMat_eq {α : Type} (X : Matrix (Fin 3) (Fin 3) ℤ) (k : Matrix (Fin 3) (Fin 3) ℤ → α) : forceMat X k = k X := by
  unfold forceMat
  simp only [forceInt_eq]
  congr 1
  ext i j; fin_cases i <;> fin_cases j <;> rfl

/-- evaluates the entries of the three matrices before going on -/
def forceState {α : Type} (s : SnfState) (k : SnfState → α) : α :=
  forceMat s.M fun M => forceMat s.A fun A => forceMat s.B fun B => k ⟨M, A, B⟩

theorem forceState_eq {α : Type} (s : SnfState) (k : SnfState → α) : forceState s k = k s := by
  unfold forceState
  simp only [forceMat_eq]

/-- `whileFuel` -/
def whileForce (cond : SnfState → Bool) (step : SnfState → Py SnfState) : ℕ → SnfState → Option (Py SnfState)
  | 0, _ => none
  | n + 1, s => forceState s fun s => if cond s then (match step s with
      | .error e => some (.error e)
      | .ok s' => whileForce cond step n s') else some (.ok s)

theorem whileForce_eq (cond : SnfState → Bool) (step : SnfState → Py SnfState) (n : ℕ) (s : SnfState) :
    whileForce cond step n s = whileFuel cond step n s := by
  induction n generalizing s with
  | zero => rfl
  | succ n ih =>
    rw [whileForce, whileFuel, forceState_eq]
    by_cases hc : cond s = true
    · rw [if_pos hc, if_pos hc]
      cases hs : step s with
      | error e => rfl
      | ok s' => exact ih s'
    · rw [if_neg hc, if_neg hc]

/-- `snfIterFuel` -/
def snfIterForce (n : ℕ) (H : Matrix (Fin 3) (Fin 3) ℤ) (j : Fin 3) (s : SnfState) : Option (Py SnfNext) :=
  match whileForce (fun s : SnfState => decide (1 < nzCount (fun i => s.M i j))) (snfRowStep H j) n s with
  | none => none
  | some (.error e) => some (.error e)
  | some (.ok s1) =>
    match snfRowSwap H j s1 with
    | .error e => some (.error e)
    | .ok s2 =>
      match whileForce (fun s : SnfState => decide (1 < nzCount (fun k => s.M j k))) (snfColStep H j) n s2 with
      | none => none
      | some (.error e) => some (.error e)
      | some (.ok s3) => some (snfAfterCols H j s3)

theorem snfIterForce_eq (n : ℕ) (H : Matrix (Fin 3) (Fin 3) ℤ) (j : Fin 3) (s : SnfState) : snfIterForce n H j s = snfIterFuel n H j s := by
  unfold snfIterForce snfIterFuel
  rw [whileForce_eq]
  rcases whileFuel (fun s : SnfState => decide (1 < nzCount (fun i => s.M i j))) (snfRowStep H j) n s with _ | _ | s1
  · rfl
  · rfl
  · simp only
    rcases snfRowSwap H j s1 with _ | s2
    · rfl
    · simp only
      rw [whileForce_eq]
      rcases whileFuel (fun s : SnfState => decide (1 < nzCount (fun k => s.M j k))) (snfColStep H j) n s2 with _ | _ | s3 <;> rfl

/-- `snfLoopFuel` -/
def snfLoopForce (n : ℕ) (H : Matrix (Fin 3) (Fin 3) ℤ) : Nat → Fin 3 → SnfState → Option (Py SnfState)
  | 0, _, _ => some (.error .runtimeError)
  | fuel + 1, j, s =>
    match snfIterForce n H j s with
    | none => none
    | some (.error e) => some (.error e)
    | some (.ok (none, s')) => forceState s' fun s' => some (.ok s')
    | some (.ok (some j', s')) => snfLoopForce n H fuel j' s'

theorem snfLoopForce_eq (n : ℕ) (H : Matrix (Fin 3) (Fin 3) ℤ) (fuel : ℕ) (j : Fin 3) (s : SnfState) :
    snfLoopForce n H fuel j s = snfLoopFuel n H fuel j s := by
  induction fuel generalizing j s with
  | zero => rfl
  | succ fuel ih =>
    rw [snfLoopForce, snfLoopFuel, snfIterForce_eq]
    rcases snfIterFuel n H j s with _ | _ | ⟨_ | j', s'⟩
    · rfl
    · rfl
    · exact forceState_eq s' _
    · exact ih j' s'

/-- `snfFuel`, with the entries of the matrices evaluated at every step -/
def snfForce (n : ℕ) (H : Matrix (Fin 3) (Fin 3) ℤ) : Option (Py SnfState) :=
  if H.det < 1 then some (.error .valueError)
  else
    match snfLoopForce n H 99 0 { M := H, A := 1, B := 1 } with
    | none => none
    | some (.error e) => some (.error e)
    | some (.ok s) => some (snfFinish H s)

theorem snfForce_eq (n : ℕ) (H : Matrix (Fin 3) (Fin 3) ℤ) : snfForce n H = snfFuel n H := by
  unfold snfForce snfFuel
  rw [snfLoopForce_eq]
  split
  · rfl
  · rcases snfLoopFuel n H 99 0 { M := H, A := 1, B := 1 } with _ | _ | s <;> rfl


/-- the number fits into the column of the left transform -/
def inCols (z : ℤ) : Bool := decide (-1000 < z) && decide (z < 10000)

/-- the check of one supercell -/
def cellCheck (n : ℕ) (H : Matrix (Fin 3) (Fin 3) ℤ) : Bool := forceMat H fun H =>
  decide ((interiorPoints (H 0 0) (H 1 0) (H 1 1) (H 2 0) (H 2 1) (H 2 2)).length = n) && (match snfForce 20 H with
    | some (.ok s) => inCols (s.A 0 0) && inCols (s.A 0 1) && inCols (s.A 0 2) && inCols (s.A 1 0) && inCols (s.A 1 1) && inCols (s.A 1 2) &&
       inCols (s.A 2 0) && inCols (s.A 2 1) && inCols (s.A 2 2)
    | _ => false)

theorem cellCheck_all : (List.range' 1 7).all (fun n => (findAllHNFs n).all (fun H => cellCheck n H)) = true := by decide +kernel

/-- Every supercell of at most seven cells: its left transform fits into the columns of enum.out, and its points are all found. -/
theorem small_cell_data {n : ℕ} (h1 : 1 ≤ n) (h7 : n ≤ 7) {u : Matrix (Fin 3) (Fin 3) ℤ} (hu : u ∈ findAllHNFs n) {s : SnfState}
    (hs : smithNormalForm u = some (.ok s)) :
    (∀ i j, -1000 < s.A i j ∧ s.A i j < 10000) ∧ (interiorPoints (u 0 0) (u 1 0) (u 1 1) (u 2 0) (u 2 1) (u 2 2)).length = n := by
  have h := List.all_eq_true.mp (List.all_eq_true.mp cellCheck_all n (List.mem_range'_1.mpr (by omega))) u hu
  unfold cellCheck at h
  rw [forceMat_eq, Bool.and_eq_true, decide_eq_true_eq] at h
  refine ⟨?_, h.1⟩
  have h := h.2
  rw [snfForce_eq] at h
  cases hf : snfFuel 20 u with
  | none => rw [hf] at h; exact absurd h (by simp)
  | some r =>
    have e := snfFuel_eq _ _ _ hf
    rw [hs] at e
    rw [hf, ← Option.some.inj e] at h
    simp only [inCols, Bool.and_eq_true, decide_eq_true_eq] at h
    intro i j
    fin_cases i <;> fin_cases j <;> simp only [Fin.zero_eta, Fin.mk_one, Fin.reduceFinMk] <;> tauto

end Phenum
