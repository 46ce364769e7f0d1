import Verif.Py
import Mathlib.LinearAlgebra.Matrix.NonsingularInverse
import Mathlib.LinearAlgebra.Matrix.Notation
/-
Model of `SmithNormalForm` of phenum/grouptheory.py.

Simplifications: the input is an integer matrix and its determinant is computed exactly (the code uses
`numpy.linalg.det` on floats); numpy's `dot` in the self-checks is exact integer arithmetic.
-/
namespace Phenum

/-- The three matrices `M`, `A`, `B` updated by the routine, grouptheory.py:289-299. -/
structure SnfState where
  M : Matrix (Fin 3) (Fin 3) ℤ
  A : Matrix (Fin 3) (Fin 3) ℤ
  B : Matrix (Fin 3) (Fin 3) ℤ

/-- `3 - v.count(0)`: number of non-zero entries, grouptheory.py:310, 333, 360. -/
def nzCount (v : Fin 3 → ℤ) : Nat := 3 - [v 0, v 1, v 2].count 0

/-- `vec.index(x)` on a vector of three numbers: first position. -/
def firstIdx (v : Fin 3 → ℤ) (m : ℕ) : Py (Fin 3) :=
  if (v 0).natAbs = m then .ok 0
  else if (v 1).natAbs = m then .ok 1
  else if (v 2).natAbs = m then .ok 2
  else .error .valueError

/-- `2 - rvec.index(x)` on the reversed vector: last position. -/
def lastIdx (v : Fin 3 → ℤ) (m : ℕ) : Py (Fin 3) :=
  if (v 2).natAbs = m then .ok 2
  else if (v 1).natAbs = m then .ok 1
  else if (v 0).natAbs = m then .ok 0
  else .error .valueError

/-- `max` of the absolute values. -/
def maxAbs (v : Fin 3 → ℤ) : ℕ := max (max (v 0).natAbs (v 1).natAbs) (v 2).natAbs

/-- `min([i for i in vec if i > 0])`; `min` of an empty list raises ValueError. -/
def minPosAbs (v : Fin 3 → ℤ) : Py ℕ :=
  match ([(v 0).natAbs, (v 1).natAbs, (v 2).natAbs].filter (fun i => 0 < i)).min? with
  | some m => .ok m
  | none => .error .valueError

/-- `_find_minmax_indices`, grouptheory.py:245-265. -/
def findMinMax (v : Fin 3 → ℤ) : Py (Fin 3 × Fin 3) := do
  let mn ← minPosAbs v
  let a ← firstIdx v mn
  let b ← lastIdx v (maxAbs v)
  .ok (a, b)

/-- `X.any()`. -/
def matAny (X : Matrix (Fin 3) (Fin 3) ℤ) : Bool := (List.finRange 3).any fun i => (List.finRange 3).any fun k => decide (X i k ≠ 0)

/-- The self-checks `dot(dot(A,HNF),B).any() != np.array(M).any()` followed by `exit()`,
grouptheory.py:317-319, 329-331, 342-344, 362-364, 398-400. -/
def snfCheck (H : Matrix (Fin 3) (Fin 3) ℤ) (s : SnfState) : Py SnfState :=
  if matAny (s.A * H * s.B) ≠ matAny s.M then .error .sysExit else .ok s

/-- `X[a] = X[a] - mult*X[b]` (rows), grouptheory.py:315-316. -/
def rowSub (a b : Fin 3) (mult : ℤ) (X : Matrix (Fin 3) (Fin 3) ℤ) : Matrix (Fin 3) (Fin 3) ℤ :=
  fun i k => if i = a then X a k - mult * X b k else X i k

/-- `X[i][a] = X[i][a] - mult*X[i][b]` for the three rows, grouptheory.py:338-340. -/
def colSub (a b : Fin 3) (mult : ℤ) (X : Matrix (Fin 3) (Fin 3) ℤ) : Matrix (Fin 3) (Fin 3) ℤ :=
  fun i k => if k = a then X i a - mult * X i b else X i k

/-- Exchange of rows `j` and `k`, grouptheory.py:322-328. -/
def rowSwap (j k : Fin 3) (X : Matrix (Fin 3) (Fin 3) ℤ) : Matrix (Fin 3) (Fin 3) ℤ :=
  fun i l => if i = k then X j l else if i = j then X k l else X i l

/-- Exchange of columns `j` and `k`, grouptheory.py:352-358. -/
def colSwap (j k : Fin 3) (X : Matrix (Fin 3) (Fin 3) ℤ) : Matrix (Fin 3) (Fin 3) ℤ :=
  fun i l => if l = k then X i j else if l = j then X i k else X i l

/-- `X[i][j] = -X[i][j]` for the three rows, grouptheory.py:347-349, 394-396. -/
def colNeg (j : Fin 3) (X : Matrix (Fin 3) (Fin 3) ℤ) : Matrix (Fin 3) (Fin 3) ℤ :=
  fun i l => if l = j then - X i j else X i l

/-- Body of the row loop, grouptheory.py:310-319. -/
def snfRowStep (H : Matrix (Fin 3) (Fin 3) ℤ) (j : Fin 3) (s : SnfState) : Py SnfState := do
  let (mn, mx) ← findMinMax (fun i => s.M i j)
  if s.M mn j = 0 then .error .zeroDivision else
  let mult := Int.fdiv (s.M mx j) (s.M mn j)
  snfCheck H { s with M := rowSub mx mn mult s.M, A := rowSub mx mn mult s.A }

/-- The row loop `while`, grouptheory.py:310-319. -/
def snfRows (H : Matrix (Fin 3) (Fin 3) ℤ) (j : Fin 3) : SnfState → Option (Py SnfState) :=
  pyWhile (fun s => decide (1 < nzCount (fun i => s.M i j))) (snfRowStep H j)

/-- The row exchange, grouptheory.py:320-331. -/
def snfRowSwap (H : Matrix (Fin 3) (Fin 3) ℤ) (j : Fin 3) (s : SnfState) : Py SnfState := do
  let s' ← (if s.M j j = 0 then do
      let k ← firstIdx (fun i => s.M i j) (maxAbs (fun i => s.M i j))
      .ok { s with M := rowSwap j k s.M, A := rowSwap j k s.A }
    else .ok s)
  snfCheck H s'

/-- Body of the column loop, grouptheory.py:333-344. -/
def snfColStep (H : Matrix (Fin 3) (Fin 3) ℤ) (j : Fin 3) (s : SnfState) : Py SnfState := do
  let (mn, mx) ← findMinMax (fun k => s.M j k)
  if s.M j mn = 0 then .error .zeroDivision else
  let mult := Int.fdiv (s.M j mx) (s.M j mn)
  snfCheck H { s with M := colSub mx mn mult s.M, B := colSub mx mn mult s.B }

/-- The column loop `while`, grouptheory.py:333-344. -/
def snfCols (H : Matrix (Fin 3) (Fin 3) ℤ) (j : Fin 3) : SnfState → Option (Py SnfState) :=
  pyWhile (fun s => decide (1 < nzCount (fun k => s.M j k))) (snfColStep H j)

/-- Sign change or column exchange, grouptheory.py:346-358. -/
def snfColFix (j : Fin 3) (s : SnfState) : Py SnfState :=
  if s.M j j < 0 then .ok { s with M := colNeg j s.M, B := colNeg j s.B }
  else if s.M j j = 0 then do
    let k ← firstIdx (fun k => s.M j k) (maxAbs (fun k => s.M j k))
    .ok { s with M := colSwap j k s.M, B := colSwap j k s.B }
  else .ok s

/-- How an iteration of the outer loop ends: `continue` with a new `j` (`some j`) or `stop_loop = True` (`none`). -/
abbrev SnfNext := Option (Fin 3) × SnfState

/-- The end of the body of the outer loop, after row and column `j` are found clean, grouptheory.py:366-391. -/
def snfTail (j : Fin 3) (s : SnfState) : Py SnfNext :=
  let m := s.M
  if m 0 0 = 0 then .error .zeroDivision else
  let r := fun i k => Int.fmod (m i k) (m 0 0)
  if j = 0 ∧ ¬(r 1 1 = 0 ∧ r 1 2 = 0 ∧ r 2 1 = 0 ∧ r 2 2 = 0) then
    -- `local.index(max(local))` with Python's lexicographic order on the two rows
    let k : Fin 3 := if (r 1 1).natAbs < (r 2 1).natAbs ∨
        ((r 1 1).natAbs = (r 2 1).natAbs ∧ (r 1 2).natAbs < (r 2 2).natAbs) then 2 else 1
    .ok (some 0, { s with M := rowSub 0 k (-1) s.M, A := rowSub 0 k (-1) s.A })
  else if j = 1 ∧ m 1 1 = 0 then .error .zeroDivision
  else if j = 1 ∧ Int.fmod (m 2 2) (m 1 1) ≠ 0 then
    .ok (some 1, { s with M := rowSub 1 2 (-1) s.M, A := rowSub 1 2 (-1) s.A })
  else if j ≠ 1 then .ok (some 1, s)
  else if m 2 1 ≠ 0 ∨ m 1 2 ≠ 0 then .ok (some 1, s)
  else .ok (none, s)

/-- The part of the body of the outer loop after the column loop, grouptheory.py:346-391. -/
def snfAfterCols (H : Matrix (Fin 3) (Fin 3) ℤ) (j : Fin 3) (s : SnfState) : Py SnfNext := do
  let s ← snfColFix j s
  if 1 < nzCount (fun k => s.M j k) ∨ 1 < nzCount (fun i => s.M i j) then .ok (some j, s)
  else do
    let s ← snfCheck H s
    snfTail j s

/-- One iteration of the outer loop, grouptheory.py:306-391. -/
def snfIter (H : Matrix (Fin 3) (Fin 3) ℤ) (j : Fin 3) (s : SnfState) : Option (Py SnfNext) :=
  match snfRows H j s with
  | none => none
  | some (.error e) => some (.error e)
  | some (.ok s1) =>
    match snfRowSwap H j s1 with
    | .error e => some (.error e)
    | .ok s2 =>
      match snfCols H j s2 with
      | none => none
      | some (.error e) => some (.error e)
      | some (.ok s3) => some (snfAfterCols H j s3)

/-- The outer loop with `fuel` iterations left before `it_cnt` reaches 100, grouptheory.py:301-391. -/
def snfLoop (H : Matrix (Fin 3) (Fin 3) ℤ) : Nat → Fin 3 → SnfState → Option (Py SnfState)
  | 0, _, _ => some (.error .runtimeError)
  | fuel + 1, j, s =>
    match snfIter H j s with
    | none => none
    | some (.error e) => some (.error e)
    | some (.ok (none, s')) => some (.ok s')
    | some (.ok (some j', s')) => snfLoop H fuel j' s'

/-- After the loop: the last sign and the final checks, grouptheory.py:393-409. -/
def snfFinish (H : Matrix (Fin 3) (Fin 3) ℤ) (s : SnfState) : Py SnfState := do
  let s := if s.M 2 2 < 0 then { s with M := colNeg 2 s.M, B := colNeg 2 s.B } else s
  let s ← snfCheck H s
  if s.M 0 1 ≠ 0 ∨ s.M 0 2 ≠ 0 ∨ s.M 1 0 ≠ 0 ∨ s.M 1 2 ≠ 0 ∨ s.M 2 0 ≠ 0 ∨ s.M 2 1 ≠ 0 then .error .sysExit
  else if s.M 0 0 = 0 then .error .zeroDivision
  else if Int.fmod (s.M 1 1) (s.M 0 0) ≠ 0 then .error .sysExit
  else if s.M 1 1 = 0 then .error .zeroDivision
  else if Int.fmod (s.M 2 2) (s.M 1 1) ≠ 0 then .error .sysExit
  else .ok s

/-- `SmithNormalForm`, grouptheory.py:267-409. `none` means that it does not terminate. -/
def smithNormalForm (H : Matrix (Fin 3) (Fin 3) ℤ) : Option (Py SnfState) :=
  if H.det < 1 then some (.error .valueError)
  else
    match snfLoop H 99 0 { M := H, A := 1, B := 1 } with
    | none => none
    | some (.error e) => some (.error e)
    | some (.ok s) => some (snfFinish H s)

end Phenum
