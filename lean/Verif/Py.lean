/-
Python primitives shared by the model.

Exceptions are values of `PyErr`; `Py α` is the result of a Python call that may raise.
-/

/-- The ways a call in the modelled code can fail. -/
inductive PyErr
  | valueError      -- ValueError (explicit `raise`, or `list.index` of a missing element)
  | indexError      -- IndexError
  | keyError        -- KeyError
  | runtimeError    -- RuntimeError
  | zeroDivision    -- ZeroDivisionError
  | nameError       -- NameError / UnboundLocalError
  | sysExit         -- `exit()`
  | typeError       -- TypeError
  | linAlgError     -- numpy.linalg.LinAlgError
  | ioError         -- IOError / FileNotFoundError
  deriving DecidableEq, Repr

/-- Result of a Python call. -/
abbrev Py := Except PyErr

/-- `l[i]` for a non-negative index. -/
def pyGet {α : Type} (l : List α) (i : Nat) : Py α :=
  match l[i]? with
  | some a => .ok a
  | none => .error .indexError

/-- `l.index(x)`: position of the first occurrence, `ValueError` if absent. -/
def pyIndex (x : Nat) : List Nat → Py Nat
  | [] => .error .valueError
  | a :: l => if a = x then .ok 0 else (pyIndex x l).map (· + 1)

/-- `range(start, stop, -1)` on integers. -/
def pyRangeDown (start stop : Int) : List Int :=
  (List.range (start - stop).toNat).map (fun (j : Nat) => start - (j : Int))

/-- `range(start, stop)` on integers. -/
def pyRange (start stop : Int) : List Int :=
  (List.range (stop - start).toNat).map (fun (j : Nat) => start + (j : Int))

/-- `[l[j] for j in p]`. -/
def pyGather {α : Type} (p : List Nat) (l : List α) : Py (List α) :=
  p.mapM (fun j => pyGet l j)

/-- `l[i] = x` for a non-negative index. -/
def pySet {α : Type} (l : List α) (i : Nat) (x : α) : Py (List α) :=
  if i < l.length then .ok (l.set i x) else .error .indexError

/-- `while cond(s): s = step(s)`.  `none` means the loop does not terminate. -/
def pyWhile {S : Type} (cond : S → Bool) (step : S → Py S) (s : S) : Option (Py S) :=
  if cond s then
    match step s with
    | .error e => some (.error e)
    | .ok s' => pyWhile cond step s'
  else some (.ok s)
partial_fixpoint
