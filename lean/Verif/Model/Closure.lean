import Verif.Model.Phonons
/-
Model of the routines that build a group from generators: `group` of phenum/polyaburnside.py, `a_group`, `_group` and
`a_group_gen` of phenum/grouptheory.py.

The loops of `group` and `_group` are the same up to the element type, the product `ap` and the choice of the second
generator; they are written once with these as parameters.
-/
namespace Phenum

section
variable {α : Type} [DecidableEq α]

/-- `if x not in l: l.append(x)`. -/
def addNew (l : List α) (x : α) : List α := if x ∈ l then l else l ++ [x]

/-- The loop `while d != c`, polyaburnside.py:386-387 and grouptheory.py:870-878: `d` is replaced by `ap i d` and
recorded. -/
def orbitLoop (ap : α → α → Py α) (i c : α) : α × List α → Option (Py (α × List α)) :=
  pyWhile (fun s => decide (s.1 ≠ c)) (fun s => do
    let d ← ap i s.1
    .ok (d, addNew s.2 d))

/-- The body of the double loop over the generators, polyaburnside.py:384-387 and grouptheory.py:847-878. -/
def pairStep (ap : α → α → Py α) (i j : α) (groupi : List α) : Option (Py (List α)) :=
  match ap i j with
  | .error e => some (.error e)
  | .ok c =>
    match ap i c with
    | .error e => some (.error e)
    | .ok d =>
      match orbitLoop ap i c (d, addNew (addNew groupi c) d) with
      | none => none
      | some (.error e) => some (.error e)
      | some (.ok s) => some (.ok s.2)

/-- The double loop over the listed pairs of generators. -/
def pairLoop (ap : α → α → Py α) : List (α × α) → List α → Option (Py (List α))
  | [], g => some (.ok g)
  | (i, j) :: rest, g =>
    match pairStep ap i j g with
    | none => none
    | some (.error e) => some (.error e)
    | some (.ok g') => pairLoop ap rest g'

/-- The double loop that collects `group2`, polyaburnside.py:391-395 and grouptheory.py:889-900, over the pairs
(generator, element). -/
def newElems (ap : α → α → Py α) (groupi : List α) : List (α × α) → List α → Py (List α)
  | [], group2 => .ok group2
  | (i, h) :: rest, group2 => do
    let d ← ap i h
    newElems ap groupi rest (if d ∉ groupi ∧ d ∉ group2 then group2 ++ [d] else group2)

/-- The loop that applies the generators until nothing new is found, polyaburnside.py:389-401 and
grouptheory.py:885-905. The flag says whether the loop goes on. -/
def closeLoop (ap : α → α → Py α) (gens : List α) : Bool × List α → Option (Py (Bool × List α)) :=
  pyWhile (fun s => s.1) (fun s => do
    let group2 ← newElems ap s.2 (gens.flatMap (fun i => s.2.map (fun h => (i, h)))) []
    .ok (!group2.isEmpty, s.2 ++ group2))

/-- Both phases. -/
def closeUp (ap : α → α → Py α) (gens : List α) (pairs : List (α × α)) : Option (Py (List α)) :=
  match pairLoop ap pairs [] with
  | none => none
  | some (.error e) => some (.error e)
  | some (.ok g) =>
    match closeLoop ap gens (true, g) with
    | none => none
    | some (.error e) => some (.error e)
    | some (.ok s) => some (.ok s.2)

end

/-- `list(iget(*operations)(source))`, polyaburnside.py:371: `itemgetter` needs an argument, and with a single one
returns the item itself, which is not a list (TypeError). -/
def igetApply (op source : List Nat) : Py (List Nat) :=
  if op.length < 2 then .error .typeError else pyGather op source

/-- `group`, polyaburnside.py:349-402. -/
def groupOf (gen : List (List Nat)) : Option (Py (List (List Nat))) :=
  match gen with
  | [] => some (.error .indexError)
  | g0 :: _ =>
    let ngens := if 0 ∈ g0 then gen else gen.map (fun g => g.map (· - 1))
    closeUp igetApply ngens (ngens.flatMap (fun i => ngens.map (fun j => (i, j))))

/-- `[[j[0][i[0][l]] ...], [j[1][i[1][l]] ...]]`, grouptheory.py:849-850 and the like. -/
def opApply (i j : Op) : Py Op := do
  let t ← pyGather i.1 j.1
  let r ← pyGather i.2 j.2
  .ok (t, r)

/-- `_group`, grouptheory.py:820-907: the second generator runs over those different from the first. -/
def opGroupOf (gen : List Op) : Option (Py (List Op)) :=
  closeUp opApply gen (gen.flatMap (fun i => (gen.filter (fun k => k ≠ i)).map (fun j => (i, j))))

/-- `a_group`, grouptheory.py:766-790: the double loop. -/
def aGroupLoop : List (List Nat × Op) → List Op → Py (List Op)
  | [], g => .ok g
  | (i, j) :: rest, g => do
    let s ← pyGather i j.1
    aGroupLoop rest (addNew g (s, j.2))

/-- `a_group`, grouptheory.py:766-790. -/
def aGroup (trans : List (List Nat)) (rots : List Op) : Py (List Op) :=
  aGroupLoop (trans.flatMap (fun i => rots.map (fun j => (i, j)))) []

/-- `a_group_gen`, grouptheory.py:792-818. -/
def aGroupGen (trans : List (List Nat)) (rots : List Op) : Option (Py (List Op)) :=
  match aGroup trans rots with
  | .error e => some (.error e)
  | .ok g => opGroupOf g

end Phenum
