import Verif.Model.Numerics
/-
Model of the enumeration part of phenum/phonons.py.
-/
namespace Phenum

/-- A group operation `[site permutation, arrow permutation]` as used throughout
tree.py/phonons.py (e.g. phonons.py:166-168 `arrow_perm = perm[1]; color_perm = perm[0]`).
Simplification: numpy floats holding integers and `range` objects are lists of naturals. -/
abbrev Op := List Nat × List Nat

/-- One site of a decoration: `[arrow, colour]`, arrow `-1` meaning "no arrow". -/
abbrev Site := Int × Nat

/-- A decorated configuration. -/
abbrev Config := List Site

/-- `_find_concentrations`, phonons.py:9-28, on a list of (non-zero) site entries. The loop counts
the first remaining entry and then zeroes all equal ones; the recursion drops them instead (a zeroed
entry is skipped by the `!= 0` test), which is the same list of counts. -/
def findConcentrations {α : Type} [DecidableEq α] : List α → List Nat
  | [] => []
  | x :: xs => ((x :: xs).count x) :: findConcentrations (xs.filter (fun y => y ≠ x))
termination_by l => l.length
decreasing_by
  simp only [List.length_cons, List.length_unattach]
  exact Nat.lt_succ_of_le (Nat.le_trans (List.length_filter_le _ _) (by simp))

/-- `how_many_arrows`, phonons.py:32-54. -/
def howManyArrows (tcol : Config) : Nat × Nat × List Nat :=
  let st := tcol.foldl (fun (acc : Nat × List Nat) i =>
    if i.1 ≥ 0 then
      (acc.1 + 1, if i.2 ∈ acc.2 then acc.2 else acc.2 ++ [i.2])
    else acc) (0, [])
  (st.1, st.2.length, findConcentrations tcol)

/-- `_ahash`, phonons.py:500-512 (`sum([coloring[i]*dim**i ...])`). -/
def ahash (coloring : List Nat) (dim : Nat) : Nat :=
  ((List.range coloring.length).map (fun i => coloring.getD i 0 * dim ^ i)).sum

/-- Loop of `_ainvhash`, phonons.py:529-532, writing positions `j-1, j-2, ..., 0`
(`j = num_of_arrows - i`). Division by `dim**k` with `dim = 0` cannot be reached for `dim >= 1`. -/
def ainvhashLoop (dim : Nat) : Nat → Nat → List Nat → List Nat
  | 0, _, arrows => arrows
  | j + 1, anum, arrows =>
    let base := dim ^ j
    let d := anum / base
    ainvhashLoop dim j (anum - base * d) (arrows.set j d)

/-- `_ainvhash`, phonons.py:517-533. -/
def ainvhash (anum numArrows dim : Nat) : List Nat :=
  ainvhashLoop dim numArrows anum (List.replicate numArrows 0)

/-- The loops phonons.py:158-164 and 193-197: put the arrow configuration, in order, on the sites
that carry an arrow. -/
def fillArrows : Config → List Nat → Py Config
  | [], _ => .ok []
  | s :: rest, cfg =>
    if s.1 < 0 then do
      let r ← fillArrows rest cfg
      .ok (s :: r)
    else
      match cfg with
      | [] => .error .indexError
      | a :: cfg' => do
        let r ← fillArrows rest cfg'
        .ok (((a : Int), s.2) :: r)

/-- `[arrow_perm[site[0]] for site in l if site[0] >= 0]`, phonons.py:176-177 and 209-210. -/
def permuteArrows (arrowPerm : List Nat) : List Int → Py (List Nat)
  | [] => .ok []
  | a :: rest =>
    if a ≥ 0 then do
      let v ← pyGet arrowPerm a.toNat
      let r ← permuteArrows arrowPerm rest
      .ok (v :: r)
    else permuteArrows arrowPerm rest

/-- phonons.py:172-181: permute the sites, then the arrows, then hash. -/
def permHash (temp : Config) (perm : Op) (dim : Nat) : Py Nat := do
  let sites ← (List.range temp.length).mapM (fun j => do
    let c ← pyGet perm.1 j
    pyGet temp c)
  let arr ← permuteArrows perm.2 (sites.map (·.1))
  .ok (ahash arr dim)

/-- The `for perm in agroup` loop of `add_arrows`, phonons.py:154-184: `False` as soon as some
operation gives a smaller hash. -/
def arrowUnique (col : Config) (arrowConfig : List Nat) (orighash dim : Nat) :
    List Op → Py Bool
  | [] => .ok true
  | perm :: rest => do
    let temp ← fillArrows col arrowConfig
    let permhash ← permHash temp perm dim
    if permhash < orighash then .ok false
    else arrowUnique col arrowConfig orighash dim rest

/-- The superperiodic test of `add_arrows`, phonons.py:200-213 (exhaustive branch). Returns the new
value of `unique`. -/
def arrowNotSuper (coloring : Config) (arrowConfig : List Nat) : List Op → Py Bool
  | [] => .ok true
  | trans :: rest => do
    let action := trans.1
    let permutation := trans.2
    if action ≠ List.range action.length ∨ permutation ≠ List.range permutation.length then
      let origSites := coloring.map (·.2)
      let arrowSites := coloring.map (·.1)
      let permSites : List Nat ← pyGather action origSites
      let rotArrows ← pyGather action arrowSites
      let permArrows : List Nat ← permuteArrows permutation rotArrows
      if origSites = permSites ∧ permArrows = arrowConfig then .ok false
      else arrowNotSuper coloring arrowConfig rest
    else arrowNotSuper coloring arrowConfig rest

/-- The exhaustive loop of `add_arrows`, phonons.py:146-220, over the remaining hash numbers.
`accept = none` is `accept=None`; `accept = some f` gives for each candidate the outcome of
`random() < accept`. -/
def addArrowsLoop (col : Config) (agroup : List Op) (dim : Nat) (translations : List Op)
    (accept : Option (Nat → Bool)) (numWanted : Option Nat) (supers : Bool) (narrows : Nat) :
    List Nat → List Config → Py (List Config)
  | [], surv => .ok surv
  | orighash :: rest, surv => do
    let arrowConfig := ainvhash orighash narrows dim
    let unique ← arrowUnique col arrowConfig orighash dim agroup
    if unique then
      let coloring ← fillArrows col arrowConfig
      let unique ← if supers then pure true else arrowNotSuper coloring arrowConfig translations
      let accepted := match accept with
        | none => true
        | some f => f orighash
      if accepted && unique then
        let surv := surv ++ [coloring]
        if numWanted = some surv.length then .ok surv
        else addArrowsLoop col agroup dim translations accept numWanted supers narrows rest surv
      else addArrowsLoop col agroup dim translations accept numWanted supers narrows rest surv
    else addArrowsLoop col agroup dim translations accept numWanted supers narrows rest surv

/-- `add_arrows` with `small=False`, phonons.py:98-220,307. Progress bars are not modelled. For
`dim = 0` Python's `dim-1` is `-1`; the model is meant for `dim >= 1` (the code always passes 6). -/
def addArrows (col : Config) (agroup : List Op) (dim : Nat) (translations : List Op)
    (accept : Option (Nat → Bool)) (numWanted : Option Nat) (supers : Bool) : Py (List Config) :=
  let narrows := (howManyArrows col).1
  let largest := List.replicate narrows (dim - 1)
  let maxpossible := ahash largest dim
  addArrowsLoop col agroup dim translations accept numWanted supers narrows
    (List.range (maxpossible + 1)) []

end Phenum
