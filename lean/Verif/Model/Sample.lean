import Verif.Model.Tree
import Verif.Model.Polya
import Verif.Model.Decorate
/-
Model of the random sampling in phenum/phonons.py (`add_arrows` with `small=True`), phenum/tree.py
(`guess_and_check_brancher`) and of `enum_sys`.

The numbers that the random module returns are inputs of the model: a sequence of draws.
-/
namespace Phenum

/-- `while cond(s): s = step(s)` where the body itself may fail to terminate (`none`). -/
def pyWhileO {S : Type} (cond : S → Bool) (step : S → Option (Py S)) (s : S) : Option (Py S) :=
  if cond s then
    match step s with
    | none => none
    | some (.error e) => some (.error e)
    | some (.ok s') => pyWhileO cond step s'
  else some (.ok s)
partial_fixpoint

/-- State of the two sampling loops: the number of draws made, `visited` and `survivors`/`arsurvivors`. -/
structure SampleState (α : Type) where
  t : Nat
  visited : List α
  surv : List Config

/-- One draw of the sampling loops, phonons.py:225-229 and tree.py:599-611. In the code an inner loop draws again while
the number drawn is in `visited`; the outer condition does not change meanwhile, so that the two loops are written as
one loop over the draws. `body` is the rest of the iteration: it gets the draw and `visited` with the draw appended,
and returns the configurations to be appended. -/
def sampleStep {α : Type} [DecidableEq α] (draw : Nat → α) (body : Nat → α → List α → Option (Py (List Config)))
    (s : SampleState α) : Option (Py (SampleState α)) :=
  if draw s.t ∈ s.visited then some (.ok { s with t := s.t + 1 })
  else
    match body s.t (draw s.t) (s.visited ++ [draw s.t]) with
    | none => none
    | some (.error e) => some (.error e)
    | some (.ok new) => some (.ok ⟨s.t + 1, s.visited ++ [draw s.t], s.surv ++ new⟩)

/-- The sampling loop: `while len(survivors) < num_wanted`. -/
def sampleLoop {α : Type} [DecidableEq α] (draw : Nat → α) (body : Nat → α → List α → Option (Py (List Config)))
    (wanted : Nat) : Option (Py (SampleState α)) :=
  pyWhileO (fun s => decide (s.surv.length < wanted)) (sampleStep draw body) ⟨0, [], []⟩

/-- The `for perm in agroup` loop of the small branch, phonons.py:237-268: `False` as soon as some operation gives the
number of another configuration already drawn. -/
def arrowFresh (col : Config) (arrowConfig : List Nat) (orighash dim : Nat) (visited : List Nat) : List Op → Py Bool
  | [] => .ok true
  | perm :: rest => do
    let temp ← fillArrows col arrowConfig
    let permhash ← permHash temp perm dim
    if permhash ∈ visited ∧ permhash ≠ orighash then .ok false
    else arrowFresh col arrowConfig orighash dim visited rest

/-- phonons.py:284-294: the test for superperiodic structures of the small branch. It ends in the comparison
`unique == False`, so that it changes nothing; it may raise IndexError. -/
def smallSuper (coloring : Config) (arrowConfig : List Nat) : List Op → Py Unit
  | [] => .ok ()
  | g :: rest => do
    let _ ← pyGather g.1 (coloring.map (·.2))
    let _ ← permuteArrows g.2 (arrowConfig.map (fun a : Nat => (a : Int)))
    smallSuper coloring arrowConfig rest

/-- The body of the loop of the small branch, phonons.py:231-298. -/
def smallBody (col : Config) (agroup : List Op) (dim : Nat) (translations : List Op) (supers : Bool) (narrows : Nat)
    (orighash : Nat) (visited : List Nat) : Py (List Config) := do
  let arrowConfig := ainvhash orighash narrows dim
  let unique ← arrowFresh col arrowConfig orighash dim visited agroup
  if unique then
    let coloring ← fillArrows col arrowConfig
    if supers then .ok [coloring]
    else do
      smallSuper coloring arrowConfig translations
      .ok [coloring]
  else .ok []

/-- `add_arrows` with `small=True`, phonons.py:119-128, 221-307. `draw` gives the results of
`randrange(maxpossible)`, which raises ValueError for `maxpossible = 0`. -/
def addArrowsSmall (col : Config) (agroup : List Op) (dim : Nat) (translations : List Op) (supers : Bool) (wanted : Nat)
    (draw : Nat → Nat) : Option (Py (List Config)) :=
  let narrows := (howManyArrows col).1
  let maxpossible := ahash (List.replicate narrows (dim - 1)) dim
  if maxpossible = 0 then some (.error .valueError)
  else
    match sampleLoop draw (fun _ d visited => some (smallBody col agroup dim translations supers narrows d visited)) wanted with
    | none => none
    | some (.error e) => some (.error e)
    | some (.ok s) => some (.ok s.surv)

/-- The Python values that occur in the test `new_location in visited` of `guess_and_check_brancher`: an int and lists
of ints. An int is never equal to a list. -/
inductive PyVal
  | int (n : Nat)
  | list (l : List Nat)
  deriving DecidableEq

/-- The arguments of `guess_and_check_brancher`, tree.py:551, and the random numbers: `draw t` is the list of the
results of `randint(0,c_i-1)` (tree.py:602-603 and 607-609) of the `t`-th candidate, `adraw t` the numbers drawn in
`add_arrows` for that candidate. -/
structure GArgs where
  concs : List Nat
  group : List Op
  decor : Config
  dim : Nat
  supers : Bool
  cellsize : Nat
  wanted : Nat
  draw : Nat → List Nat
  adraw : Nat → Nat → Nat

/-- tree.py:615-628: the test whether an equivalent configuration has been drawn. `new_location` is the single number
`_hash(new_config)`, `visited` is a list of lists. -/
def guessUnique (config candidate : List Nat) (visited : List (List Nat)) : List Op → Py Bool
  | [] => .ok true
  | perms :: rest => do
    let newConfig ← pyGather perms.1 config
    let newLocation ← hash newConfig
    if PyVal.int newLocation ∈ visited.map PyVal.list ∧ PyVal.int newLocation ≠ PyVal.list candidate then .ok false
    else guessUnique config candidate visited rest

/-- The body of the loop of `guess_and_check_brancher`, tree.py:612-659. -/
def guessBody (a : GArgs) (t : Nat) (candidate : List Nat) (visited : List (List Nat)) : Option (Py (List Config)) :=
  let narrows := (howManyArrows a.decor).1
  let pre : Py (List Nat × Bool) := do
    let config ← invhash candidate a.concs a.concs.sum
    let unique ← guessUnique config candidate visited a.group
    if !a.supers && narrows = 0 && unique then do
      let sp ← superLoop a.group a.cellsize config (List.range' 1 (a.cellsize - 1))
      .ok (config, !sp)
    else .ok (config, unique)
  match pre with
  | .error e => some (.error e)
  | .ok (config, unique) =>
    if unique then
      if narrows > 0 then
        match decorate (colorList a.decor) config with
        | .error e => some (.error e)
        | .ok tConfig => addArrowsSmall tConfig a.group a.dim (a.group.take a.cellsize) a.supers a.wanted (a.adraw t)
      else some (.ok [config.map (fun leaf => ((-1 : Int), leaf))])
    else some (.ok [])

/-- `guess_and_check_brancher`, tree.py:551-668. Progress bars are not modelled. `none` means that it does not
terminate. -/
def guessAndCheck (a : GArgs) : Option (Py (List Config)) :=
  match sampleLoop a.draw (guessBody a) a.wanted with
  | none => none
  | some (.error e) => some (.error e)
  | some (.ok s) => some (.ok s.surv)

end Phenum
