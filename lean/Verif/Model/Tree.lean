import Verif.Model.Phonons
/-
Model of phenum/tree.py: the labelling hash, the per-level uniqueness test and the tree search.
-/
namespace Phenum

/-- `binomial_coefficient` as a natural number (it is never negative, `binomialCoefficient_eq`). -/
def binomN (n k : Int) : Nat := (binomialCoefficient n k).toNat

/-- `_coefficients`, tree.py:4-26: the radix numbers. -/
def coefficients : List Nat → Int → List Nat
  | [], _ => []
  | c :: cs, slots => binomN slots c :: coefficients cs (slots - c)

/-- The `for i in range(z)` loop of `_hash`, tree.py:47-52, run `z` more times. -/
def hashLoop : Nat → List Nat → Int → Nat → Py Nat
  | 0, _, _, y => .ok y
  | z + 1, li, m, y => do
    let p0 ← pyIndex 0 li
    let k := (li.drop p0).count 1
    hashLoop z (li.drop (p0 + 1)) (m - (p0 + 1)) (y + binomN (m - (p0 + 1)) ((k : Int) - 1))

/-- `_hash`, tree.py:28-54. `li.index(1)` raises ValueError if there is no 1. -/
def hash (listi : List Nat) : Py Nat := do
  let m := listi.length
  let r ← pyIndex 1 listi.reverse
  let rm1 := m - r
  let z := (listi.take rm1).count 0
  hashLoop z listi m 0

/-- Inner loop of `_invhash`, tree.py:75-84, for `l = n, n-1, ..., 1`; the entries of `newi` are
produced in order. The hash digits (numpy floats holding integers) are naturals. -/
def invhashRow (coluse : Nat) : Nat → Nat → Int → List Nat
  | 0, _, _ => []
  | l + 1, I, t =>
    let binom := binomN (l : Int) (t - 1)
    if binom ≤ I then 0 :: invhashRow coluse l (I - binom) t
    else coluse :: invhashRow coluse l I (t - 1)

/-- tree.py:87-91: copy `newi` into the zero entries of `new`. -/
def fillZeros : List Nat → List Nat → Py (List Nat)
  | [], _ => .ok []
  | x :: xs, newi =>
    if x = 0 then
      match newi with
      | [] => .error .indexError
      | y :: ys => do
        let r ← fillZeros xs ys
        .ok (y :: r)
    else do
      let r ← fillZeros xs newi
      .ok (x :: r)

/-- Outer loop of `_invhash`, tree.py:74-91. -/
def invhashLoop : List Nat → List Nat → Int → Nat → List Nat → Py (List Nat)
  | [], _, _, _, new => .ok new
  | _ :: _, [], _, _, _ => .error .indexError
  | I :: branch, t :: colors, n, coluse, new => do
    let newi := invhashRow coluse n.toNat I t
    let new' ← fillZeros new newi
    invhashLoop branch colors (n - t) (coluse + 1) new'

/-- `_invhash`, tree.py:56-92. -/
def invhash (branch colors : List Nat) (n : Nat) : Py (List Nat) :=
  invhashLoop branch colors n 1 (List.replicate n 0)

/-- `_color_list`, tree.py:94-114: the distinct entries in order of first appearance (the loop zeroes
every other copy, which is then skipped). -/
def colorList {α : Type} [DecidableEq α] : List α → List α
  | [] => []
  | x :: xs => x :: colorList (xs.filter (fun y => y ≠ x))
termination_by l => l.length
decreasing_by
  simp only [List.length_cons, List.length_unattach]
  exact Nat.lt_succ_of_le (Nat.le_trans (List.length_filter_le _ _) (by simp))

/-- Result of `_perm`: `(unique, st, order, ast)`. -/
structure PermOut where
  unique : Nat
  st : List Op
  order : List Int
  ast : List Op

/-- `_perm`, the `index == 0` loop, tree.py:172-219. `order` is the dict `{0:0,...,C[0]:C[0]}`
represented by the list of its values; `order[rtest] = -1` is `List.set`. -/
def perm0Loop (casei0 : Nat) (li : List Nat) :
    List Op → List Op → List Int → List Op → Py PermOut
  | [], st, order, ast => .ok ⟨0, st, order, ast⟩
  | a :: rest, st, order, ast => do
    let lnew ← pyGather a.1 li
    let lnewb := lnew.map (fun v => if v = 1 then 1 else 0)
    let rtest ← hash lnewb
    let ast' := if li = lnew then ast ++ [a] else ast
    if casei0 < rtest then perm0Loop casei0 li rest st (order.set rtest (-1)) ast'
    else if casei0 > rtest then .ok ⟨1, [], order, []⟩
    else perm0Loop casei0 li rest (st ++ [a]) order ast'

/-- tree.py:248-253: entries with a colour above `index+1` become 0. -/
def cutAbove (index : Nat) (l : List Nat) : List Nat :=
  l.map (fun v => if v > index + 1 then 0 else v)

/-- tree.py:254-258: keep the still-free sites (as 0) and the sites of the current colour (as 1). -/
def levelMask (index : Nat) (l : List Nat) : List Nat :=
  l.filterMap (fun v => if v = 0 then some 0 else if v = index + 1 then some 1 else none)

/-- `_perm`, the `len(stab) > 1` loop, tree.py:234-284. `c` is `casei[index]`. -/
def permLoop (index c : Nat) (li : List Nat) :
    List Op → List Op → List Int → List Op → Py PermOut
  | [], st, order, ast => .ok ⟨0, st, order, ast⟩
  | a :: rest, st, order, ast => do
    let lnew ← pyGather a.1 li
    let lib := cutAbove index li
    let lnewb := cutAbove index lnew
    let lnewb2 := levelMask index lnewb
    let st' := if lnewb = lib then st ++ [a] else st
    let ast' := if li = lnew then ast ++ [a] else ast
    let rtest ← hash lnewb2
    if c > rtest then .ok ⟨1, [], order, []⟩
    else permLoop index c li rest st' order ast'

/-- `_perm`, tree.py:116-288. `stab = 0` is the empty list (tree.py:158-159). -/
def perm (casei colors : List Nat) (length index : Nat) (gen stab : List Op) (order : List Int) :
    Py PermOut := do
  let li ← invhash casei colors length
  let c ← pyGet casei index
  if index = 0 then perm0Loop c li gen [] order []
  else if stab.length = 1 then .ok ⟨0, stab, order, stab⟩
  else if stab.length > 1 then permLoop index c li stab [] order []
  else .ok ⟨1, [], order, []⟩

/-- The `subset` argument of `brancher`: `None`, an int or a list. -/
inductive Subset
  | none
  | num (k : Nat)
  | list (l : List Nat)
  deriving DecidableEq

/-- The arguments of `brancher` (tree.py:291) other than `total` (progress bar only).
`accept = none` is `accept=None`; otherwise `acceptDraw count` is the outcome of the
`random() < accept` drawn for the candidate with that ordinal and `acceptArrow branch` the draws made
inside `add_arrows` for the labelling of the branch. -/
structure BArgs where
  concs : List Nat
  group : List Op
  decor : Config
  dim : Nat
  supers : Bool
  cellsize : Nat
  subset : Subset
  accept : Bool
  acceptDraw : Nat → Bool
  acceptArrow : List Nat → Nat → Bool

/-- tree.py:345-350: `use_subset`. -/
def useSubset (a : BArgs) : Bool :=
  match a.subset with
  | .list l => !l.isEmpty
  | _ => a.accept

/-- Loop state of `brancher`. -/
structure BState where
  branch : List Nat
  i : Nat
  b0 : Nat
  order : List Int
  stab : List (List Op)
  count : Nat
  subset : Subset
  survivors : List Config

/-- tree.py:328: the radix numbers of the run. -/
def BArgs.C (a : BArgs) : List Nat := coefficients a.concs a.concs.sum

/-- tree.py:332: number of arrows in the decoration. -/
def BArgs.narrows (a : BArgs) : Nat := (howManyArrows a.decor).1

/-- tree.py:324. -/
def BArgs.colors (a : BArgs) : List Site := colorList a.decor

/-- The loop condition, tree.py:385-387. `C[0]` of an empty `concs` is handled in `brancher`. -/
def bCond (a : BArgs) (s : BState) : Bool :=
  s.branch.getD 0 0 < a.C.getD 0 0 &&
    ((match s.subset with
      | .list l => decide (s.survivors.length < l.length)
      | _ => false)
    || !(useSubset a)
    || (match s.subset with
      | .num k => a.accept && decide (s.survivors.length = k)
      | _ => false))

/-- tree.py:411-412: `while nv in subset and nv < prod(C): nv += 1`. -/
def bumpNv (subset : List Nat) (bound : Nat) (nv : Nat) : Nat :=
  if h : nv ∈ subset ∧ nv < bound then bumpNv subset bound (nv + 1) else nv
termination_by bound - nv

/-- tree.py:400-416: the translations loop; `true` when some non-trivial translation fixes the
configuration. -/
def superLoop (group : List Op) (cellsize : Nat) (brancht : List Nat) : List Nat → Py Bool
  | [] => .ok false
  | trans :: rest => do
    let g ← pyGet group trans
    let action := g.1
    let transBranch ← pyGather action brancht
    if transBranch = brancht ∧ action ≠ List.range cellsize then .ok true
    else superLoop group cellsize brancht rest

/-- tree.py:394-416: `(unique, subset, count)` after the superperiodic filter. -/
def superStep (a : BArgs) (s : BState) (unique : Nat) : Py (Nat × Subset × Nat) :=
  if !a.supers && a.narrows = 0 then
    if unique = 0 ∧ (s.b0 = 1 ∨ s.i = 0) then do
      let brancht ← invhash s.branch a.concs a.decor.length
      let sp ← superLoop a.group a.cellsize brancht (List.range' 1 (a.cellsize - 1))
      if sp then
        if useSubset a then
          match s.subset with
          | .list l =>
            if s.count ∈ l then
              let nv := bumpNv l (a.C.prod) s.count
              .ok (1, .list (l.set (l.idxOf s.count) nv), s.count + 1)
            else .ok (1, s.subset, s.count + 1)
          | _ => .error .typeError
        else .ok (1, s.subset, s.count)
      else .ok (unique, s.subset, s.count)
    else .ok (unique, s.subset, s.count)
  else .ok (unique, s.subset, s.count)

/-- tree.py:433-434: attach the colour-with-arrow entries to the labels. `leaf` is at least 1. -/
def decorate (colors : List Site) (brancht : List Nat) : Py Config :=
  brancht.mapM (fun leaf => pyGet colors (leaf - 1))

/-- tree.py:461-463: labels to `[-1, colour]` entries. -/
def plain (colors : List Site) (brancht : List Nat) : Py Config :=
  brancht.mapM (fun leaf => do
    let c ← pyGet colors (leaf - 1)
    .ok ((-1 : Int), c.2))

/-- Is a candidate with this ordinal kept?  tree.py:443-454 and 460-477. -/
def keepCandidate (a : BArgs) (subset : Subset) (count : Nat) : Bool :=
  if !(useSubset a) then true
  else match subset with
    | .list l => decide (count ∈ l)
    | _ => a.accept && a.acceptDraw count

/-- tree.py:440-455: append the wanted arrow survivors, counting all of them. -/
def appendArrows (a : BArgs) (subset : Subset) : List Config → Nat → List Config → Nat × List Config
  | [], count, surv => (count, surv)
  | z :: rest, count, surv =>
    appendArrows a subset rest (count + 1)
      (if keepCandidate a subset count then surv ++ [z] else surv)

/-- tree.py:423-479: emit the configurations of a finished branch. -/
def emit (a : BArgs) (branch : List Nat) (ast : List Op) (subset : Subset) (count : Nat)
    (surv : List Config) : Py (Nat × List Config) :=
  if a.narrows > 0 then do
    let brancht ← invhash branch a.concs a.decor.length
    let dec ← decorate a.colors brancht
    let ar ← addArrows dec ast a.dim (a.group.take a.cellsize)
      (if a.accept then some (a.acceptArrow branch) else none) none a.supers
    .ok (appendArrows a subset ar count surv)
  else if keepCandidate a subset count then do
    let brancht ← invhash branch a.concs a.decor.length
    let z ← plain a.colors brancht
    .ok (count + 1, surv ++ [z])
  else .ok (count + 1, surv)

/-- Result of the back-tracking loop: `(branch, i, b0, stabiliser reset?)`. -/
structure Nav where
  branch : List Nat
  i : Nat
  b0 : Nat
  reset : Bool

/-- The `while root == 0 and i > 0` loop, tree.py:505-523, by recursion on `i`. -/
def backtrack (C : List Nat) : Nat → List Nat → Nat → Py Nav
  | 0, branch, b0 => .ok ⟨branch, 0, b0, false⟩
  | i + 1, branch, b0 => do
    let bi ← pyGet branch (i + 1)
    let ci ← pyGet C (i + 1)
    if (bi : Int) = (ci : Int) - 1 then do
      let branch ← pySet branch (i + 1) 0
      if i = 0 then do
        let x ← pyGet branch 0
        let branch ← pySet branch 0 (x + 1)
        .ok ⟨branch, 0, 0, true⟩
      else backtrack C i branch b0
    else .ok ⟨branch, i + 1, b0, false⟩

/-- The `while test == 0` loop on the first level, tree.py:532-539; a missing key raises KeyError. -/
def skipDead (order : List Int) (b : Nat) : Py Nat :=
  match h : order[b]? with
  | none => .error .keyError
  | some v => if v = -1 then skipDead order (b + 1) else .ok b
termination_by order.length - b
decreasing_by
  have := (List.getElem?_eq_some_iff.mp h).1
  omega

/-- tree.py:394-479: the superperiodic filter followed by the recording of a unique configuration.
Returns `(unique, count, subset, survivors)`. -/
def bRecord (a : BArgs) (s : BState) (unique : Nat) (ast : List Op) :
    Py (Nat × Nat × Subset × List Config) := do
  let r ← superStep a s unique
  if r.1 = 0 ∧ (s.b0 = 1 ∨ s.i = 0) then do
    let e ← emit a s.branch ast r.2.1 r.2.2 s.survivors
    .ok (r.1, e.1, r.2.1, e.2)
  else .ok (r.1, r.2.2, r.2.1, s.survivors)

/-- tree.py:480-539: the navigation part of an iteration. Returns `(branch, i, b0, stabaliser reset?)`. -/
def bNav (C : List Nat) (unique i b0 : Nat) (branch : List Nat) (order : List Int) : Py Nav := do
  let len := branch.length
  -- tree.py:482-483
  let b0 := if unique = 0 ∧ i + 2 < len then 0 else b0
  -- tree.py:492-498
  let i' := if b0 = 0 ∧ i + 1 < len then i + 1 else i
  let b0' := if b0 = 0 ∧ len ≤ i' + 2 then 1 else b0
  -- tree.py:502-523
  let nav ← backtrack C i' branch b0'
  -- tree.py:527-528
  let branch ← if nav.b0 = 1 then do
      let x ← pyGet nav.branch nav.i
      pySet nav.branch nav.i (x + 1)
    else .ok nav.branch
  -- tree.py:531-539
  let branch ← if nav.i = 0 then do
      let x ← pyGet branch 0
      let x' ← skipDead order x
      pySet branch 0 x'
    else .ok branch
  .ok ⟨branch, nav.i, nav.b0, nav.reset⟩

/-- One iteration of the main loop of `brancher`, tree.py:392-539. -/
def bStep (a : BArgs) (s : BState) : Py BState := do
  let stabi ← pyGet s.stab s.i
  let out ← perm s.branch a.concs a.concs.sum s.i a.group stabi s.order
  let stab ← pySet s.stab (s.i + 1) out.st
  let r ← bRecord a s out.unique out.ast
  let nav ← bNav a.C r.1 s.i s.b0 s.branch out.order
  .ok { branch := nav.branch, i := nav.i, b0 := nav.b0, order := out.order,
        -- tree.py:519
        stab := if nav.reset then List.replicate a.concs.length [] else stab,
        count := r.2.1, subset := r.2.2.1, survivors := r.2.2.2 }

/-- Initial state, tree.py:334-371. -/
def bInit (a : BArgs) : BState :=
  { branch := List.replicate a.C.length 0, i := 0, b0 := 0,
    order := (List.range (a.C.getD 0 0 + 1)).map (fun (j : Nat) => (j : Int)),
    stab := List.replicate (a.concs.length + 1) [], count := 1, subset := a.subset, survivors := [] }

/-- `brancher`, tree.py:291-549. `C[0]` raises IndexError for an empty `concs`. `none` means that the
main loop does not terminate. -/
def brancher (a : BArgs) : Option (Py (List Config)) :=
  if a.concs = [] then some (.error .indexError)
  else
    match pyWhile (bCond a) (bStep a) (bInit a) with
    | none => none
    | some (.error e) => some (.error e)
    | some (.ok s) => some (.ok s.survivors)

end Phenum
