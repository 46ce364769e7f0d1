import Verif.Model.Sample
/-
Model of `enum_sys` in phenum/phonons.py.
-/
namespace Phenum

/-- The builtin function `super`, which phonons.py:487 names where the argument `supers` is meant: a true value. -/
def builtinSuper : Bool := true

/-- The random numbers used by `enum_sys`: the permutation made by `random.shuffle` (phonons.py:448) and the draws of
`add_arrows`, `guess_and_check_brancher` and `brancher`. -/
structure EnumRandom where
  shuffle : List Nat → List Nat
  smallDraw : Nat → Nat
  draw : Nat → List Nat
  adraw : Nat → Nat → Nat
  acceptArrows : Nat → Bool
  acceptDraw : Nat → Bool
  acceptArrow : List Nat → Nat → Bool

/-- phonons.py:430 (and, apart from `num_wanted < total`, 482): is a small sample of a large system wanted? -/
def largeSystem (multi arrowTypes nsites wanted : Int) : Bool :=
  (multi > 100000 && wanted ≤ 100) || (arrowTypes ≠ 0 && nsites ≥ 12 && wanted ≤ 100)

/-- phonons.py:444-458: the subset to be selected. The warning is in Model/Warnings.lean. -/
def chooseSubset (shuffle : List Nat → List Nat) (wanted : Nat) (total : Int) : Subset :=
  if (wanted : Int) < total then
    if total < 1000000 then .list ((shuffle (List.range' 1 total.toNat)).take wanted)
    else .num wanted
  else .list []

/-- phonons.py:474-480: both branches of the test append the configuration; the name `subset` is looked up for each of
them (`none`: it has not been assigned). -/
def filterSingle (subset : Option Subset) : List Config → Py (List Config)
  | [] => .ok []
  | config :: rest =>
    match subset with
    | none => .error .nameError
    | some s => do
      let r ← filterSingle (some s) rest
      .ok (config :: r)

/-- phonons.py:463-485: the enumeration proper. `total` is the number of structures or 10^10. The test
`float(num_wanted)/total < 0.001` is made on exact numbers. -/
def enumCore (agroup : List Op) (concs : List Nat) (decor : Config) (sortedConcs : List Nat) (cellsize : Nat) (large : Bool) (total : Int)
    (subset : Option Subset) (wanted : Nat) (supers accept : Bool) (rnd : EnumRandom) : Option (Py (List Config)) :=
  if concs.length = 1 then
    if total = 0 then some (.error .zeroDivision)
    else
      let configs : Option (Py (List Config)) :=
        if (wanted : Int) * 1000 < total ∧ accept = false then
          addArrowsSmall decor agroup 6 (agroup.take cellsize) supers wanted rnd.smallDraw
        else some (addArrows decor agroup 6 (agroup.take cellsize) (if accept then some rnd.acceptArrows else none) (some wanted) supers)
      match configs with
      | none => none
      | some (.error e) => some (.error e)
      | some (.ok l) => some (filterSingle subset l)
  else if large && (wanted : Int) < total then
    guessAndCheck ⟨sortedConcs, agroup, decor, 6, supers, cellsize, wanted, rnd.draw, rnd.adraw⟩
  else
    match subset with
    | none => some (.error .nameError)
    | some s => brancher ⟨sortedConcs, agroup, decor, 6, supers, cellsize, s, accept, rnd.acceptDraw, rnd.acceptArrow⟩

/-- phonons.py:430-458: `total` and `subset`. -/
def enumTotal (agroup : List Op) (concs sortedConcs : List Nat) (arrowTypes : Nat) (large : Bool) (wanted : Nat) (rnd : EnumRandom) :
    Option (Py (Int × Option Subset)) :=
  if large then some (.ok (10000000000, none))
  else
    match (if arrowTypes ≠ 0 then polya sortedConcs agroup (.num arrowTypes) else polya concs agroup .none) with
    | none => none
    | some (.error e) => some (.error e)
    | some (.ok total) => some (.ok (total, some (chooseSubset rnd.shuffle wanted total)))

/-- `enum_sys`, phonons.py:373-498. `agroup` is the group made at lines 405-420 (by `get_sym_group` for the HNF, or read
from a file), `nB` the number of basis vectors; `accept` says whether an acceptance rate is given. `polya` changes
the group only if its lists are not zero-based. -/
def enumSys (agroup : List Op) (concs : List Nat) (aconcs : List ℚ) (wanted nB : Nat) (supers accept : Bool) (rnd : EnumRandom) :
    Option (Py (List Config)) :=
  match arrowConcs concs aconcs with
  | .error e => some (.error e)
  | .ok decor =>
    let h := howManyArrows decor
    match multinomial (concs.map (fun c : Nat => (c : Int))) with
    | .error e => some (.error e)
    | .ok multi =>
      let large := largeSystem multi h.2.1 concs.sum wanted
      match enumTotal agroup concs h.2.2 h.2.1 large wanted rnd with
      | none => none
      | some (.error e) => some (.error e)
      | some (.ok (total, subset)) =>
        match enumCore agroup concs decor h.2.2 (concs.sum / nB) large total subset wanted supers accept rnd with
        | none => none
        | some (.error e) => some (.error e)
        | some (.ok configs) =>
          -- phonons.py:487-496
          if configs.length ≠ wanted ∧ !builtinSuper then some (.error .valueError) else some (.ok configs)

end Phenum
