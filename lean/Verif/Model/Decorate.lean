import Verif.Model.Phonons
import Mathlib.Data.Rat.Floor
/-
Model of the construction of the decoration in phenum/phonons.py.

Simplification: the arrow fractions (floats) are exact rationals.
-/
namespace Phenum

/-- Python's `int()` of a number: truncation towards zero. -/
def pyTrunc (q : ℚ) : ℤ := if 0 ≤ q then ⌊q⌋ else ⌈q⌉

/-- The entries of one species with label `lab`, `ns` atoms and the (integer) number of arrows `na`,
phonons.py:331-346: the first loop appends `na` sites with arrow 1, the second the remaining `ns - na` without; if
there would be more arrows than atoms, all atoms are without arrow. -/
def speciesEntries (lab ns : ℕ) (na : ℤ) : Config :=
  if (ns : ℤ) ≥ na then
    List.replicate na.toNat ((1 : ℤ), lab) ++ List.replicate (ns - na.toNat) ((-1 : ℤ), lab)
  else List.replicate ns ((-1 : ℤ), lab)

/-- `sorted(l, key=l.count)`, phonons.py:87-88 (a stable sort). -/
def sortByCount (l : Config) : Config := l.mergeSort (fun a b => decide (l.count a ≤ l.count b))

/-- `_col_sort`, phonons.py:59-94. -/
def colSort (l : Config) : Config :=
  sortByCount (l.filter (fun s => decide (s.1 < 0))) ++ sortByCount (l.filter (fun s => decide (s.1 ≥ 0)))

/-- The loop over the species, phonons.py:328-346; `lab` is the label of the next species. -/
def arrowEntries : ℕ → List ℕ → List ℚ → Py Config
  | _, [], _ => .ok []
  | _, _ :: _, [] => .error .indexError
  | lab, c :: cs, a :: as => do
    let r ← arrowEntries (lab + 1) cs as
    .ok (speciesEntries lab c (pyTrunc (c * a)) ++ r)

/-- `arrow_concs`, phonons.py:311-349. -/
def arrowConcs (cList : List ℕ) (aconcs : List ℚ) : Py Config := do
  let l ← arrowEntries 1 cList aconcs
  .ok (colSort l)

/-- `get_arrow_concs`, phonons.py:351-371. `concs` holds the restriction rows: three numbers and, if present, the
arrow fraction. -/
def getArrowConcs (restricted arrows : Bool) (nspecies : ℕ) (concs : List (List ℚ)) : List ℚ :=
  if restricted then
    concs.map (fun c => if c.length = 4 ∧ arrows then c.getD 3 0 else 0)
  else List.replicate nspecies 0

end Phenum
