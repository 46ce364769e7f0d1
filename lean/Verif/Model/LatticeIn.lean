import Verif.Model.Text
import Verif.Model.Concs
import Verif.Model.Decorate
import Verif.Model.MakeStr
/-
Model of `read_lattice` (phenum/io_utils.py:23-73) and of `read_group` (io_utils.py:2-21).

Simplifications: numbers are written in plain decimal notation, with an exponent marked by a small `e` if at all; the
number of basis atoms is not negative.
-/
namespace Phenum

/-- The dictionary returned by `read_lattice`, io_utils.py:62-71. -/
structure LatticeIn where
  bulk : Bool
  sizes : List ℤ
  latVecs : List (List ℚ)
  nspecies : ℤ
  basisVecs : List (List ℚ)
  restricted : Bool
  arrows : Bool
  concs : List (List ℚ)
  deriving DecidableEq

/-- `[l for l in f.readlines() if l.strip()[0] != '#']`, io_utils.py:39-40: a blank line raises IndexError. -/
def dataLines : List Str → Py (List Str)
  | [] => .ok []
  | l :: ls =>
    match strip l with
    | [] => .error .indexError
    | ch :: _ => do
      let r ← dataLines ls
      .ok (if ch = '#' then r else l :: r)

/-- `[int(el) for el in line.split(' ')]`, io_utils.py:42: two blanks in a row raise ValueError. -/
def readSizes (line : Str) : Py (List ℤ) := (splitOn ' ' line).mapM (fun w => parseInt (strip w))

/-- `line.strip()[0].lower() == 'b'`, io_utils.py:43. -/
def isBulk (line : Str) : Bool := ((strip line).head?.map Char.toLower) == some 'b'

/-- The end of `read_lattice`, io_utils.py:49-63: whether concentrations are restricted, whether arrows are used, and the
rows of the restrictions. -/
def readRestrictions (lines : List Str) (nbas : ℕ) : Py (Bool × Bool × List (List ℚ)) := do
  let l ← pyGet lines (7 + nbas)
  if strip l = ['F'] then .ok (false, false, [])
  else do
    let a ← pyGet lines (7 + nbas + 1)
    let concs ← (lines.drop (7 + nbas + 2)).mapM floatsOf
    .ok (true, strip a ≠ ['F'], concs)

/-- `read_lattice`, io_utils.py:23-73, on the contents of the file. -/
def readLattice (s : Str) : Py LatticeIn := do
  let lines ← dataLines (fileLines s)
  let l0 ← pyGet lines 0
  let sizes ← readSizes l0
  let l1 ← pyGet lines 1
  let lat ← ((lines.drop 2).take 3).mapM floatsOf
  let l5 ← pyGet lines 5
  let nspecies ← parseInt (strip l5)
  let l6 ← pyGet lines 6
  let nbas ← parseInt (strip l6)
  let bas ← ((lines.drop 7).take nbas.toNat).mapM floatsOf
  let r ← readRestrictions lines nbas.toNat
  .ok { bulk := isBulk l1, sizes := sizes, latVecs := lat, nspecies := nspecies, basisVecs := bas,
        restricted := r.1, arrows := r.2.1, concs := r.2.2 }

/-- A row of three numbers. -/
def rowVec3 : List ℚ → Option (Fin 3 → ℚ)
  | [x, y, z] => some ![x, y, z]
  | _ => none

/-- The lattice vectors (rows of a matrix) and the basis vectors. Simplification: if they are not given by three numbers
each, or if there are not three lattice vectors, ValueError is raised here (numpy raises it later). -/
def LatticeIn.geometry (lat : LatticeIn) : Py (Matrix (Fin 3) (Fin 3) ℚ × List (Fin 3 → ℚ)) :=
  match lat.latVecs.mapM rowVec3, lat.basisVecs.mapM rowVec3 with
  | some [a, b, c], some bas => .ok (Matrix.of ![a, b, c], bas)
  | _, _ => .error .valueError

/-- A restriction row as `[c0, c1, denominator]` (whole numbers), symmetry.py:36-56. -/
def concRow : List ℚ → Py ConcRange
  | x :: y :: z :: _ => .ok (⌊x⌋, ⌊y⌋, ⌊z⌋)
  | _ => .error .indexError

/-- `get_concs_for_size` on the parameters read from lattice.in, enumeration.py:74-75. The counts of a restriction with
non-negative ranges are not negative. -/
def sizeConcs (eps : ℚ) (lat : LatticeIn) (s : ℕ) : Run (List Conc) :=
  if lat.restricted then do
    let rows ← runPy (lat.concs.mapM concRow)
    let l ← runO (concsRestricted eps s lat.basisVecs.length rows)
    pure (l.map (fun a => a.map Int.toNat))
  else pure (concsFree s lat.nspecies.toNat lat.basisVecs.length)

/-- `pb.get_arrow_concs(params)`. -/
def LatticeIn.arrowFractions (lat : LatticeIn) : List ℚ := getArrowConcs lat.restricted lat.arrows lat.nspecies.toNat lat.concs

/-- `x in s` for strings. -/
def containsStr (x s : Str) : Bool := decide (x <:+: s)

/-- The loop of `read_group` over the lines after the first six, io_utils.py:12-19: a line with `Perm #:` begins a
permutation (the numbers from the fifth word on), any other line continues the last one. -/
def readGroupLoop : List Str → List (List ℤ) → Py (List (List ℤ))
  | [], acc => .ok acc
  | l :: ls, acc =>
    if containsStr "Perm #:".toList l then do
      let p ← ((pySplit l).drop 4).mapM parseInt
      readGroupLoop ls (acc ++ [p])
    else do
      let p ← (pySplit l).mapM parseInt
      match acc.getLast? with
      | none => .error .indexError
      | some q => readGroupLoop ls (acc.dropLast ++ [q ++ p])

/-- `read_group`, io_utils.py:2-21. Simplification: permutations of different lengths (`array(groupi)-1`) raise
ValueError. -/
def readGroup (s : Str) : Py (List (List ℤ)) := do
  let g ← readGroupLoop ((fileLines s).drop 6) []
  let g ← checkRows g
  .ok (g.map (fun p => p.map (· - 1)))

end Phenum
