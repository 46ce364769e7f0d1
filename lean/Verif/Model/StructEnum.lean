import Verif.Model.Drivers
/-
Model of `write_struct_enum` (phenum/io_utils.py:131-179), `which` (io_utils.py:181-203) and `_read_struct_enum`
(phenum/structures.py:7-35): the functions that exchange files with the program enum.x.

`fs` is `str` on the floats of the lattice. Simplification: no errors while a file is written.
-/
namespace Phenum

/-- The labels of a site, joined by slashes, io_utils.py:158-163. -/
def occupancyStr (n : ℤ) : Str :=
  (List.range n.toNat).flatMap (fun (i : ℕ) => if (i : ℤ) < n - 1 then natStr i ++ ['/'] else natStr i)

/-- The lines of the lattice vectors, io_utils.py:145-152: a line break after the first two. -/
def lattLoop (fs : ℚ → Str) : ℕ → List (List ℚ) → Str
  | _, [] => []
  | i, v :: vs => v.flatMap (fun x => fs x ++ [' ']) ++ (if i < 2 then ['\n'] else []) ++ lattLoop fs (i + 1) vs

/-- The text of `write_struct_enum`, io_utils.py:137-179. -/
def structEnumText (fs : ℚ → Str) (p : LatticeIn) : Str :=
  "System \n".toList ++ (if p.bulk then "bulk \n".toList else "surface \n".toList) ++
  (lattLoop fs 0 p.latVecs ++ " \n".toList) ++ (intStr p.nspecies ++ " \n".toList) ++ (natStr p.basisVecs.length ++ " \n".toList) ++
  (p.basisVecs.flatMap (fun v => joinStr [' '] (v.map fs) ++ "  ".toList ++ occupancyStr p.nspecies ++ " \n".toList) ++ " \n".toList) ++
  (p.sizes.flatMap (fun z => intStr z ++ [' ']) ++ " \n".toList) ++ "0.00001 \n".toList ++ "full \n".toList

/-- `write_struct_enum`, io_utils.py:131-179, on a directory. -/
def writeStructEnum (fs : ℚ → Str) (p : LatticeIn) (d : Dir) : Dir := dictSet d "struct_enum.in".toList (structEnumText fs p)

/-- The dictionary of `_read_struct_enum`: size, then HNF, then the numbers of atoms, then how many structures. -/
abbrev StructCounts := List (ℤ × List (List ℤ × List ((ℕ × ℕ) × ℕ)))

/-- `structs[sn][HNF][concs]` of a line is set or increased, structures.py:25-34. -/
def structBump (d : StructCounts) (sn : ℤ) (hnf : List ℤ) (concs : ℕ × ℕ) : StructCounts :=
  let d := if (dictGet d sn).isNone then dictSet d sn [] else d
  let e := (dictGet d sn).getD []
  match dictGet e hnf with
  | none => dictSet d sn (dictSet e hnf (dictSet [] concs 1))
  | some g =>
    match dictGet g concs with
    | some k => dictSet d sn (dictSet e hnf (dictSet g concs (k + 1)))
    | none => dictSet d sn (dictSet e hnf (dictSet g concs 1))

/-- The values of a line, structures.py:21-24. -/
def structVals (line : Str) : Py (ℤ × List ℤ × (ℕ × ℕ)) := do
  let vals := pySplit line
  let w ← pyGet vals 6
  let sn ← parseInt w
  let hnf ← ((vals.drop 11).take 6).mapM parseInt
  let lab := vals.getLastD []
  .ok (sn, hnf, (lab.count '0', lab.count '1'))

/-- The loop over the lines, structures.py:18-34; `i` is the number of lines before. -/
def structLoop : ℕ → List Str → StructCounts → Py StructCounts
  | _, [], d => .ok d
  | i, l :: ls, d =>
    if i + 1 > 17 then do
      let r ← structVals l
      structLoop (i + 1) ls (structBump d r.1 r.2.1 r.2.2)
    else structLoop (i + 1) ls d

/-- `_read_struct_enum`, structures.py:7-35, on the contents of struct_enum.out. -/
def readStructEnum (s : Str) : Py StructCounts := structLoop 0 (fileLines s) []

/-- `os.path.split`: the part before the last slash (without the slashes at its end, unless it consists of slashes) and
the part after it. -/
def pathSplit (p : Str) : Str × Str :=
  let tail := (p.reverse.takeWhile (· ≠ '/')).reverse
  let head := (p.reverse.dropWhile (· ≠ '/')).reverse
  let head' := (head.reverse.dropWhile (· = '/')).reverse
  (if head' = [] then head else head', tail)

/-- `os.path.join(a, b)`. -/
def pathJoin (a b : Str) : Str :=
  if b.head? = some '/' then b else if a = [] ∨ a.getLast? = some '/' then a ++ b else a ++ '/' :: b

/-- `path.strip('"')`. -/
def stripQuotes (s : Str) : Str := ((s.reverse.dropWhile (· = '"')).reverse).dropWhile (· = '"')

/-- `which`, io_utils.py:181-203: `isExe` says which names are executable files, `env` is the variable PATH; `none` is
Python's `None`. -/
def which (isExe : Str → Bool) (env : Str) (program : Str) : Option Str :=
  if (pathSplit program).1 ≠ [] ∧ isExe program then some program
  else ((splitOn ':' env).map (fun path => pathJoin (stripQuotes path) program)).find? isExe

end Phenum
