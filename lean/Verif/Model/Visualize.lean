import Verif.Model.Drivers
import Verif.Model.RealSpace
import Verif.Model.Cell
/-
Model of phenum/visualize.py: the figures of the supercells listed in a file like enum.in.

A figure is the list of the lines and of the atoms drawn. Simplifications: colours, sizes, the invisible points that set the scale
(visualize.py:97-104), the interactive display and `testmode` are left out; the file is written after each figure.
-/
namespace Phenum

/-- A figure: the black lines, and the red dots. -/
structure HnfFigure where
  edges : List (V3 × V3)
  atoms : List V3

/-- The numbers of a line that are used, visualize.py:43-45 and 140-142: all but the last word are read as integers, the first six are kept. -/
def hnfOfLine (line : Str) : Py (List ℤ) := do
  let l ← (pySplit line).dropLast.mapM parseInt
  .ok (l.take 6)

/-- The lines drawn by `HNF_shapes`, visualize.py:56-95. -/
def cellEdges (c : Matrix (Fin 3) (Fin 3) ℝ) : List (V3 × V3) :=
  let x : V3 := c 0
  let y : V3 := c 1
  let z : V3 := c 2
  let xy := x + y
  let xz := x + z
  let yz := y + z
  let xyz := y + x + z
  [(0, x), (0, y), (0, z), (xz, x), (xz, z), (xy, x), (xy, y), (xz, z), (yz, z), (yz, y), (yz, xyz), (xz, xyz), (xy, xyz)]

/-- The system data, `_convert_read_lat_to_system_dat`, visualize.py:186-222, and the mapping to real space, visualize.py:46-55, 66-69 and 143-155:
`P` is the matrix `lat_vecs` whose rows are the lattice vectors, `bas` are the basis atoms. Returns the cell and the atoms. With fewer than three numbers
`get_full_HNF` raises IndexError; simplification: with three to five (an incomplete last row) it is raised here too. -/
noncomputable def plotCell (P : Matrix (Fin 3) (Fin 3) ℝ) (bas : List V3) (k : ℕ) (h : List ℤ) : Run (Matrix (Fin 3) (Fin 3) ℝ × List V3) := do
  let H ← runPy (if h.length < 6 then .error .indexError else .ok (getFullHNF h))
  let snf ← runO (smithNormalForm H)
  let n := (snf.M 0 0 * snf.M 1 1 * snf.M 2 2).toNat
  let sd ← runPy (mapToRealSpace P bas k (1 / 10 ^ 10) ⟨n, H, fun i => snf.M i i, snf.A, List.replicate n '0'⟩ true)
  let aBas ← sd.aBas.mapM (fun p => runO (cartesian2direct sd.sLV p (1 / 10 ^ 10)))
  pure (sd.sLV, aBas.map (fun w => Matrix.vecMul w sd.sLV))

/-- The body of the loop over the lines, visualize.py:37-112 (`shapes`) and 134-184: the name of the file and the figure. -/
noncomputable def plotLine (shapes : Bool) (P : Matrix (Fin 3) (Fin 3) ℝ) (bas : List V3) (k : ℕ) (line : Str) : Run (Str × HnfFigure) := do
  let h ← runPy (hnfOfLine line)
  let c ← plotCell P bas k h
  pure (joinStr [] (h.map intStr) ++ ".pdf".toList, ⟨if shapes then cellEdges c.1 else [], c.2⟩)

/-- `HNF_shapes` and `HNF_atoms`, visualize.py:14-112 and 115-184, on the contents of the two files: the files written one after the other. -/
noncomputable def hnfFigures (shapes : Bool) (enumText latText : Str) : Run (List (Str × HnfFigure)) := do
  let lat ← runPy (readLattice latText)
  let geo ← runPy lat.geometry
  ((fileLines enumText).filter (fun line => !line.contains '#')).mapM (plotLine shapes (realMat geo.1) (realVecs geo.2) lat.nspecies.toNat)

/-- `_plot_HNFs`, enumeration.py:6-17, called with the name of the input file, which `_script_enum` leaves at `None` unless it is given or
`-enum` or `-distribution` is asked for (enumeration.py:331-351): `open(None)` raises TypeError. Simplification: `read_lattice` is called first. -/
noncomputable def plotHNFs (shapes : Bool) (input : Option Str) (lattice : Str) (d : Dir) : Run (List (Str × HnfFigure)) := do
  let lat ← runPy (readFile d lattice)
  let name ← match input with
    | some f => pure f
    | none => throw .typeError
  let file ← runPy (readFile d name)
  hnfFigures shapes file lat

end Phenum
