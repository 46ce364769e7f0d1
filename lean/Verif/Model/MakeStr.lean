import Verif.Model.Poscar
import Verif.Model.Cell
import Verif.Model.SpaceGroup
/-
Model of the program makeStr: phenum/phenumStr.py, `run` and `_make_structures` (lines 20-53 and 163-206), and of the
choice of the file names in `write_POSCAR` and `write_config` (io_utils.py:342-345 and 416).

Simplifications: `int(s)` on a string accepts white space around, a sign and decimal digits (no underscores, no digits
of other scripts). The numbers of `-species_mapping` are not negative. The identifiers `euids` (only returned on request, never by
`run`) are left out. The result is the list of the files in the order they are written; if an exception is raised, the
files written before it are not kept.
-/
namespace Phenum

/-- A value passed for a switch: a string (from the command line: "t" or "f") or, in a call from Python, a boolean. -/
inductive Flag
  | str (s : Str)
  | bool (b : Bool)
  deriving DecidableEq

/-- The truth value of a Python object: a string is true when it is not empty. -/
def Flag.truth : Flag → Bool
  | .str s => s ≠ []
  | .bool b => b

/-- `int(s)` on a word given by the user. -/
def userInt (s : Str) : Py ℤ := parseInt (strip s)

/-- `RepresentsInt`, phenumStr.py:4-18. -/
def representsInt (s : Str) : Bool := match userInt s with
  | .ok _ => true
  | .error _ => false

/-- `s.lower()`. -/
def lowerStr (s : Str) : Str := s.map Char.toLower

/-- The reading of `args["structures"]`, phenumStr.py:170-193; `none` in the result stands for "all". -/
def selectStructures : Option (List Str) → Py (Option (List ℤ))
  | none => .error .valueError
  | some [] => .error .indexError
  | some (s :: rest) =>
    if representsInt s = false ∧ lowerStr s = "all".toList then .ok none
    else if rest = [] ∧ representsInt s = true then (userInt s).map (fun n => some [n])
    else match rest with
      | [t] => do
        let a ← userInt s
        let b ← userInt t
        .ok (some (pyRange a (b + 1)))
      | _ => .error .valueError

/-- `"{}" in s`. -/
def hasField : Str → Bool
  | '{' :: '}' :: _ => true
  | _ :: rest => hasField rest
  | [] => false

/-- `s.format(arg)`; `used` tells whether the argument is used up. Fields with a name, a number or a conversion are not
modelled. -/
def formatOne (arg : Str) : Bool → Str → Py Str
  | _, [] => .ok []
  | u, '{' :: '{' :: rest => (formatOne arg u rest).map ('{' :: ·)
  | u, '{' :: '}' :: rest => if u then .error .indexError else (formatOne arg true rest).map (arg ++ ·)
  | _, '{' :: _ => .error .valueError
  | u, '}' :: '}' :: rest => (formatOne arg u rest).map ('}' :: ·)
  | _, '}' :: _ => .error .valueError
  | u, ch :: rest => (formatOne arg u rest).map (ch :: ·)

/-- The name of the POSCAR file, io_utils.py:342-345. -/
def poscarName (outfile : Str) (strN : ℤ) : Py Str :=
  if hasField outfile then formatOne (intStr strN) false outfile else .ok (outfile ++ '.' :: intStr strN)

/-- The options of makeStr, phenumStr.py:110-141. -/
structure MakeArgs where
  structures : Option (List Str)
  displace : ℝ
  mink : Flag
  species : Option (List String)
  speciesMapping : Option (List ℕ)
  outfile : Str
  config : Flag
  removeZeros : Flag

/-- A file written: the POSCAR of a structure (mode "w+"), or a structure appended to the config file (mode "a+"). -/
inductive OutFile
  | poscar (name : Str) (content : Poscar)
  | config (name : Str) (content : ConfigFile)

/-- The parent lattice vectors as the columns of a matrix, io_utils.py:346 (`transpose`) on the lines read. -/
noncomputable def plvOf (sys : ReadSystem) : Matrix (Fin 3) (Fin 3) ℝ :=
  fun i j => (((sys.plattice.getD j []).getD i 0 : ℚ) : ℝ)

/-- The basis atoms read from the file. -/
noncomputable def dvecsOf (sys : ReadSystem) : List V3 := sys.dvecs.map (fun v => fun i : Fin 3 => ((v.getD i 0 : ℚ) : ℝ))

/-- The matrices of a structure read from the file, io_utils.py:331-336. -/
def structData (st : ReadStruct) : StructData :=
  { n := st.n.toNat
    HNF := !![st.hnf.getD 0 0, 0, 0; st.hnf.getD 1 0, st.hnf.getD 2 0, 0; st.hnf.getD 3 0, st.hnf.getD 4 0, st.hnf.getD 5 0]
    S := fun i => st.diag.getD i 0
    L := fun i j => st.lt.getD (3 * i + j) 0
    labeling := st.labeling }

/-- `d[key]`: KeyError if the key is missing. -/
def getKey {α : Type} : Option α → Run α
  | some a => pure a
  | none => throw PyErr.keyError

/-- The body of the loop over the structures, phenumStr.py:35-49; `m.removeZeros` is what `run` leaves in the
dictionary. -/
noncomputable def makeOne (m : MakeArgs) (mapping : Option (List ℕ)) (removeZeros : Bool) (sys : ReadSystem) (rnd : ℕ → ℕ → ℝ) (st : ReadStruct) :
    Run (List OutFile) := do
  let kZ ← getKey sys.k
  let k := kZ.toNat
  let epsQ ← getKey sys.eps
  let eps : ℝ := epsQ
  let plv := plvOf sys
  let sd ← runPy (mapToRealSpace plv (dvecsOf sys) k eps (structData st) m.mink.truth)
  let aBas ← sd.aBas.mapM (fun p => runO (cartesian2direct sd.sLV p eps))
  let sd := { sd with aBas := aBas }
  let N := st.n.toNat * sys.nD.toNat
  let args : StrArgs := { species := m.species, removeZeros := removeZeros, displace := m.displace, mapping := mapping }
  if m.config = .str "f".toList then do
    let name ← runPy (poscarName m.outfile st.strN)
    let P ← runPy (writePoscar plv sys.nD.toNat k N st.labeling st.directions sd args rnd)
    pure [.poscar name P]
  else if m.config = .str "t".toList then do
    let C ← runPy (writeConfig plv sys.nD.toNat k N st.labeling st.directions sd args rnd)
    pure [.config m.outfile C]
  else pure []

/-- `run`, phenumStr.py:163-203, with the contents of the file `args["input"]`. The truth value of `args["remove_zeros"]`
in the writer is that of `True` if the switch is "t" and otherwise still that of the switch itself (the line that should
reset it writes to the key "remove_zeors"). `rnd st` are the random numbers drawn for the structure. -/
noncomputable def makeStr (m : Option MakeArgs) (file : Str) (rnd : ReadStruct → ℕ → ℕ → ℝ) : Run (List OutFile) :=
  match m with
  | none => throw PyErr.valueError
  | some m => do
    let structures ← runPy (selectStructures m.structures)
    let mapping := m.speciesMapping
    let removeZeros := if m.removeZeros = .str "t".toList then true else m.removeZeros.truth
    let r ← runPy (readEnumOut structures file)
    let outs ← r.2.mapM (fun st => makeOne m mapping removeZeros r.1 (rnd st) st)
    pure outs.flatten

end Phenum
