import Verif.Model.MakeStr
import Verif.Model.Drivers
/-
The text of the files written by makeStr (`write_POSCAR`, io_utils.py:361-398, and `write_config`, io_utils.py:440-502) and their effect on the directory, also
when the program is stopped.

Simplifications: numbers are real numbers (no infinities or NaN), and the layout `{:.8f}` rounds their exact value; a zero is written without a sign. The file enum.out has a
title, that is, its first line does not begin with `#`. The titles printed on the screen are left out.
-/
namespace Phenum

/-- `{0:.df}` for `d` at least 1: halves are rounded to the even neighbour. -/
noncomputable def fixedStr (d : ℕ) (x : ℝ) : Str :=
  let m : ℕ := (npRound (|x| * 10 ^ d)).toNat
  let frac := natStr (m % 10 ^ d)
  (if x < 0 then ['-'] else []) ++ natStr (m / 10 ^ d) ++ ['.'] ++ List.replicate (d - frac.length) '0' ++ frac

/-- `{0: .df}`: a space in place of a plus sign. -/
noncomputable def fixedSigned (d : ℕ) (x : ℝ) : Str := if x < 0 then fixedStr d x else ' ' :: fixedStr d x

/-- Three numbers on a line, io_utils.py:373-375, 397-398, 478-479, 500. -/
noncomputable def vecText (sep : Str) (d : ℕ) (v : V3) : Str := joinStr sep [fixedSigned d (v 0), fixedSigned d (v 1), fixedSigned d (v 2)]

/-- `title` of `get_lattice_parameter`, element_data.py:57-72, for the names `names` written and the default title. -/
def fullTitle (species : Bool) (names : List String) (default : Str) : Str :=
  if species then names.flatMap (fun e => ' ' :: e.toList ++ [' ']) ++ ' ' :: strip default ++ ['\n'] else default

/-- The first line of a POSCAR, io_utils.py:361-365 and 371. -/
def poscarTitle (species : Bool) (names : List String) (title : Str) (strN : ℤ) : Str :=
  fullTitle species names (title ++ " str #: ".toList ++ intStr strN ++ ['\n'])

/-- The text of a POSCAR, io_utils.py:370-398. -/
noncomputable def poscarText (title : Str) (P : Poscar) : Str :=
  title ++ fixedStr 2 P.scale ++ ['\n'] ++
  (List.ofFn (fun i : Fin 3 => ' ' :: vecText " ".toList 8 (P.cell i) ++ ['\n'])).flatten ++
  "  ".toList ++ P.counts.flatMap (fun c => natStr c ++ "   ".toList) ++ ['\n'] ++ "D\n".toList ++
  P.atoms.flatMap (fun v => ' ' :: vecText "  ".toList 8 v ++ ['\n'])

/-- `s.split(sep)[0]`: the text before the first occurrence of `sep`. -/
def beforeStr (sep : Str) : Str → Str
  | [] => []
  | ch :: rest => if sep <+: ch :: rest then [] else ch :: beforeStr sep rest

/-- The title of a structure in a config file, io_utils.py:440-464. -/
def configTitle (species : Bool) (names : List String) (title : Str) (strN : ℤ) : Str :=
  let default := title ++ intStr strN ++ ['\n']
  let t := fullTitle species names default
  if containsStr "Random".toList t then
    let r := strip (beforeStr default t) ++ "_random_".toList ++ intStr strN
    if r.head? = some '_' then r.drop 1 else r
  else joinStr ['_'] (pySplit (strip ((splitOn ':' t).headD []))) ++ ['_'] ++ intStr strN

/-- The text of a structure in a config file, io_utils.py:471-502. -/
noncomputable def configText (title : Str) (C : ConfigFile) : Str :=
  "BEGIN_CFG\n Size\n".toList ++ "    ".toList ++ natStr C.size ++ "\n SuperCell\n".toList ++
  (List.ofFn (fun i : Fin 3 => "   ".toList ++ vecText "      ".toList 6 (C.cell i) ++ ['\n'])).flatten ++
  "   AtomData:  id type       cartes_x      cartes_y      cartes_z\n".toList ++
  C.atoms.flatMap (fun a => "             ".toList ++ natStr a.id ++ "    ".toList ++ natStr a.typ ++ "       ".toList ++ vecText "  ".toList 8 a.pos ++ ['\n']) ++
  " Feature   conf_id  ".toList ++ title ++ "\nEND_CFG\n\n".toList

/-- Text written by makeStr: to the file `name`, which is emptied first (mode "w+") or appended to (mode "a+"). -/
structure TextOut where
  name : Str
  append : Bool
  text : Str

/-- The text of an output of `makeOne`. -/
noncomputable def textOut (m : MakeArgs) (sys : ReadSystem) (st : ReadStruct) : OutFile → TextOut
  | .poscar name P => ⟨name, false, poscarText (poscarTitle m.species.isSome P.names sys.title st.strN) P⟩
  | .config name C => ⟨name, true, configText (configTitle m.species.isSome C.names sys.title st.strN) C⟩

/-- The contents of the file before the text is written, io_utils.py:370 and 471. -/
def openedText (d : Dir) (name : Str) (append : Bool) : Str := if append then (dictGet d name).getD [] else []

/-- The directory when the text has been written. -/
def writeOut (d : Dir) (o : TextOut) : Dir := dictSet d o.name (openedText d o.name o.append ++ o.text)

/-- The loop over the structures, phenumStr.py:34-49, on the directory. -/
noncomputable def makeLoop (m : MakeArgs) (removeZeros : Bool) (sys : ReadSystem) (rnd : ReadStruct → ℕ → ℕ → ℝ) : List ReadStruct → Dir → Run Dir
  | [], d => pure d
  | st :: rest, d => do
    let outs ← makeOne m m.speciesMapping removeZeros sys (rnd st) st
    makeLoop m removeZeros sys rnd rest ((outs.map (textOut m sys st)).foldl writeOut d)

/-- The truth value of `args["remove_zeros"]` that `run` leaves, phenumStr.py:196-199 (see `makeStr`). -/
def zerosLeft (m : MakeArgs) : Bool := if m.removeZeros = .str "t".toList then true else m.removeZeros.truth

/-- `run`, phenumStr.py:163-203, on the directory; `input` is `args["input"]`. -/
noncomputable def makeStrDir (m : MakeArgs) (input : Str) (rnd : ReadStruct → ℕ → ℕ → ℝ) (d : Dir) : Run Dir := do
  let structures ← runPy (selectStructures m.structures)
  let file ← runPy (readFile d input)
  let r ← runPy (readEnumOut structures file)
  makeLoop m (zerosLeft m) r.1 rnd r.2 d

/-- Where the loop can be stopped: before a file is opened, or while it is written. If the computation for a structure raises an exception, any text may be in its file. -/
def makeLoopStops (m : MakeArgs) (removeZeros : Bool) (sys : ReadSystem) (rnd : ReadStruct → ℕ → ℕ → ℝ) : List ReadStruct → Dir → Set Dir
  | [], d => {d}
  | st :: rest, d => {x | x = d ∨
      (m.config = .str "f".toList ∧ ∃ name p, poscarName m.outfile st.strN = .ok name ∧ x = dictSet d name p ∧
        ∀ n P, makeOne m m.speciesMapping removeZeros sys (rnd st) st = (pure [.poscar n P] : Run (List OutFile)) → p <+: (textOut m sys st (.poscar n P)).text) ∨
      (m.config = .str "t".toList ∧ ∃ p, x = dictSet d m.outfile (openedText d m.outfile true ++ p) ∧
        ∀ n C, makeOne m m.speciesMapping removeZeros sys (rnd st) st = (pure [.config n C] : Run (List OutFile)) → p <+: (textOut m sys st (.config n C)).text) ∨
      ∃ outs, makeOne m m.speciesMapping removeZeros sys (rnd st) st = (pure outs : Run (List OutFile)) ∧
        x ∈ makeLoopStops m removeZeros sys rnd rest ((outs.map (textOut m sys st)).foldl writeOut d)}

/-- The directories in which makeStr may be stopped, phenumStr.py:163-203. -/
def makeStrStops (m : MakeArgs) (input : Str) (rnd : ReadStruct → ℕ → ℕ → ℝ) (d : Dir) : Set Dir :=
  {x | x = d ∨ ∃ structures file r, selectStructures m.structures = .ok structures ∧ readFile d input = .ok file ∧ readEnumOut structures file = .ok r ∧
    x ∈ makeLoopStops m (zerosLeft m) r.1 rnd r.2 d}

end Phenum
