import Verif.Model.Drivers
import Verif.Model.MakeStr
/-
What the programs show on the screen: the messages (phenum/msg.py), the table of a distribution (phenum/structures.py) and the
help of the `-examples` option (phenum/base.py and the ends of phenum/enumeration.py and phenum/phenumStr.py).
-/
namespace Phenum

/-- A piece of text written to the screen, with its colour if it has one. -/
abbrev Piece := Option Str × Str

/-- The text on the screen, without the colours. -/
def screenText (l : List Piece) : Str := l.flatMap (·.2)

/-- The value of `msg.verbosity`, msg.py:5,81-87: unset (None), a number or a truth value. -/
inductive Verbosity
  | unset
  | level (n : ℤ)
  | flag (b : Bool)
  deriving DecidableEq

/-- The settings of the module, msg.py:5-10,24: `verbosity`, `quiet` and `nocolor`. -/
structure MsgState where
  verbosity : Verbosity := .unset
  quiet : Option Bool := none
  nocolor : Bool := false
  deriving DecidableEq

/-- `will_print`, msg.py:98-107. A truth value is an int in Python, so it is compared with the level too. -/
def willPrint (st : MsgState) (level : ℤ) : Bool :=
  if level = 1 then decide (st.quiet = none ∨ st.quiet = some false)
  else match st.verbosity with
    | .unset => false
    | .level n => decide (level ≤ n)
    | .flag b => decide (level ≤ if b then 1 else 0) || b

/-- `printer`, msg.py:56-69, with `ending` the value of `end`. -/
def printer (st : MsgState) (text : Str) (color : Option Str) (ending : Str) : List Piece :=
  if st.nocolor then [(none, text ++ ending)] else [(color, text ++ ending)]

/-- `warn`, msg.py:109-114. -/
def msgWarn (st : MsgState) (m : Str) (level : ℤ := 0) (pre : Bool := true) : List Piece :=
  if willPrint st level then printer st ((if pre then "WARNING: ".toList else []) ++ m) (some "yellow".toList) ['\n'] else []

/-- `err`, msg.py:116-121. -/
def msgErr (st : MsgState) (m : Str) (level : ℤ := -1) (pre : Bool := true) : List Piece :=
  if willPrint st level || decide (st.verbosity = .unset) then
    printer st ((if pre then "ERROR: ".toList else []) ++ m) (some "red".toList) ['\n'] else []

/-- `info`, msg.py:123-126. -/
def msgInfo (st : MsgState) (m : Str) (level : ℤ := 1) : List Piece :=
  if willPrint st level then printer st m (some "cyan".toList) ['\n'] else []

/-- `okay`, msg.py:128-131. -/
def msgOkay (st : MsgState) (m : Str) (level : ℤ := 1) : List Piece :=
  if willPrint st level then printer st m (some "green".toList) ['\n'] else []

/-- `gen`, msg.py:133-136. -/
def msgGen (st : MsgState) (m : Str) (level : ℤ := 1) : List Piece :=
  if willPrint st level then printer st m (some "blue".toList) ['\n'] else []

/-- `blank`, msg.py:138-142. -/
def msgBlank (st : MsgState) (n : ℕ := 1) (level : ℤ := 2) : List Piece :=
  if willPrint st level then List.replicate n (none, ['\n']) else []

/-- `std`, msg.py:144-147. -/
def msgStd (st : MsgState) (m : Str) (level : ℤ := 1) : List Piece :=
  if willPrint st level then [(none, m ++ ['\n'])] else []

/-- `icols`, msg.py:22. -/
def icols : List Str := ["red".toList, "yellow".toList, "cyan".toList, "blue".toList, "white".toList, "green".toList]

/-- The loop of `arb` over the words, msg.py:76-82: `cols` are the colours of the words that are left. The separator is written after every
word, with a line break after the last. -/
def arbLoop (st : MsgState) (split : Char) : List ℕ → List Str → Py (List Piece)
  | _, [] => .ok []
  | [], _ :: _ => .error .indexError
  | c :: cs, word :: rest => do
    let col ← pyGet icols c
    let r ← arbLoop st split cs rest
    .ok (printer st word (some col) [] ++ printer st [split] none (if rest = [] then ['\n'] else []) ++ r)

/-- `arb`, msg.py:71-82. Simplification: what has been written before an IndexError is dropped. -/
def msgArb (st : MsgState) (text : Str) (cols : List ℕ) (split : Char) : Py (List Piece) :=
  match text.getLast? with
  | none => .error .indexError
  | some c => arbLoop st split cols (splitOn split (if c = split then text.dropLast else text))

/-! ## the table of a distribution -/

/-- The line of a type, structures.py:352-356: `" {0: <5d} | {1: <15} | {2: <5} | {3: <5d} "`. -/
def distLine (key : DKey) (value : ℕ) : Str :=
  ' ' :: padRight 5 (natStr key.1) ++ " | ".toList ++ padRight 15 (joinStr [' '] ((key.2.1.getD []).map intStr)) ++ " | ".toList ++
    padRight 5 (joinStr [':'] ((key.2.2.getD []).map natStr)) ++ " | ".toList ++ padRight 5 (natStr value) ++ [' ']

/-- The dictionary `bysize`, structures.py:351-361: the lines with their shapes, by size and number. -/
def bySize (distr : List (DKey × ℕ)) : List ((ℕ × ℕ) × List (Str × Option HNF6)) :=
  distr.foldl (fun b p =>
    let old := (dictGet b (p.1.1, p.2)).getD []
    dictSet b (p.1.1, p.2) (old ++ [(distLine p.1 p.2, p.1.2.1)])) []

/-- The order of tuples of two numbers, used by `sorted(bysize.keys())`, structures.py:364. -/
def pairLe (a b : ℕ × ℕ) : Bool := decide (a.1 < b.1 ∨ (a.1 = b.1 ∧ a.2 ≤ b.2))

/-- The order of the third entries of the lists, structures.py:365: tuples lexicographically; without shapes they are all `""`. -/
def shapeLe (a b : Str × Option HNF6) : Bool :=
  match a.2, b.2 with
  | some x, some y => decide (x ≤ y)
  | _, _ => true

/-- The sorting of the lines of one size and number, structures.py:365: a tuple cannot be compared with a string. -/
def sortLines (l : List (Str × Option HNF6)) : Py (List (Str × Option HNF6)) :=
  if l.all (fun p => p.2.isSome) ∨ l.all (fun p => p.2.isNone) then .ok (l.mergeSort shapeLe) else .error .typeError

/-- The colours of the columns, structures.py:357: `cwarn`, `cinfo`, `cgens`, `cokay`. -/
def distCols : List ℕ := [1, 2, 3, 5]

/-- The part of `_print_distribution` that writes to the screen, structures.py:349-366. -/
def showDist (st : MsgState) (distr : List (DKey × ℕ)) : Py (List Piece) := do
  let b := bySize distr
  let parts ← ((b.map (·.1)).mergeSort pairLe).mapM (fun k => do
    let lines ← sortLines ((dictGet b k).getD [])
    let pieces ← lines.mapM (fun p => msgArb st p.1 distCols '|')
    .ok pieces.flatten)
  .ok parts.flatten

/-- The messages of `read_lattice`, io_utils.py:50-59. -/
def latticeInfos (st : MsgState) (lat : LatticeIn) : List Piece :=
  if lat.restricted = false then msgInfo st "No concentration restrictions given.".toList
  else msgInfo st "Concentrations are being restricted.".toList ++
    (if lat.arrows = false then msgInfo st "No displacement directions are included".toList else [])

/-- The messages for the sizes without a file, structures.py:279-284. -/
def missingShown (st : MsgState) (d : Dir) (infile : Str) (sizes : List ℤ) : List Piece :=
  sizes.flatMap (fun s => if (dictGet d (infile ++ '.' :: intStr s)).isSome then []
    else msgErr st ("Cannot find polya distribution for size ".toList ++ intStr s ++ " at ".toList ++ (infile ++ '.' :: intStr s)))

/-- `make_enum_in`, structures.py:395-466, with what it shows. The messages of level 0 (structures.py:67,128,166) are not modelled: they are
shown only with -verbose. -/
def makeEnumInShown (st : MsgState) (w : World) (infile distribution outfile : Str) (number : Option ℤ) (sizes : Option (List ℤ)) (save : Bool)
    (restrict : Option (Str × Str)) (d : Dir) : Py (Dir × List Piece) := do
  let sizes ← sizesUsed w d infile sizes
  let res ← readRestrict d restrict
  let tables ← readTables d infile sizes
  let ft ← ftypeOf distribution
  let distr ← distributePy tables res ft (number.map Int.toNat) w.draws
  if distribution = "all".toList then .ok (dictSet d outfile (printDist ft distr), missingShown st d infile sizes)
  else do
    let shown ← showDist st distr
    .ok (if save then dictSet d outfile (printDist ft distr) else d, missingShown st d infile sizes ++ shown)

/-- `_polya_out`, enumeration.py:51-125, with what it shows (without -verbose): the messages of `read_lattice`. -/
noncomputable def polyaOutShown (st : MsgState) (tol : Tol) (lattice outfile : Str) (d : Dir) : Run (Dir × List Piece) := do
  let lat ← runPy (do let s ← readFile d lattice; readLattice s)
  let d' ← polyaOut tol lattice outfile d
  pure (d', latticeInfos st lat)

/-- `_enum_in`, enumeration.py:19-49, with what it shows. -/
noncomputable def enumInShown (st : MsgState) (w : World) (tol : Tol) (a : Args) (input outfile : Str) (distribution : List Str) (d : Dir) :
    Run (Dir × List Piece) := do
  let r ← if anyNumbered d input then pure (d, []) else polyaOutShown st tol a.lattice input d
  let d0 ← runPy (pyGet distribution 0)
  let d1 ← runPy (pyGet distribution 1)
  let number ← runPy (if lowerStr d1 = "all".toList then .ok none else (parseInt (strip d1)).map some)
  let q ← runPy (makeEnumInShown st w input (lowerStr d0) outfile number (a.sizes.map (fun s => pyRange s.1 s.2)) a.savedist a.filter r.1)
  pure (q.1, r.2 ++ q.2)

/-- `_enum_out`, enumeration.py:128-209, with what it shows (without -verbose). -/
noncomputable def enumOutShown (st : MsgState) (w : World) (tol : Tol) (a : Args) (input outfile : Str) (d : Dir) : Run (Dir × List Piece) := do
  let lat ← runPy (do let s ← readFile d a.lattice; readLattice s)
  let r ← if (dictGet d input).isSome then pure (d, []) else do
    let r ← if anyNumbered d "polya.out".toList then pure (d, []) else polyaOutShown st tol a.lattice "polya.out".toList d
    let q ← enumInShown st w tol a "polya.out".toList input (a.distribution.getD ["all".toList, "all".toList]) r.1
    pure (q.1, r.2 ++ q.2)
  let systems ← runPy (do let s ← readFile r.1 input; readEnum s)
  let d' ← enumWrite w tol lat a.super a.accept.isSome outfile systems r.1
  pure (d', latticeInfos st lat ++ r.2)

/-- `_script_enum`, enumeration.py:317-368, with what it shows (without -verbose). The message of enumeration.py:367 has level 0. Simplification: what
has been shown before an error is dropped. -/
noncomputable def scriptShown (st : MsgState) (w : World) (tol : Tol) (a : Args) (d : Dir) : Run (Dir × List Piece) := do
  let names := fileNames a
  runPy (checkArgs a d)
  let r1 ← if a.polya then polyaOutShown st tol a.lattice (names.2.getD []) d else pure (d, [])
  let r2 ← if a.enum then enumOutShown st w tol a (names.1.getD []) (names.2.getD []) r1.1 else pure (r1.1, [])
  let r3 ← if a.distribution.getD [] ≠ [] ∧ a.enum = false then
      enumInShown st w tol a (names.1.getD []) (names.2.getD []) (a.distribution.getD []) r2.1
    else pure (r2.1, [])
  pure (r3.1, r1.2 ++ r2.2 ++ r3.2)

/-! ## the help and the ends of the programs -/

/-- `str.upper()` for ASCII letters. -/
def upperStr (s : Str) : Str := s.map Char.toUpper

/-- `cprint`: text in colour with a line break, whatever the value of `nocolor`. -/
def colored (text color : Str) : List Piece := [(some color, text ++ ['\n'])]

/-- The arguments of `example`, msg.py:28: the texts of the help of a program (enumeration.py:212-266, phenumStr.py:55-108), which are left open here. -/
structure HelpTexts where
  script : Str
  explain : Str
  contents : List (Str × Str × Str)
  requirements : Str
  output : Str
  outputfmt : Str
  details : Str

/-- The loop of `example` over the examples, msg.py:47-54, from number `i + 1`. -/
def helpContents (st : MsgState) (i : ℕ) : List (Str × Str × Str) → List Piece
  | [] => []
  | (pre, code, post) :: rest =>
    msgStd st (natStr (i + 1) ++ ") ".toList ++ pre) ++ colored ("    ".toList ++ code) "cyan".toList ++
      (if post ≠ [] then msgStd st ('\n' :: post) else []) ++ msgBlank st ++ helpContents st (i + 1) rest

/-- `example`, msg.py:28-54. -/
def msgExample (st : MsgState) (t : HelpTexts) : List Piece :=
  msgBlank st ++ colored (upperStr t.script) "yellow".toList ++ colored (List.replicate 70 '=' ++ ['\n']) "yellow".toList ++
    colored "DETAILS".toList "blue".toList ++ msgStd st (t.explain ++ ['\n']) ++ colored t.requirements "red".toList ++
    colored t.output "green".toList ++ msgBlank st ++ (if t.details ≠ [] then msgStd st t.details ++ msgBlank st else []) ++
    colored "OUTPUT FORMAT".toList "blue".toList ++ msgStd st t.outputfmt ++ msgBlank st ++ colored "EXAMPLES".toList "blue".toList ++
    helpContents st 0 t.contents

/-- `exhandler`, base.py:15-34, for a command line with the switches `examples` and `verbose` and the other options `opts`: what is shown, the settings of the messages
afterwards and the options (None after the help). -/
def exhandler {α : Type} (st : MsgState) (t : HelpTexts) (examples verbose : Bool) (opts : α) : List Piece × MsgState × Option α :=
  if examples then (msgExample st t, st, none)
  else ([], if verbose then { st with verbosity := .flag true } else st, some opts)

/-- The end of enumeration.py (lines 392-399) without -profile: what has been shown before the program starts, and the rest of the run. `None["profile"]` is a TypeError. -/
noncomputable def mainEnum (st : MsgState) (t : HelpTexts) (w : World) (tol : Tol) (examples verbose : Bool) (a : Args) (d : Dir) :
    List Piece × Run (Dir × List Piece) :=
  match exhandler st t examples verbose a with
  | (shown, _, none) => (shown, throw PyErr.typeError)
  | (shown, st', some a) => (shown, scriptShown st' w tol a d)

/-- The end of phenumStr.py (lines 205-206), with the contents of the file `args["input"]`. -/
noncomputable def mainMake (st : MsgState) (t : HelpTexts) (examples verbose : Bool) (m : MakeArgs) (file : Str) (rnd : ReadStruct → ℕ → ℕ → ℝ) :
    List Piece × Run (List OutFile) :=
  match exhandler st t examples verbose m with
  | (shown, _, m) => (shown, makeStr m file rnd)

end Phenum
