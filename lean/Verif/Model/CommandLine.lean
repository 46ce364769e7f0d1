import Verif.Model.Screen
import Verif.Model.PoscarText
/-
The command lines of the two programs: base.py:15-50 (`exhandler`, `_common_parser`), enumeration.py:268-340 and 392-399,
phenumStr.py:110-161 and 205-206 (`script_options`, `_parser_options`), with what argparse (Python 3.11, `parse_known_args`) does with them.
-/
namespace Phenum

/-- How many words an option takes: `action="store_true"`, no `nargs`, `nargs="+"`, `nargs=k`; `help` are the options -h and --help. -/
inductive NArgs
  | flag | one | many | exactly (k : ℕ) | help
deriving DecidableEq

/-- The options of a parser with the number of their words. -/
abbrev OptTable := List (Str × NArgs)

def optNames (T : OptTable) : List Str := T.map (·.1)

/-- `_common_parser`, base.py:36-50. -/
def baseTable : OptTable :=
  [("-examples".toList, .flag), ("-verbose".toList, .flag), ("-action".toList, .exactly 1), ("-debug".toList, .flag)]

/-- The options that argparse adds to the parser of a program. -/
def helpTable : OptTable := [("-h".toList, .help), ("--help".toList, .help)]

/-- The options of enumeration.py, enumeration.py:268-334. -/
def enumTable : OptTable :=
  helpTable ++ baseTable ++
    [("-polya".toList, .flag), ("-enum".toList, .flag), ("-lattice".toList, .one), ("-input".toList, .one), ("-distribution".toList, .many),
      ("-savedist".toList, .flag), ("-outfile".toList, .one), ("-sizes".toList, .exactly 2), ("-acceptrate".toList, .one), ("-profile".toList, .flag),
      ("-seed".toList, .one), ("-super".toList, .flag), ("-filter".toList, .exactly 2), ("-visualize".toList, .flag), ("-shapes".toList, .flag),
      ("-show".toList, .flag)]

/-- The options of makeStr, phenumStr.py:110-141, without the structure numbers, which have no name. -/
def makeTable : OptTable :=
  helpTable ++ baseTable ++
    [("-displace".toList, .one), ("-input".toList, .one), ("-mink".toList, .one), ("-species".toList, .many), ("-species_mapping".toList, .many),
      ("-outfile".toList, .one), ("-rattle".toList, .one), ("-config".toList, .one), ("-remove_zeros".toList, .one)]

/-- What a word of the command line is taken for: a value, the word `--`, an option with the value behind `=` if there is one, or an option that the
parser doesn't have. -/
inductive Word
  | value (s : Str) | dashes | option (name : Str) (joined : Option Str) | unknown (s : Str)
deriving DecidableEq

/-- `s.partition('=')`: what is before and behind the first `=`, if there is one. -/
def partitionEq : Str → Option (Str × Str)
  | [] => none
  | '=' :: rest => some ([], rest)
  | ch :: rest => (partitionEq rest).map (fun p => (ch :: p.1, p.2))

/-- `_get_option_tuples` of argparse: the options that an abbreviation may stand for, with the joined value. -/
def optionTuples (names : List Str) (s : Str) : List (Str × Option Str) :=
  if s.take 2 = ['-', '-'] then
    match partitionEq s with
    | some (p, v) => names.filterMap (fun n => if p <+: n then some (n, some v) else none)
    | none => names.filterMap (fun n => if s <+: n then some (n, none) else none)
  else names.filterMap (fun n => if n = s.take 2 then some (n, some (s.drop 2)) else if s <+: n then some (n, none) else none)

/-- The regular expression `^-\d+$|^-\d*\.\d+$` for a word that begins with `-`, on the part behind it. -/
def looksNumber (s : Str) : Bool :=
  (s ≠ [] && s.all Char.isDigit) ||
    (match s.dropWhile Char.isDigit with
      | '.' :: t => t ≠ [] && t.all Char.isDigit
      | _ => false)

/-- `_parse_optional` of argparse: what a word is taken for; none: it is an ambiguous abbreviation, and the program stops with the usage text. -/
def classify (names : List Str) (s : Str) : Option Word :=
  match s with
  | '-' :: body =>
    if s ∈ names then some (.option s none)
    else if body = [] then some (.value s)
    else
      match partitionEq s with
      | some (p, v) => if p ∈ names then some (.option p (some v)) else classifyRest s body
      | none => classifyRest s body
  | _ => some (.value s)
where
  classifyRest (s body : Str) : Option Word :=
    match optionTuples names s with
    | [] => if looksNumber body then some (.value s) else if ' ' ∈ s then some (.value s) else some (.unknown s)
    | [(n, v)] => some (.option n v)
    | _ => none

/-- The words of the command line; behind the word `--` all words are values. -/
def classifyAll (names : List Str) : List Str → Option (List Word)
  | [] => some []
  | s :: rest => if s = ['-', '-'] then some (.dashes :: rest.map .value) else do
    let w ← classify names s
    let ws ← classifyAll names rest
    some (w :: ws)

/-- The values before the first word that isn't one, and every other word with the values that follow it. -/
def segment : List Word → List Str × List (Word × List Str)
  | [] => ([], [])
  | .value s :: rest => (s :: (segment rest).1, (segment rest).2)
  | w :: rest => ([], (w, (segment rest).1) :: (segment rest).2)

/-- `consume_optional` of argparse: the values of an option, given its joined value and the values that follow, and the values that are left; none: the
program stops (with the help or with the usage text). -/
def takeValues : NArgs → Option Str → List Str → Option (List Str × List Str)
  | .help, _, _ => none
  | .flag, none, vs => some ([], vs)
  | .flag, some _, _ => none
  | .one, some v, vs => some ([v], vs)
  | .one, none, v :: vs => some ([v], vs)
  | .one, none, [] => none
  | .many, some v, vs => some ([v], vs)
  | .many, none, [] => none
  | .many, none, v :: vs => some (v :: vs, [])
  | .exactly k, some v, vs => if k = 1 then some ([v], vs) else none
  | .exactly k, none, vs => if k ≤ vs.length then some (vs.take k, vs.drop k) else none

/-- The values behind the word `--`, if it comes next. -/
def afterDashes : List (Word × List Str) → List Str
  | (.dashes, vs) :: _ => vs
  | _ => []

/-- The loop of `parse_known_args`: the options with their values in the order of the command line, and the runs of values that belong to no option. -/
def collect (T : OptTable) : List (Word × List Str) → Option (List (Str × List Str) × List (List Str))
  | [] => some ([], [])
  | (.option name joined, vs) :: rest => do
    let k ← (T.find? (fun o => decide (o.1 = name))).map (·.2)
    let v ← takeValues k joined vs
    let r ← collect T rest
    some ((name, v.1) :: r.1, (v.2 ++ afterDashes rest) :: r.2)
  | (.unknown _, vs) :: rest => do
    let r ← collect T rest
    some (r.1, (vs ++ afterDashes rest) :: r.2)
  | _ :: rest => collect T rest

/-- `parse_known_args` without the conversion of the values: the options with their values, and the runs of values that belong to no option; what isn't
known is ignored. none: the program stops before it does anything (SystemExit). The text that is shown then is not modelled. -/
def knownArgs (T : OptTable) (argv : List Str) : Option (List (Str × List Str) × List (List Str)) := do
  let ws ← classifyAll (optNames T) argv
  let r ← collect T (segment ws).2
  some (r.1, (((segment ws).1 ++ afterDashes (segment ws).2) :: r.2).filter (fun l => l ≠ []))

/-- Is the option given? -/
def hasOpt (given : List (Str × List Str)) (name : String) : Bool := given.any (fun p => decide (p.1 = name.toList))

/-- The values of an option, the last ones if it is given more than once. -/
def lastOpt (given : List (Str × List Str)) (name : String) : Option (List Str) :=
  (given.filter (fun p => decide (p.1 = name.toList))).getLast?.map (·.2)

/-- The value of an option that takes one. -/
def lastOne (given : List (Str × List Str)) (name : String) : Option Str := (lastOpt given name).bind (·.head?)

/-- `int(s)`. Simplification: ASCII digits, without underscores. -/
def intOf (s : Str) : Option ℤ := (parseInt (strip s)).toOption

/-- `float(s)`. Simplification: the decimal notations of `parseFloat`, no inf or nan. -/
def floatOf (s : Str) : Option ℚ := (parseFloat (strip s)).toOption

/-- Can the values of the option be converted (`type=`), and are they among the `choices`? -/
def valuesOk (p : Str × List Str) : Bool :=
  if p.1 = "-action".toList then p.2.all (fun v => v = "save".toList || v = "print".toList)
  else if p.1 = "-sizes".toList ∨ p.1 = "-seed".toList ∨ p.1 = "-species_mapping".toList then p.2.all (fun v => (intOf v).isSome)
  else if p.1 = "-acceptrate".toList ∨ p.1 = "-displace".toList ∨ p.1 = "-rattle".toList then p.2.all (fun v => (floatOf v).isSome)
  else if p.1 = "-mink".toList ∨ p.1 = "-config".toList ∨ p.1 = "-remove_zeros".toList then p.2.all (fun v => v = "t".toList || v = "f".toList)
  else true

/-- What a program does with its command line: it stops with the usage text or the help of argparse; it shows the examples (`-examples`); or it runs, with
the switch `-verbose`, with the options. -/
inductive CommandLine (α : Type)
  | stop | examples | run (verbose : Bool) (o : α)

/-- `exhandler`, base.py:15-34, on the command line: the common parser reads it first, and the parser of the program afterwards. -/
def exhandlerLine {α : Type} (T : OptTable) (options : List (Str × List Str) → List (List Str) → Option α) (argv : List Str) : CommandLine α :=
  match knownArgs baseTable argv with
  | none => .stop
  | some b =>
    if b.1.all valuesOk = false then .stop
    else if hasOpt b.1 "-examples" then .examples
    else
      match knownArgs T argv with
      | none => .stop
      | some r =>
        if r.1.all valuesOk = false then .stop
        else
          match options r.1 r.2 with
          | none => .stop
          | some o => .run (hasOpt b.1 "-verbose") o

/-- The dictionary `args` of enumeration.py. -/
structure EnumOptions where
  args : Args
  seed : Option ℤ
  profile : Bool
  visualize : Bool
  shapes : Bool
  showShapes : Bool

/-- The options of enumeration.py from the values found; the parser has no values without a name. -/
def enumOptions (given : List (Str × List Str)) : EnumOptions where
  args :=
    { polya := hasOpt given "-polya"
      enum := hasOpt given "-enum"
      lattice := (lastOne given "-lattice").getD "lattice.in".toList
      input := lastOne given "-input"
      outfile := lastOne given "-outfile"
      distribution := lastOpt given "-distribution"
      sizes := (lastOpt given "-sizes").bind (fun l => (l.head?.bind intOf).bind (fun lo => (l.tail.head?.bind intOf).map (fun hi => (lo, hi))))
      super := hasOpt given "-super"
      accept := (lastOne given "-acceptrate").bind floatOf
      savedist := hasOpt given "-savedist"
      filter := (lastOpt given "-filter").bind (fun l => l.head?.bind (fun kind => l.tail.head?.map (fun file => (kind, file)))) }
  seed := (lastOne given "-seed").bind intOf
  profile := hasOpt given "-profile"
  visualize := hasOpt given "-visualize"
  shapes := hasOpt given "-shapes"
  showShapes := hasOpt given "-show"

/-- `_parser_options`, enumeration.py:326-340. -/
def enumLine (argv : List Str) : CommandLine EnumOptions := exhandlerLine enumTable (fun given _ => some (enumOptions given)) argv

/-- The end of enumeration.py (lines 392-399) on the command line; none: the program stops with the usage text or the help of argparse, or it runs the
profiler or draws (`-profile`, `-visualize`, not part of this definition). -/
noncomputable def programEnum (st : MsgState) (t : HelpTexts) (w : World) (tol : Tol) (argv : List Str) (d : Dir) : Option (List Piece × Run (Dir × List Piece)) :=
  match enumLine argv with
  | .stop => none
  | .examples => some (mainEnum st t w tol true false (enumOptions []).args d)
  | .run verbose o => if o.profile || o.visualize then none else some (mainEnum st t w tol false verbose o.args d)

/-- The dictionary `args` of makeStr. -/
structure MakeOptions where
  structures : List Str
  displace : ℚ
  input : Str
  mink : Str
  species : Option (List Str)
  speciesMapping : Option (List ℤ)
  outfile : Str
  rattle : ℚ
  config : Str
  removeZeros : Str
deriving DecidableEq

/-- The options of makeStr from the values found: the structure numbers are the first run of values that belongs to no option, and they are required. -/
def makeOptions (given : List (Str × List Str)) (loose : List (List Str)) : Option MakeOptions :=
  loose.head?.map (fun structures =>
    { structures := structures
      displace := ((lastOne given "-displace").bind floatOf).getD 0
      input := (lastOne given "-input").getD "struct_enum.out".toList
      mink := (lastOne given "-mink").getD "t".toList
      species := lastOpt given "-species"
      speciesMapping := (lastOpt given "-species_mapping").map (fun l => l.filterMap intOf)
      outfile := (lastOne given "-outfile").getD "vasp.{}".toList
      rattle := ((lastOne given "-rattle").bind floatOf).getD 0
      config := (lastOne given "-config").getD "f".toList
      removeZeros := (lastOne given "-remove_zeros").getD "f".toList })

/-- `_parser_options`, phenumStr.py:144-161. -/
def makeLine (argv : List Str) : CommandLine MakeOptions := exhandlerLine makeTable makeOptions argv

/-- The dictionary as the rest of makeStr gets it. Simplification: a negative number of `-species_mapping` is 0; the rattle is part of the random positions. -/
noncomputable def MakeOptions.toArgs (o : MakeOptions) : MakeArgs where
  structures := some o.structures
  displace := (o.displace : ℝ)
  mink := .str o.mink
  species := o.species.map (fun l => l.map String.ofList)
  speciesMapping := o.speciesMapping.map (fun l => l.map Int.toNat)
  outfile := o.outfile
  config := .str o.config
  removeZeros := .str o.removeZeros

/-- The end of phenumStr.py (lines 205-206) on the command line, on the directory: `run` raises ValueError after the examples; none: the program stops
with the usage text or the help of argparse. -/
noncomputable def programMake (argv : List Str) (rnd : ReadStruct → ℕ → ℕ → ℝ) (d : Dir) : Option (Run Dir) :=
  match makeLine argv with
  | .stop => none
  | .examples => some (throw PyErr.valueError)
  | .run _ o => some (makeStrDir o.toArgs o.input rnd d)

end Phenum
