import Verif.Model.LatticeIn
import Verif.Model.SymGroup
import Verif.Model.EnumSys
/-
Model of the command line program: `_polya_out`, `_enum_in`, `_enum_out` and `_script_enum` of phenum/enumeration.py,
`make_enum_in` and `_print_distribution` of phenum/structures.py and `get_full_HNF` of phenum/grouptheory.py.

The working directory is a list of names with contents. Simplifications: messages printed on the screen are left out; if
an exception is raised the files written before it are not kept; file names are names in the working directory, without
characters special to `glob`; the switches -profile, -visualize, -shapes, -show, -verbose are left out; a seed fixes the
random numbers, which are arbitrary here. The tolerances written in the code are parameters.
-/
namespace Phenum

/-- The files of the working directory: names and contents. -/
abbrev Dir := List (Str × Str)

/-- The tolerances: of `get_HNFs` (1E-7), of `get_sym_group` (1E-10) and of `get_concs_for_size` (1E-10). -/
structure Tol where
  hnf : ℝ
  sym : ℝ
  conc : ℚ

/-- What a run depends on besides its arguments and files: the order in which `os.listdir` returns the names, the date, and
the random numbers (for the distribution, and for the i-th system of enum.in). -/
structure World where
  listdir : List Str → List Str
  now : Str
  draws : ℕ → ℚ
  rnd : ℕ → EnumRandom

/-- `open(name).read()`. -/
def readFile (d : Dir) (name : Str) : Py Str :=
  match dictGet d name with
  | some s => .ok s
  | none => .error .ioError

/-- `len(glob(name + ".*")) >= 1`. -/
def anyNumbered (d : Dir) (name : Str) : Bool := d.any (fun f => decide (name ++ ['.'] <+: f.1))

/-- The six numbers of an HNF, enumeration.py:86. -/
def hnfNumbers (H : Matrix (Fin 3) (Fin 3) ℤ) : HNF6 := [H 0 0, H 1 0, H 1 1, H 2 0, H 2 1, H 2 2]

/-- `get_full_HNF`, grouptheory.py:909-925, on six numbers (for fewer see `enumSystem`). -/
def getFullHNF (h : List ℤ) : Matrix (Fin 3) (Fin 3) ℤ :=
  !![h.getD 0 0, 0, 0; h.getD 1 0, h.getD 2 0, 0; h.getD 3 0, h.getD 4 0, h.getD 5 0]

/-- The vectors as real numbers. -/
def realVecs (bas : List (Fin 3 → ℚ)) : List V3 := bas.map (fun v => fun i => ((v i : ℚ) : ℝ))

/-- The matrix as a matrix of real numbers. -/
def realMat (P : Matrix (Fin 3) (Fin 3) ℚ) : Matrix (Fin 3) (Fin 3) ℝ := P.map (fun x => ((x : ℚ) : ℝ))

/-! ## polya.out -/

/-- The number of arrangements for one HNF and one concentration, enumeration.py:97-111. -/
def polyaCount (agroup : List Op) (aconcs : List ℚ) (conc : Conc) : Run ℕ := do
  let decor ← runPy (arrowConcs conc aconcs)
  let h := howManyArrows decor
  let n ← runO (if h.2.1 ≠ 0 ∨ h.1 ≠ 0 then polya h.2.2 agroup (.num h.2.1) else polya conc agroup .none)
  pure n.toNat

/-- The counts of one HNF, enumeration.py:85-116. -/
noncomputable def polyaRow (tol : Tol) (P : Matrix (Fin 3) (Fin 3) ℝ) (bas : List V3) (aconcs : List ℚ) (concs : List Conc)
    (H : Matrix (Fin 3) (Fin 3) ℤ) : Run (HNF6 × List ℕ) := do
  let agroup ← getSymGroup P bas H 3 tol.sym true
  let counts ← concs.mapM (polyaCount agroup aconcs)
  pure (hnfNumbers H, counts)

/-- The table of one size, enumeration.py:69-121; `total` and `conc_totals` are accumulated in the loops. -/
noncomputable def polyaSize (tol : Tol) (lat : LatticeIn) (s : ℕ) : Run PolyaTable := do
  let geo ← runPy lat.geometry
  let P := realMat geo.1
  let bas := realVecs geo.2
  let hnfs ← getHNFs s P bas 3 tol.hnf
  let concs ← sizeConcs tol.conc lat s
  let rows ← hnfs.mapM (polyaRow tol P bas lat.arrowFractions concs)
  pure { size := s, concs := concs,
         rows := rows.map (fun r => (r.1, r.2, r.2.foldl (· + ·) 0)),
         last := rows.foldl (fun tot r => List.zipWith (· + ·) tot r.2) (List.replicate concs.length 0) }

/-- The loop over the sizes, enumeration.py:67-124. -/
noncomputable def polyaLoop (tol : Tol) (lat : LatticeIn) (outfile : Str) : List ℤ → Dir → Run Dir
  | [], d => pure d
  | s :: ss, d => do
    let t ← polyaSize tol lat s.toNat
    polyaLoop tol lat outfile ss (dictSet d (outfile ++ '.' :: intStr s) (writePolya t))

/-- `_polya_out`, enumeration.py:51-124. -/
noncomputable def polyaOut (tol : Tol) (lattice outfile : Str) (d : Dir) : Run Dir := do
  let lat ← runPy (do let s ← readFile d lattice; readLattice s)
  let lo ← runPy (pyGet lat.sizes 0)
  let hi ← runPy (pyGet lat.sizes 1)
  polyaLoop tol lat outfile (pyRange lo (hi + 1)) d

/-! ## enum.in -/

/-- The type of the distribution, structures.py:229-256. -/
def ftypeOf (s : Str) : Py Ftype :=
  if s = "all".toList then .ok .all else if s = "shape".toList then .ok .shape
  else if s = "conc".toList then .ok .conc else if s = "size".toList then .ok .size else .error .valueError

/-- The sizes of the files found in the directory, structures.py:422-432. -/
def sizesFound (infile : Str) (files : List Str) : Py (List ℤ) :=
  (files.filter (fun f => containsStr infile f && decide (f.head? = infile.head?))).mapM
    (fun f => parseInt (strip ((splitOn '.' f).getLastD [])))

/-- The sizes used, structures.py:421-444: those given (each must have its file) or those found (at least one). -/
def sizesUsed (w : World) (d : Dir) (infile : Str) (sizes : Option (List ℤ)) : Py (List ℤ) :=
  let files := w.listdir (d.map (·.1))
  match sizes with
  | some l => if l.all (fun i => files.contains (infile ++ '.' :: intStr i)) then .ok l else .error .valueError
  | none => do
    let l ← sizesFound infile files
    if l = [] then .error .valueError else .ok l

/-- The lines of a filter file, structures.py:446-456. -/
def readFilter (kind : Str) (s : Str) : Py Restrict :=
  let lines := (fileLines s).filter (fun l => !(l.contains '#'))
  if kind = "shape".toList then do
    let v ← lines.mapM (fun l => ((pySplit l).take 6).mapM parseInt)
    .ok (.shapes v)
  else if kind = "conc".toList then do
    let v ← lines.mapM (fun l => (((pySplit l).drop 1).take 2).mapM parseInt)
    .ok (.concs (v.map (fun c => c.map Int.toNat)))
  else .error .valueError

/-- The restriction, if any, structures.py:446-460. -/
def readRestrict (d : Dir) : Option (Str × Str) → Py Restrict
  | some (kind, file) => do let s ← readFile d file; readFilter kind s
  | none => .ok Restrict.none

/-- The tables of the sizes, structures.py:275-290: a missing file is skipped. -/
def readTables (d : Dir) (infile : Str) : List ℤ → Py (List PolyaTable)
  | [] => .ok []
  | s :: ss =>
    match dictGet d (infile ++ '.' :: intStr s) with
    | none => readTables d infile ss
    | some text => do
      let t ← readPolya s.toNat text
      let r ← readTables d infile ss
      .ok (t :: r)

/-- The file written by `_print_distribution`, structures.py:366-393. -/
def printDist : Ftype → List (DKey × ℕ) → Str
  | .all, distr => printAll (distr.map (fun p => ((p.1.1, p.1.2.1.getD [], p.1.2.2.getD []), p.2)))
  | .shape, distr =>
    "# ".toList ++ padRight 18 "HNF".toList ++ "  ".toList ++ "Number".toList ++ ['\n'] ++
    distr.flatMap (fun (key, value) => "  ".toList ++ padRight 18 (joinStr [' '] ((key.2.1.getD []).map intStr)) ++ "  ".toList ++
      natStr value ++ ['\n'])
  | .conc, distr =>
    "# ".toList ++ padRight 6 "Size".toList ++ "  ".toList ++ padRight 6 "Conc.".toList ++ "  ".toList ++ "Number".toList ++ ['\n'] ++
    distr.flatMap (fun (key, value) => "  ".toList ++ padRight 6 (natStr key.1) ++ "  ".toList ++
      padRight 6 (joinStr [' '] ((key.2.2.getD []).map natStr)) ++ "  ".toList ++ natStr value ++ ['\n'])
  | .size, distr =>
    "# ".toList ++ padRight 6 "Size".toList ++ "  ".toList ++ "Number".toList ++ ['\n'] ++
    distr.flatMap (fun (key, value) => "  ".toList ++ padRight 6 (natStr key.1) ++ "  ".toList ++ natStr value ++ ['\n'])

/-- `make_enum_in`, structures.py:395-466. A negative number of structures is like zero. `distribution` is in small
letters (`_enum_in`). -/
def makeEnumIn (w : World) (infile distribution outfile : Str) (number : Option ℤ) (sizes : Option (List ℤ)) (save : Bool)
    (restrict : Option (Str × Str)) (d : Dir) : Py Dir := do
  let sizes ← sizesUsed w d infile sizes
  let res ← readRestrict d restrict
  let tables ← readTables d infile sizes
  let ft ← ftypeOf distribution
  let distr ← distributePy tables res ft (number.map Int.toNat) w.draws
  if distribution = "all".toList ∨ save then .ok (dictSet d outfile (printDist ft distr)) else .ok d

/-- The arguments of the program. -/
structure Args where
  polya : Bool
  enum : Bool
  lattice : Str
  input : Option Str
  outfile : Option Str
  distribution : Option (List Str)
  sizes : Option (ℤ × ℤ)
  super : Bool
  accept : Option ℚ
  savedist : Bool
  filter : Option (Str × Str)

/-- `_enum_in`, enumeration.py:19-49, `input`, `outfile` and `distribution` being `args["input"]`, `args["outfile"]` and
`args["distribution"]`. -/
noncomputable def enumIn (w : World) (tol : Tol) (a : Args) (input outfile : Str) (distribution : List Str) (d : Dir) : Run Dir := do
  let d ← if anyNumbered d input then pure d else polyaOut tol a.lattice input d
  let d0 ← runPy (pyGet distribution 0)
  let d1 ← runPy (pyGet distribution 1)
  let number ← runPy (if lowerStr d1 = "all".toList then .ok none else (parseInt (strip d1)).map some)
  runPy (makeEnumIn w input (lowerStr d0) outfile number (a.sizes.map (fun s => pyRange s.1 s.2)) a.savedist a.filter d)

/-! ## enum.out -/

/-- The entry of `enumlist` for a configuration, enumeration.py:184-186. -/
def enumEntry (hnf : List ℤ) (snf : SnfState) (config : Config) : EnumEntry :=
  let l := createLabelingArrows (config.map (fun s => (s.1, (s.2 : ℤ))))
  { size := hnf.getD 0 0 * hnf.getD 2 0 * hnf.getD 5 0
    hnf := hnf
    snf := [snf.M 0 0, snf.M 1 1, snf.M 2 2]
    lt := [snf.A 0 0, snf.A 0 1, snf.A 0 2, snf.A 1 0, snf.A 1 1, snf.A 1 2, snf.A 2 0, snf.A 2 1, snf.A 2 2]
    labeling := l.1
    arrowing := l.2 }

/-- The body of the loop over the systems, enumeration.py:173-186, with the call of `get_sym_group` in `enum_sys`,
phonons.py:405-416. With fewer than three numbers `get_full_HNF` raises
IndexError; simplification: with three to five (an incomplete last row) it is raised here too. -/
noncomputable def enumSystem (tol : Tol) (lat : LatticeIn) (supers accept : Bool) (rnd : EnumRandom) (sys : List ℤ × List ℤ × ℤ) :
    Run (List EnumEntry) := do
  let geo ← runPy lat.geometry
  let P := realMat geo.1
  let bas := realVecs geo.2
  let H ← runPy (if sys.1.length < 6 then .error .indexError else .ok (getFullHNF sys.1))
  let snf ← runO (smithNormalForm H)
  let aconcs := lat.arrowFractions
  let concs := sys.2.1.map Int.toNat
  let _ ← runPy (arrowConcs concs aconcs)
  let agroup ← getSymGroup P bas H 3 tol.sym (decide (aconcs.sum ≠ 0))
  let configs ← runO (enumSys agroup concs aconcs sys.2.2.toNat bas.length supers accept rnd)
  pure (configs.map (enumEntry sys.1 snf))

/-- The loop over the systems, enumeration.py:171-189; `i` is the number of the system. -/
noncomputable def enumLoop (w : World) (tol : Tol) (lat : LatticeIn) (supers accept : Bool) :
    ℕ → List (List ℤ × List ℤ × ℤ) → Run (List EnumEntry)
  | _, [] => pure []
  | i, sys :: rest => do
    let l ← enumSystem tol lat supers accept (w.rnd i) sys
    let r ← enumLoop w tol lat supers accept (i + 1) rest
    pure (l ++ r)

/-- The parameters that `write_enum` prints. -/
def LatticeIn.enumParams (lat : LatticeIn) (geo : Matrix (Fin 3) (Fin 3) ℚ × List (Fin 3 → ℚ)) : EnumParams :=
  { bulk := lat.bulk, latVecs := [geo.1 0, geo.1 1, geo.1 2], basisVecs := geo.2, nspecies := lat.nspecies.toNat,
    sizes := lat.sizes, restricted := lat.restricted }

/-- `_enum_out` after the making of the input file, enumeration.py:155-209. Without systems the name `sortenum` is not
defined. -/
noncomputable def enumWrite (w : World) (tol : Tol) (lat : LatticeIn) (supers accept : Bool) (outfile : Str)
    (systems : List (List ℤ × List ℤ × ℤ)) (d : Dir) : Run Dir := do
  let geo ← runPy lat.geometry
  let enumlist ← enumLoop w tol lat supers accept 0 systems
  if systems = [] then throw .nameError
  else pure (dictSet d outfile (enumOutFile (lat.enumParams geo) w.now enumlist))

/-- `_enum_out`, enumeration.py:128-209, `input` and `outfile` being `args["input"]` and `args["outfile"]`. -/
noncomputable def enumOut (w : World) (tol : Tol) (a : Args) (input outfile : Str) (d : Dir) : Run Dir := do
  let lat ← runPy (do let s ← readFile d a.lattice; readLattice s)
  let d ← if (dictGet d input).isSome then pure d else do
    let d ← if anyNumbered d "polya.out".toList then pure d else polyaOut tol a.lattice "polya.out".toList d
    enumIn w tol a "polya.out".toList input (a.distribution.getD ["all".toList, "all".toList]) d
  let systems ← runPy (do let s ← readFile d input; readEnum s)
  enumWrite w tol lat a.super a.accept.isSome outfile systems d

/-! ## the program -/

/-- The names of the input and output files chosen by `_script_enum`, enumeration.py:329-351: the three branches share the
variables `args["input"]` and `args["outfile"]`. -/
def fileNames (a : Args) : Option Str × Option Str :=
  let out := a.outfile
  let out := if a.polya then some (out.getD "polya.out".toList) else out
  let inp := a.input
  let inp := if a.enum then some (inp.getD "enum.in".toList) else inp
  let out := if a.enum then some (out.getD "enum.out".toList) else out
  let inp := if a.distribution.getD [] ≠ [] then some (inp.getD "polya.out".toList) else inp
  let out := if a.distribution.getD [] ≠ [] then some (out.getD "enum.in".toList) else out
  (inp, out)

/-- The checks of `_script_enum`, enumeration.py:331-359. -/
def checkArgs (a : Args) (d : Dir) : Py Unit := do
  if a.polya ∧ (dictGet d a.lattice).isNone then .error .ioError
  if a.distribution.getD [] ≠ [] ∧ (a.distribution.getD []).length ≠ 2 then .error .valueError
  match a.accept with
  | some q => if q ≠ 0 ∧ q > 1 then .error .valueError else .ok ()
  | none => .ok ()

/-- `_script_enum`, enumeration.py:317-368. -/
noncomputable def scriptEnum (w : World) (tol : Tol) (a : Args) (d : Dir) : Run Dir := do
  let names := fileNames a
  runPy (checkArgs a d)
  let d ← if a.polya then polyaOut tol a.lattice (names.2.getD []) d else pure d
  let d ← if a.enum then enumOut w tol a (names.1.getD []) (names.2.getD []) d else pure d
  if a.distribution.getD [] ≠ [] ∧ a.enum = false then
    enumIn w tol a (names.1.getD []) (names.2.getD []) (a.distribution.getD []) d
  else pure d

end Phenum
