import Verif.Model.Structures
import Verif.Model.Reduce
import Mathlib.Data.Rat.Floor
/-
Model of the text files: polya.out (phenum/enumeration.py:69-124 and structures.py:286-290), enum.in
(structures.py:370-393 and io_utils.py:75-98) and enum.out (io_utils.py:100-133, 220-244, 246-344 and
enumeration.py:162-205).

Strings are lists of characters, a file is the string of its contents. Simplifications: `int(..)` and `float(..)` are
modelled on plain decimal notation (no underscores, no surrounding white space: they are applied to the results of
`split`); a `{:.7f}` conversion rounds the exact value of its argument, which is a rational number.
-/
namespace Phenum

/-- A string. -/
abbrev Str := List Char

/-- The decimal digit `d`. -/
def digitChar (d : ℕ) : Char := Char.ofNat (48 + d)

/-- `str(n)` for a non-negative integer. -/
def natStr (n : ℕ) : Str :=
  if _h : n < 10 then [digitChar n] else natStr (n / 10) ++ [digitChar (n % 10)]
decreasing_by omega

/-- `str(n)` for an integer. -/
def intStr : ℤ → Str
  | .ofNat n => natStr n
  | .negSucc n => '-' :: natStr (n + 1)

/-- The value of a string of digits. -/
def digitsVal (l : Str) : ℕ := l.foldl (fun v ch => 10 * v + (ch.toNat - 48)) 0

/-- `int(s)` for a string of digits. -/
def parseNat (l : Str) : Py ℕ := if l ≠ [] ∧ l.all Char.isDigit then .ok (digitsVal l) else .error .valueError

/-- `int(s)`. -/
def parseInt : Str → Py ℤ
  | '-' :: l => (parseNat l).map (fun n : ℕ => -(n : ℤ))
  | '+' :: l => (parseNat l).map (fun n : ℕ => (n : ℤ))
  | l => (parseNat l).map (fun n : ℕ => (n : ℤ))

/-- White space. -/
def isWs (ch : Char) : Bool := ch = ' ' || ch = '\n' || ch = '\t' || ch = '\r'

/-- `s.split()`, `cur` being the current word in reverse. -/
def splitAux : Str → Str → List Str
  | [], cur => if cur = [] then [] else [cur.reverse]
  | ch :: rest, cur =>
    if isWs ch then (if cur = [] then splitAux rest [] else cur.reverse :: splitAux rest []) else splitAux rest (ch :: cur)

/-- `s.split()`. -/
def pySplit (s : Str) : List Str := splitAux s []

/-- `s.split(sep)` for a single character, also used to cut a file into lines. -/
def splitOn (sep : Char) : Str → List Str
  | [] => [[]]
  | ch :: rest =>
    if ch = sep then [] :: splitOn sep rest
    else match splitOn sep rest with
      | [] => [[ch]]
      | w :: ws => (ch :: w) :: ws

/-- The lines of a file (a last line is only there if it is not empty). -/
def fileLines (s : Str) : List Str :=
  let l := splitOn '\n' s
  if l.getLast? = some [] then l.dropLast else l

/-- `{: >w}`. -/
def padLeft (w : ℕ) (s : Str) : Str := List.replicate (w - s.length) ' ' ++ s

/-- `{: <w}`. -/
def padRight (w : ℕ) (s : Str) : Str := s ++ List.replicate (w - s.length) ' '

/-- `sep.join(words)`. -/
def joinStr (sep : Str) : List Str → Str
  | [] => []
  | [w] => w
  | w :: ws => w ++ sep ++ joinStr sep ws

/-! ## loadtxt -/

/-- `l[i:j]` for `l[lo:-1]`. -/
def sliceToLast {α : Type} (lo : ℕ) (l : List α) : List α := (l.drop lo).dropLast

/-- All rows must have the same length. -/
def checkRows : List (List ℤ) → Py (List (List ℤ))
  | [] => .ok []
  | r :: rest => if rest.all (fun r' => r'.length = r.length) then .ok (r :: rest) else .error .valueError

/-- `numpy.loadtxt(file, int)`: comments are cut off, blank lines skipped, and all rows must have the same length. -/
def loadtxt (s : Str) : Py (List (List ℤ)) := do
  let lines := (fileLines s).map (fun l => pySplit (l.takeWhile (· ≠ '#')))
  let rows ← (lines.filter (fun l => l ≠ [])).mapM (fun l => l.mapM parseInt)
  checkRows rows

/-! ## enum.in -/

/-- The file written by `_print_distribution(distr, "all", filename)`, structures.py:370-387; the keys of `distr` are
(size, HNF, conc). -/
def printAll (distr : List ((ℕ × HNF6 × Conc) × ℕ)) : Str :=
  "# ".toList ++ padRight 28 "HNF".toList ++ "  ".toList ++ padRight 10 "Conc.".toList ++ "  ".toList ++ "Number".toList ++ ['\n'] ++
  distr.flatMap (fun (key, value) =>
    "  ".toList ++ padRight 28 (joinStr [' '] (key.2.1.map intStr)) ++ "  ".toList ++
      padRight 10 (joinStr [' '] (key.2.2.map natStr)) ++ "  ".toList ++ natStr value ++ ['\n'])

/-- `read_enum`, io_utils.py:75-98: `(HNF, concs, num_wanted)` for each row. -/
def readEnum (s : Str) : Py (List (List ℤ × List ℤ × ℤ)) := do
  let raw ← loadtxt s
  raw.mapM (fun i => match i.getLast? with
    | some w => .ok (i.take 6, sliceToLast 6 i, w)
    | none => .error .indexError)

/-! ## polya.out -/

/-- The file written by `_polya_out` for one size, enumeration.py:83-124. -/
def writePolya (t : PolyaTable) : Str :=
  padRight 28 "# HNF".toList ++ t.concs.flatMap (fun c => padRight 50 (joinStr [':'] (c.map natStr))) ++
    padRight 50 "Total".toList ++ ['\n'] ++
  t.rows.flatMap (fun (h, counts, total) =>
    "  ".toList ++ padRight 26 (joinStr [' '] (h.map intStr)) ++ counts.flatMap (fun v => padRight 50 (natStr v)) ++
      padRight 10 (natStr total) ++ ['\n']) ++
  "# ".toList ++ List.replicate (t.concs.length * 10 + 10 + 30) '-' ++ ['\n'] ++
  padRight 28 "  0 0 0 0 0 0".toList ++ t.last.flatMap (fun v => padRight 50 (natStr v)) ++
    padRight 50 (natStr t.last.sum) ++ ['\n']

/-- The reading of such a file, structures.py:286-290, with the parts of the array that the code uses
(`polya[0:-1,0:6]`, `polya[:,6:-1]`, `polya[:-1,-1]`, `polya[-1,6:-1]`). With fewer than two rows `loadtxt` returns an array with one dimension, which has no `[0:-1,0:6]`. -/
def readPolya (size : ℕ) (s : Str) : Py PolyaTable := do
  let headings := pySplit ((fileLines s).headD [])
  let concs ← (sliceToLast 2 headings).mapM (fun h => (splitOn ':' h).mapM parseNat)
  let polya ← loadtxt s
  if polya.length < 2 then .error .indexError else
  match polya.getLast? with
  | none => .error .indexError
  | some lastRow =>
    .ok { size := size, concs := concs,
          rows := polya.dropLast.map (fun r => (r.take 6, (sliceToLast 6 r).map Int.toNat, (r.getLastD 0).toNat)),
          last := (sliceToLast 6 lastRow).map Int.toNat }

/-! ## enum.out -/

/-- `create_labeling`, io_utils.py:220-244, for a configuration with arrows: `[arrow, colour]` for each site. -/
def createLabelingArrows (config : List (ℤ × ℤ)) : Str × Str :=
  (config.flatMap (fun i => intStr (i.2 - 1)), config.flatMap (fun i => intStr (i.1 + 1)))

/-- `create_labeling`, io_utils.py:220-244, for a configuration without arrows. -/
def createLabelingPlain (config : List ℤ) : Str × Str :=
  (config.flatMap (fun i => intStr (i - 1)), config.map (fun _ => '0'))

/-- An entry of `enumlist`, enumeration.py:186. -/
structure EnumEntry where
  size : ℤ
  hnf : List ℤ
  snf : List ℤ
  lt : List ℤ
  labeling : Str
  arrowing : Str
  deriving DecidableEq

/-- `fmtn(l, n)`, enumeration.py:166-168. -/
def fmtn (l : List ℤ) (n : ℕ) : Str := l.flatMap (fun i => padLeft n (intStr i))

/-- One line of enum.out, enumeration.py:163-164, 202-203. -/
def enumOutLine (countT countS : ℕ) (x : EnumEntry) : Str :=
  padLeft 10 (natStr countT) ++ padLeft 10 (natStr 1) ++ padLeft 8 (natStr 1) ++ padLeft 9 (natStr 1) ++
  padLeft 9 (natStr 1) ++ padLeft 12 (natStr countS) ++ padLeft 4 (intStr x.size) ++ padLeft 6 (natStr 1) ++
  padLeft 10 (fmtn x.snf 3) ++ "  ".toList ++ padLeft 18 (fmtn x.hnf 3) ++ "  ".toList ++ padLeft 44 (fmtn x.lt 5) ++
  "    ".toList ++ x.labeling ++ "    ".toList ++ padLeft 21 x.arrowing ++ ['\n']

/-- The order of the lines: by size, then by the labeling string, enumeration.py:188. -/
def entryLe (x y : EnumEntry) : Bool := decide (x.size < y.size ∨ (x.size = y.size ∧ x.labeling ≤ y.labeling))

/-- The counters: `(count_t, count_s, entry)` for each line, enumeration.py:194-207. -/
def numberEntries : ℕ → ℕ → ℤ → List EnumEntry → List (ℕ × ℕ × EnumEntry)
  | _, _, _, [] => []
  | countT, countS, lastSz, x :: xs =>
    let countS' := if x.size ≠ lastSz then 1 else countS + 1
    (countT, countS', x) :: numberEntries (countT + 1) countS' x.size xs

/-- The numbered lines of enum.out, enumeration.py:188-207 (for a non-empty list of systems). -/
def enumOutRows (enumlist : List EnumEntry) : List (ℕ × ℕ × EnumEntry) :=
  let sorted := enumlist.mergeSort entryLe
  match sorted with
  | [] => []
  | x :: _ => numberEntries 1 0 x.size sorted

/-- `{:.7f}`. -/
def fmt7 (x : ℚ) : Str :=
  let m : ℕ := (npRound (|x| * 10 ^ 7)).toNat
  let frac := natStr (m % 10 ^ 7)
  (if x < 0 then ['-'] else []) ++ natStr (m / 10 ^ 7) ++ ['.'] ++ List.replicate (7 - frac.length) '0' ++ frac

/-- `float(s)` for a string of digits with an optional point. -/
def parseDecimal (s : Str) : Py ℚ :=
  match splitOn '.' s with
  | [a] => if a ≠ [] ∧ a.all Char.isDigit then .ok (digitsVal a) else .error .valueError
  | [a, b] =>
    if a ++ b ≠ [] ∧ (a ++ b).all Char.isDigit then .ok ((digitsVal (a ++ b) : ℚ) / 10 ^ b.length) else .error .valueError
  | _ => .error .valueError

/-- `float(s)`: sign, decimal number, optional exponent. -/
def parseFloat (s : Str) : Py ℚ :=
  let (sgn, body) : ℚ × Str := match s with
    | '-' :: l => (-1, l)
    | '+' :: l => (1, l)
    | l => (1, l)
  match splitOn 'e' body with
  | [a] => (parseDecimal a).map (fun v => sgn * v)
  | [a, b] => do
    let v ← parseDecimal a
    let x ← parseInt b
    .ok (sgn * v * (10 : ℚ) ^ x)
  | _ => .error .valueError

/-- The parameters that `write_enum` uses. -/
structure EnumParams where
  bulk : Bool
  latVecs : List (Fin 3 → ℚ)
  basisVecs : List (Fin 3 → ℚ)
  nspecies : ℕ
  sizes : List ℤ
  restricted : Bool

/-- A line with three numbers, io_utils.py:111, 113. -/
def vecLine (indent : ℕ) (v : Fin 3 → ℚ) : Str :=
  List.replicate indent ' ' ++ fmt7 (v 0) ++ List.replicate 7 ' ' ++ fmt7 (v 1) ++ List.replicate 7 ' ' ++ fmt7 (v 2)

/-- The titles of the columns, io_utils.py:123-126. -/
def columnTitles : Str :=
  ("start   #tot      HNF     Hdegn   labdegn   Totdegn   #size idx    " ++
    "pg    SNF             HNF                 Left " ++
    "transform                          labeling                 " ++
    "directions").toList

/-- The lines written by `write_enum`, io_utils.py:107-133; `now` is the date. -/
def headerLines (p : EnumParams) (now : Str) : List Str :=
  ["Random structure enumeration: ".toList ++ now, if p.bulk then "bulk".toList else "surface".toList] ++
  p.latVecs.map (vecLine 1) ++
  ["    ".toList ++ natStr p.basisVecs.length] ++
  p.basisVecs.map (vecLine 2) ++
  [" ".toList ++ natStr p.nspecies ++ "-nary case".toList,
   "   ".toList ++ joinStr "   ".toList (p.sizes.map intStr),
   " 1e-7".toList,
   "Concentration check:".toList,
   if p.restricted then "    T".toList else "    F".toList,
   "full list of labelings (including incomplete labelings) is used ".toList,
   "Equivalency list: 1 #Not used in the random enumeration algorithm ".toList,
   columnTitles]

/-- The file enum.out: `write_enum` followed by the lines appended by `_enum_out`, io_utils.py:132-133 and
enumeration.py:170-207. -/
def enumOutFile (p : EnumParams) (now : Str) (enumlist : List EnumEntry) : Str :=
  (headerLines p now).flatMap (fun l => l ++ ['\n']) ++
  (enumOutRows enumlist).flatMap (fun (t, s, x) => enumOutLine t s x)

/-- The data of one structure returned by `read_enum_out`, io_utils.py:324-343 (the constant degeneracies and the number
of point group operations are left out). -/
structure ReadStruct where
  strN : ℤ
  sizeN : ℤ
  n : ℤ
  diag : List ℤ
  hnf : List ℤ
  lt : List ℤ
  labeling : Str
  directions : Str
  deriving DecidableEq

/-- `int(data[i])`. -/
def numAt (data : List Str) (i : ℕ) : Py ℤ := (pyGet data i).bind parseInt

/-- The data of one line, io_utils.py:322-344. -/
def readRow (temp : Str) : Py ReadStruct := do
  let data := pySplit temp
  let nums ← (List.range 26).mapM (numAt data)
  let labeling ← pyGet data 26
  let directions ← pyGet data 27
  .ok ⟨nums.getD 0 0, nums.getD 5 0, nums.getD 6 0, (nums.drop 8).take 3, (nums.drop 11).take 6, (nums.drop 17).take 9,
    labeling, directions⟩

/-- The dictionary `system`, io_utils.py:289-315. -/
structure ReadSystem where
  title : Str := []
  plattice : List (List ℚ) := []
  dvecs : List (List ℚ) := []
  nD : ℤ := 0
  k : Option ℤ := none
  eps : Option ℚ := none

/-- `s.rstrip()`. -/
def rstrip (s : Str) : Str := (s.reverse.dropWhile isWs).reverse

/-- `s.strip()`. -/
def strip (s : Str) : Str := (rstrip s).dropWhile isWs

/-- `[float(v) for v in temp.split()]`. -/
def floatsOf (temp : Str) : Py (List ℚ) := (pySplit temp).mapM parseFloat

/-- Lines 1 and 3 to 6, io_utils.py:299-307. -/
def readHead (lc : ℕ) (temp : Str) (s : ReadSystem) : Py ReadSystem :=
  if lc = 1 then .ok { s with title := temp }
  else if lc = 3 ∨ lc = 4 ∨ lc = 5 then (floatsOf temp).map (fun v => { s with plattice := s.plattice ++ [v] })
  else if lc = 6 then (parseInt (strip temp)).map (fun n => { s with nD := n })
  else .ok s

/-- The basis atoms, io_utils.py:308-310. -/
def readBasis (lc : ℕ) (temp : Str) (s : ReadSystem) : Py ReadSystem :=
  if s.nD ≠ 0 ∧ 7 ≤ (lc : ℤ) ∧ (lc : ℤ) < 7 + s.nD then (floatsOf temp).map (fun v => { s with dvecs := s.dvecs ++ [v] })
  else .ok s

/-- The number of species and the tolerance, io_utils.py:311-314. -/
def readRest (lc : ℕ) (temp : Str) (s : ReadSystem) : Py ReadSystem :=
  if (lc : ℤ) = 7 + s.nD then (parseInt (strip ((splitOn '-' temp).headD []))).map (fun k => { s with k := some k })
  else if (lc : ℤ) = 9 + s.nD then (parseFloat (strip temp)).map (fun e => { s with eps := some e })
  else .ok s

/-- The body of the loop over the lines, io_utils.py:296-345: `lc` is the number of the line. Line 2 (`bulksurf`) is not
stored. -/
def readLine (want : ℤ → Bool) (lc : ℕ) (line : Str) (acc : ReadSystem × List ReadStruct) : Py (ReadSystem × List ReadStruct) :=
  let temp := rstrip line
  if temp.head? = some '#' then .ok acc else do
  let s ← readHead lc temp acc.1
  let s ← readBasis lc temp s
  let s ← readRest lc temp s
  if want ((lc : ℤ) - (14 + s.nD)) ∧ s.nD ≠ 0 then do
    let r ← readRow temp
    .ok (s, acc.2 ++ [r])
  else .ok (s, acc.2)

/-- The loop over the lines, io_utils.py:296-345. -/
def readLoop (want : ℤ → Bool) : ℕ → List Str → ReadSystem × List ReadStruct → Py (ReadSystem × List ReadStruct)
  | _, [], acc => .ok acc
  | lc, l :: ls, acc => do
    let acc ← readLine want lc l acc
    readLoop want (lc + 1) ls acc

/-- The numbers of the structures that are wanted, io_utils.py:276-283, for a file of `nlines` lines: `list(range(1,count-13))`
where `count` is the index of the last line. -/
def wantedStructures (structures : Option (List ℤ)) (nlines : ℕ) : List ℤ :=
  match structures with
  | none => pyRange 1 ((nlines : ℤ) - 1 - 13)
  | some l => l

/-- `read_enum_out`, io_utils.py:246-349; `structures = none` stands for "all". Simplifications: the transposition of
the lattice vectors at the end is left to the reader of the result; `structures` is `None` or a list (never a string,
see `run` of phenumStr.py). -/
def readEnumOut (structures : Option (List ℤ)) (s : Str) : Py (ReadSystem × List ReadStruct) :=
  let lines := fileLines s
  let wanted := wantedStructures structures lines.length
  readLoop (fun i => wanted.contains i) 1 lines ({}, [])

end Phenum
