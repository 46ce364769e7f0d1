import Verif.Py
import Mathlib.Data.Rat.Floor
import Mathlib.Data.List.Sort
/-
Model of phenum/structures.py: choosing how many structures of each type to enumerate, from the polya.out tables
written by `_polya_out` of phenum/enumeration.py.

Simplifications: files are the tables they contain (the text layer is not modelled here); floats are exact rationals;
`random()` is an arbitrary stream of numbers in [0,1).
-/
namespace Phenum

/-- The six lower-triangular entries of an HNF. -/
abbrev HNF6 := List ℤ
/-- A concentration: the number of atoms of each species. -/
abbrev Conc := List ℕ

/-- The contents of one polya.out file: the concentrations in the heading, one row per HNF (the counts and the row
total) and the last row with the column totals. -/
structure PolyaTable where
  size : ℕ
  concs : List Conc
  rows : List (HNF6 × List ℕ × ℕ)
  last : List ℕ

/-- The table written by `_polya_out` for one size, enumeration.py:83-119: `count` is the number returned by `polya` for
an HNF and a concentration; `total` and `conc_totals` are accumulated in the loops. -/
def polyaTable (size : ℕ) (hnfs : List HNF6) (concs : List Conc) (count : HNF6 → Conc → ℕ) : PolyaTable where
  size := size
  concs := concs
  rows := hnfs.map (fun h => (h, concs.map (count h), (concs.map (count h)).foldl (· + ·) 0))
  last := hnfs.foldl (fun tot h => List.zipWith (· + ·) tot (concs.map (count h))) (List.replicate concs.length 0)

section
variable {α β : Type} [DecidableEq α]

/-- `d[k] = v` on an insertion-ordered dict. -/
def dictSet (d : List (α × β)) (k : α) (v : β) : List (α × β) :=
  match d with
  | [] => [(k, v)]
  | (k', v') :: r => if k' = k then (k', v) :: r else (k', v') :: dictSet r k v

/-- A dict built from a list of pairs. -/
def dictOf (l : List (α × β)) : List (α × β) := l.foldl (fun d p => dictSet d p.1 p.2) []

/-- `d[k]`, `None` standing for a missing key. -/
def dictGet (d : List (α × β)) (k : α) : Option β := (d.find? (fun p => p.1 = k)).map (·.2)

/-- `d[k] += v` for a present key, or `d[k] = v`. -/
def dictBump (d : List (α × ℕ)) (k : α) (v : ℕ) : List (α × ℕ) :=
  match d with
  | [] => [(k, v)]
  | (k', v') :: r => if k' = k then (k', v' + v) :: r else (k', v') :: dictBump r k v

end

/-- The restriction passed as `res_type`, `res_values`. -/
inductive Restrict
  | none
  | shapes (l : List HNF6)
  | concs (l : List Conc)

/-- The entry of `dataset` for one size, structures.py:328-334. -/
structure SizeData where
  distr : List (HNF6 × List (Conc × ℕ))
  ctotals : List (Conc × ℕ)
  stotals : List (HNF6 × ℕ)

/-- `sum([ctotals[key] for key in ctotals])`, structures.py:333. -/
def SizeData.gtotal (d : SizeData) : ℕ := (d.ctotals.map (·.2)).sum

/-- The body of the loop of `_distribution_summary` for one file, structures.py:293-334. -/
def sizeData (t : PolyaTable) : Restrict → SizeData
  | .none =>
    { distr := dictOf (t.rows.map (fun r => (r.1, dictOf (t.concs.zip r.2.1))))
      stotals := dictOf (t.rows.map (fun r => (r.1, r.2.2)))
      ctotals := dictOf (t.concs.zip t.last) }
  | .shapes l =>
    let rows := t.rows.filter (fun r => r.1 ∈ l)
    { distr := dictOf (rows.map (fun r => (r.1, dictOf (t.concs.zip r.2.1))))
      ctotals := rows.foldl (fun d r => (t.concs.zip r.2.1).foldl (fun d p => dictBump d p.1 p.2) d)
        (dictOf (t.concs.map (fun c => (c, 0))))
      stotals := dictOf (rows.map (fun r => (r.1, r.2.2))) }
  | .concs l =>
    let distr := dictOf (t.rows.map (fun r => (r.1, dictOf ((t.concs.zip r.2.1).filter (fun p => p.1 ∈ l)))))
    { distr := distr
      ctotals := t.rows.foldl (fun d r => ((t.concs.zip r.2.1).filter (fun p => p.1 ∈ l)).foldl (fun d p => dictBump d p.1 p.2) d)
        (dictOf (t.concs.map (fun c => (c, 0))))
      stotals := dictOf ((t.rows.filter (fun r => (dictGet distr r.1).isSome)).map (fun r => (r.1, r.2.2))) }

/-- `_distribution_summary`, structures.py:259-338: the dataset and the grand total. Missing files are skipped by the
code; `tables` are those found. -/
def distSummary (tables : List PolyaTable) (res : Restrict) : List (ℕ × SizeData) × ℕ :=
  (dictOf (tables.map (fun t => (t.size, sizeData t res))),
    (tables.map (fun t => (sizeData t res).gtotal)).sum)

/-- The kind of distribution. -/
inductive Ftype
  | all
  | shape
  | conc
  | size

/-- A key `(size, HNF or None, conc or None)`. -/
abbrev DKey := ℕ × Option HNF6 × Option Conc

/-- The keys and limits of `relvals`, structures.py:129-157. -/
def relKeys (dataset : List (ℕ × SizeData)) : Ftype → List (DKey × ℕ)
  | .all => dataset.flatMap (fun (s, d) => d.distr.flatMap (fun (h, cs) => cs.map (fun (c, v) => ((s, some h, some c), v))))
  | .shape => dataset.flatMap (fun (s, d) => d.stotals.map (fun (h, v) => ((s, some h, none), v)))
  | .conc => dataset.flatMap (fun (s, d) => d.ctotals.map (fun (c, v) => ((s, none, some c), v)))
  | .size => dataset.map (fun (s, d) => ((s, none, none), d.gtotal))

/-- The function `f`, structures.py:231-252: `count/ftotal*n`. The count looked up in the dataset is the limit stored
with the key. -/
def share (n gtotal limit : ℕ) : ℚ := (limit : ℚ) / (gtotal : ℚ) * (n : ℚ)

/-- `vinsert`, structures.py:74-84: the new total and dict, `none` when the total has been reached. -/
def vinsert (key : DKey) (value n : ℕ) (st : ℕ × List (DKey × ℕ)) : Option (ℕ × List (DKey × ℕ)) :=
  if st.1 < n then
    if value > 0 then some (st.1 + value, dictBump st.2 key value) else some st
  else none

/-- The loop of the full distribution, structures.py:91-93 (the return value of `vinsert` is ignored). -/
def assignAll (n : ℕ) : List (DKey × ℕ) → ℕ × List (DKey × ℕ) → ℕ × List (DKey × ℕ)
  | [], st => st
  | (k, limit) :: rest, st => assignAll n rest ((vinsert k limit n st).getD st)

/-- The number drawn for a share: `modf` and `int(qf + (1 if random() < rf else 0))`, structures.py:118-119. -/
def drawCount (v r : ℚ) : ℕ := (⌊v⌋ + (if r < Int.fract v then 1 else 0)).toNat

/-- One pass over the sorted shares, structures.py:112-121; `draws` are the random numbers still to come, `m` is `n`
on the first pass and `delta` later. Returns the state and the number of draws used. -/
def passLoop (m n gtotal : ℕ) : List (DKey × ℕ) → (ℕ → ℚ) → ℕ × List (DKey × ℕ) → (ℕ × List (DKey × ℕ)) × ℕ
  | [], _, st => (st, 0)
  | (k, limit) :: rest, draws, st =>
    match vinsert k (drawCount (share m gtotal limit) (draws 0)) n st with
    | none => (st, 1)
    | some st' =>
      let r := passLoop m n gtotal rest (fun i => draws (i + 1)) st'
      (r.1, r.2 + 1)

/-- The loop `while rtotal[0] < n and recount < 4`, structures.py:109-122; the first argument is `4 - recount`. -/
def recountLoop (n gtotal : ℕ) (rel : List (DKey × ℕ)) : ℕ → (ℕ → ℚ) → ℕ × List (DKey × ℕ) → ℕ × List (DKey × ℕ)
  | 0, _, st => st
  | k + 1, draws, st =>
    if st.1 < n then
      -- on the first pass `value` was computed with `n`; `delta = n - 0` is the same number
      let r := passLoop (n - st.1) n gtotal rel draws st
      recountLoop n gtotal rel k (fun i => draws (i + r.2)) r.1
    else st

/-- Stable sort by decreasing share (the share is monotone in the limit), structures.py:107. -/
def sortShares (n gtotal : ℕ) (rel : List (DKey × ℕ)) : List (DKey × ℕ) :=
  rel.insertionSort (fun a b => share n gtotal a.2 ≥ share n gtotal b.2)

/-- `_distribute`, structures.py:37-168. The result dict. -/
def distribute (tables : List PolyaTable) (res : Restrict) (ft : Ftype) (n : Option ℕ) (draws : ℕ → ℚ) : List (DKey × ℕ) :=
  let ds := distSummary tables res
  let gtotal := ds.2
  let n := match n with
    | none => gtotal
    | some k => if k > gtotal then gtotal else k
  let rel := relKeys ds.1 ft
  if n = gtotal then (assignAll n rel (0, [])).2
  else (recountLoop n gtotal (sortShares n gtotal rel) 4 draws (0, [])).2

/-- `_distribute` with its exception: the shares of all types are computed before anything is assigned, structures.py:129-157, by a division by the number of
structures, structures.py:234-252. Where there are types but no structures that is a ZeroDivisionError. -/
def distributePy (tables : List PolyaTable) (res : Restrict) (ft : Ftype) (n : Option ℕ) (draws : ℕ → ℚ) : Py (List (DKey × ℕ)) :=
  if (distSummary tables res).2 = 0 ∧ relKeys (distSummary tables res).1 ft ≠ [] then .error .zeroDivision else .ok (distribute tables res ft n draws)

end Phenum
