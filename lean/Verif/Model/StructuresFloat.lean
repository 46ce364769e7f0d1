import Verif.Model.Structures
/-
Model of `_distribute`, phenum/structures.py, in floating point arithmetic: `fl` rounds the result of every operation. The operations on which the result depends are
the shares and the test of the random number against the fractional part of a share; everything else is done with integers.

Simplifications: no limit on the exponents; `random()` is an arbitrary stream of numbers.
-/
namespace Phenum

/-- The function `f` in floats, structures.py:231-252: `count/ftotal*n`; the integers are converted to floats by the operations. -/
def shareF (fl : ℚ → ℚ) (n gtotal limit : ℕ) : ℚ := fl (fl (fl limit / fl gtotal) * fl n)

/-- The number drawn for a share in floats: `modf` (exact) and `int(qf + (1 if random() < rf else 0))`, structures.py:118-119. -/
def drawCountF (fl : ℚ → ℚ) (v r : ℚ) : ℕ := ⌊fl (⌊v⌋ + (if r < Int.fract v then 1 else 0))⌋.toNat

/-- One pass over the sorted shares in floats, structures.py:112-121, as `passLoop`. -/
def passLoopF (fl : ℚ → ℚ) (m n gtotal : ℕ) : List (DKey × ℕ) → (ℕ → ℚ) → ℕ × List (DKey × ℕ) → (ℕ × List (DKey × ℕ)) × ℕ
  | [], _, st => (st, 0)
  | (k, limit) :: rest, draws, st =>
    match vinsert k (drawCountF fl (shareF fl m gtotal limit) (draws 0)) n st with
    | none => (st, 1)
    | some st' =>
      let r := passLoopF fl m n gtotal rest (fun i => draws (i + 1)) st'
      (r.1, r.2 + 1)

/-- The loop `while rtotal[0] < n and recount < 4` in floats, structures.py:109-122, as `recountLoop`. -/
def recountLoopF (fl : ℚ → ℚ) (n gtotal : ℕ) (rel : List (DKey × ℕ)) : ℕ → (ℕ → ℚ) → ℕ × List (DKey × ℕ) → ℕ × List (DKey × ℕ)
  | 0, _, st => st
  | k + 1, draws, st =>
    if st.1 < n then
      let r := passLoopF fl (n - st.1) n gtotal rel draws st
      recountLoopF fl n gtotal rel k (fun i => draws (i + r.2)) r.1
    else st

/-- The stable sort by decreasing share in floats, structures.py:107. -/
def sortSharesF (fl : ℚ → ℚ) (n gtotal : ℕ) (rel : List (DKey × ℕ)) : List (DKey × ℕ) :=
  rel.insertionSort (fun a b => shareF fl n gtotal a.2 ≥ shareF fl n gtotal b.2)

/-- `_distribute` in floats, structures.py:37-168. The result dict. -/
def distributeF (fl : ℚ → ℚ) (tables : List PolyaTable) (res : Restrict) (ft : Ftype) (n : Option ℕ) (draws : ℕ → ℚ) : List (DKey × ℕ) :=
  let ds := distSummary tables res
  let gtotal := ds.2
  let n := match n with
    | none => gtotal
    | some k => if k > gtotal then gtotal else k
  let rel := relKeys ds.1 ft
  if n = gtotal then (assignAll n rel (0, [])).2
  else (recountLoopF fl n gtotal (sortSharesF fl n gtotal rel) 4 draws (0, [])).2

/-- `_distribute` in floats with its ZeroDivisionError, as `distributePy`. -/
def distributePyF (fl : ℚ → ℚ) (tables : List PolyaTable) (res : Restrict) (ft : Ftype) (n : Option ℕ) (draws : ℕ → ℚ) : Py (List (DKey × ℕ)) :=
  if (distSummary tables res).2 = 0 ∧ relKeys (distSummary tables res).1 ft ≠ [] then .error .zeroDivision else .ok (distributeF fl tables res ft n draws)

end Phenum
