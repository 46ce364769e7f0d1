import Verif.Model.Polya
import Mathlib.Algebra.Order.Floor.Ring
import Mathlib.Data.Rat.Floor
/-
Model of `get_concs_for_size` of phenum/symmetry.py.

Simplification: floating point numbers are exact rationals; the tolerance `eps` (1E-10 in the code) is a parameter.
-/
namespace Phenum

/-- `get_concs_for_size` without restrictions, symmetry.py:86-95. -/
def concsFree (size nspecies nB : ℕ) : List (List ℕ) :=
  (pyProduct (List.replicate nspecies (List.range (size * nB + 1)))).filter (fun p => p.sum = size * nB)

/-- A concentration restriction `[c0, c1, denominator]`. -/
abbrev ConcRange := ℤ × ℤ × ℤ

/-- The row `[lowest, highest, ...]` of the volume table, symmetry.py:38-41. -/
def volRow (size nB : ℕ) (denom : ℤ) (c : ConcRange) : ℤ × ℤ :=
  (⌊((min c.1 c.2.1 : ℤ) : ℚ) / denom * size * nB⌋, ⌈((max c.1 c.2.1 : ℤ) : ℚ) / denom * size * nB⌉)

/-- The state of the odometer: the labels `a`, the counters `dig_cnt` and the list `c_list`. -/
structure Odo where
  a : List ℤ
  cnt : List ℕ
  out : List (List ℤ)

/-- The inner loop `while done2 == False`, symmetry.py:68-79; the argument is `j + 1`. Returns the final `j`
(`none` if it became negative). All lists have the same length `k`, and `j < k`. -/
def odoCarry (lo : List ℤ) (digit : List ℕ) : ℕ → List ℤ × List ℕ → Option ℕ × List ℤ × List ℕ
  | 0, st => (none, st)
  | j + 1, (a, cnt) =>
    if cnt.getD j 0 ≠ digit.getD j 0 then (some j, a, cnt)
    else odoCarry lo digit j (a.set j (lo.getD j 0), cnt.set j 0)

/-- The test on the concentrations, symmetry.py:62-66. -/
def concOk (eps : ℚ) (n : ℕ) (concs : List ConcRange) (a : List ℤ) : Bool :=
  (List.zip a concs).all (fun (x, c) =>
    decide (¬ ((x : ℚ) / n < ((min c.1 c.2.1 : ℤ) : ℚ) / c.2.2 - eps)) &&
    decide (¬ ((x : ℚ) / n > ((max c.1 c.2.1 : ℤ) : ℚ) / c.2.2 + eps)))

/-- One iteration of the outer loop `while done == False`, symmetry.py:60-84: the flag says whether it goes on. The test
on the concentrations of lines 62-66 is the argument `ok`. -/
def odoStepG (n : ℕ) (ok : List ℤ → Bool) (lo : List ℤ) (digit : List ℕ) (s : Bool × Odo) :
    Py (Bool × Odo) := do
  let o := s.2
  let out ← (if o.a.sum = n then
      if n = 0 then .error .zeroDivision
      else .ok (if ok o.a then o.out ++ [o.a] else o.out)
    else .ok o.out)
  match odoCarry lo digit lo.length (o.a, o.cnt) with
  | (none, a, cnt) => .ok (false, { a := a, cnt := cnt, out := out })
  | (some j, a, cnt) =>
    let c := cnt.getD j 0 + 1
    .ok (true, { a := a.set j (lo.getD j 0 + c), cnt := cnt.set j c, out := out })

/-- The iteration with the test in exact arithmetic. -/
def odoStep (eps : ℚ) (n : ℕ) (concs : List ConcRange) (lo : List ℤ) (digit : List ℕ) (s : Bool × Odo) :
    Py (Bool × Odo) :=
  odoStepG n (concOk eps n concs) lo digit s

/-- `get_concs_for_size` with restrictions, symmetry.py:35-84. `none` means that it does not terminate. -/
def concsRestricted (eps : ℚ) (size nB : ℕ) (concs : List ConcRange) : Option (Py (List (List ℤ))) :=
  match concs with
  | [] => some (.error .indexError)
  | c0 :: _ =>
    if concs.any (fun c => c.2.2 = 0) then some (.error .zeroDivision)
    else
      let tab := concs.map (volRow size nB c0.2.2)
      let lo := tab.map (fun r => r.1)
      let digit := tab.map (fun r => (r.2 - r.1).toNat)
      -- `label[i][0]` of an empty label list
      if tab.any (fun r => r.2 < r.1) then some (.error .indexError) else
      match pyWhile (fun s => s.1) (odoStep eps (size * nB) concs lo digit)
        (true, { a := lo, cnt := List.replicate concs.length 0, out := [] }) with
      | none => none
      | some (.error e) => some (.error e)
      | some (.ok s) => some (.ok s.2.out)

/-! ### Floating point

The same function with every float operation rounded by `fl` (`float(k)` and the operands of mixed operations are
rounded too). -/

/-- `float(c)/denom*size*nB`, symmetry.py:41. -/
def volF (fl : ℚ → ℚ) (size nB : ℕ) (denom c : ℤ) : ℚ :=
  fl (fl (fl (fl c / fl denom) * fl size) * fl nB)

/-- The row of the volume table, symmetry.py:38-41. -/
def volRowF (fl : ℚ → ℚ) (size nB : ℕ) (denom : ℤ) (c : ConcRange) : ℤ × ℤ :=
  (⌊volF fl size nB denom (min c.1 c.2.1)⌋, ⌈volF fl size nB denom (max c.1 c.2.1)⌉)

/-- The test on the concentrations, symmetry.py:53-54 and 62-66. -/
def concOkF (fl : ℚ → ℚ) (eps : ℚ) (n : ℕ) (concs : List ConcRange) (a : List ℤ) : Bool :=
  (List.zip a concs).all (fun (x, c) =>
    decide (¬ (fl (fl x / fl n) < fl (fl (fl (min c.1 c.2.1 : ℤ) / fl c.2.2) - eps))) &&
    decide (¬ (fl (fl x / fl n) > fl (fl (fl (max c.1 c.2.1 : ℤ) / fl c.2.2) + eps))))

/-- `get_concs_for_size` with restrictions, symmetry.py:35-84, in floating point. Simplification: infinities and
subnormal numbers are left out. -/
def concsRestrictedF (fl : ℚ → ℚ) (eps : ℚ) (size nB : ℕ) (concs : List ConcRange) : Option (Py (List (List ℤ))) :=
  match concs with
  | [] => some (.error .indexError)
  | c0 :: _ =>
    if concs.any (fun c => c.2.2 = 0) then some (.error .zeroDivision)
    else
      let tab := concs.map (volRowF fl size nB c0.2.2)
      let lo := tab.map (fun r => r.1)
      let digit := tab.map (fun r => (r.2 - r.1).toNat)
      if tab.any (fun r => r.2 < r.1) then some (.error .indexError) else
      match pyWhile (fun s => s.1) (odoStepG (size * nB) (concOkF fl eps (size * nB) concs) lo digit)
        (true, { a := lo, cnt := List.replicate concs.length 0, out := [] }) with
      | none => none
      | some (.error e) => some (.error e)
      | some (.ok s) => some (.ok s.2.out)

end Phenum
