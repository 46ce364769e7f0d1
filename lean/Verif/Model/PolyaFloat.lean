import Verif.Model.Polya
/-
Model of the arithmetic of phenum/polyaburnside.py in floating point. Python's true division gives a float, so the
binomial coefficients, their products and sums are floats (except where no division takes place). The definitions
follow Model/Polya.lean, with the numbers as Python has them and every float operation rounded by `fl`.

Simplification: infinities and subnormal numbers are left out (`fl : ℚ → ℚ`), as are division by zero (all divisors are
at least 1 in `polya`) and the compensated summation of `sum` in newer Python versions.
-/
namespace Phenum

/-- A Python number: an int or a float. -/
inductive PyNum
  | int (z : Int)
  | float (q : Rat)
  deriving DecidableEq

/-- the number -/
def PyNum.val : PyNum → Rat
  | .int z => z
  | .float q => q

/-- conversion of an operand to float: ints are rounded -/
def PyNum.toFloat (fl : Rat → Rat) : PyNum → Rat
  | .int z => fl z
  | .float q => q

/-- `x * y` -/
def PyNum.mul (fl : Rat → Rat) : PyNum → PyNum → PyNum
  | .int a, .int b => .int (a * b)
  | x, y => .float (fl (x.toFloat fl * y.toFloat fl))

/-- `x + y` -/
def PyNum.add (fl : Rat → Rat) : PyNum → PyNum → PyNum
  | .int a, .int b => .int (a + b)
  | x, y => .float (fl (x.toFloat fl + y.toFloat fl))

/-- `x / y`: for two ints the correctly rounded quotient. -/
def PyNum.div (fl : Rat → Rat) : PyNum → PyNum → PyNum
  | .int a, .int b => .float (fl ((a : Rat) / b))
  | x, y => .float (fl (x.toFloat fl / y.toFloat fl))

/-- `int(x)`: towards zero -/
def PyNum.toInt : PyNum → Int
  | .int z => z
  | .float q => if 0 ≤ q then q.floor else -((-q).floor)

/-- IEEE double precision: 53 binary digits, ties to even. -/
def roundEven (q : Rat) : Int :=
  let f := q.floor
  if q - f < 1 / 2 then f
  else if 1 / 2 < q - f then f + 1
  else if f % 2 = 0 then f else f + 1

/-- the exponent `e` with `2^e ≤ |q| < 2^(e+1)` for `q ≠ 0` -/
def binExp (q : Rat) : Int :=
  let e : Int := (Nat.log2 q.num.natAbs : Int) - (Nat.log2 q.den : Int)
  if |q| < (2 : Rat) ^ e then e - 1 else e

/-- rounding to double precision -/
def fl53 (q : Rat) : Rat :=
  if q = 0 then 0 else (roundEven (q * (2 : Rat) ^ (52 - binExp q)) : Rat) * (2 : Rat) ^ (binExp q - 52)

/-- The loops of `nchoosek`, polyaburnside.py:339-345: `t = t*i/(n-i+1)` for the listed `i`. -/
def nchoosekLoopF (fl : Rat → Rat) (n : Int) : List Int → PyNum → PyNum
  | [], t => t
  | i :: rest, t => nchoosekLoopF fl n rest (((t.mul fl (.int i)).div fl (.int (n - i + 1))))

/-- `Multinomial.nchoosek`, polyaburnside.py:322-347. -/
def nchoosekF (fl : Rat → Rat) (n k : Int) : PyNum :=
  if ¬ (-1 < k ∧ k < n + 1) then .int 0
  else if k = 0 ∧ n = 0 then .int 1
  else if k < n - k then nchoosekLoopF fl n (pyRangeDown n (n - k)) (.int 1)
  else nchoosekLoopF fl n (pyRangeDown n k) (.int 1)

/-- `normed_seq`, polyaburnside.py:280-290: `int(ai/self.power)`. -/
def normedSeqF (fl : Rat → Rat) (power : Nat) (seq : List Nat) : List Nat :=
  seq.map (fun (s : Nat) => ((PyNum.int (s : Int)).div fl (.int power)).toInt.toNat)

/-- `Multinomial.nchoosekm`, polyaburnside.py:292-319. -/
def Multinom.nchoosekmF (fl : Rat → Rat) (m : Multinom) (seq : List Nat) : PyNum :=
  if seq.all (fun s => s % m.power = 0) then
    let norm := normedSeqF fl m.power seq
    let prod := (List.range norm.length).foldl
      (fun (acc : PyNum) i => acc.mul fl (nchoosekF fl ((norm.take (i + 1)).sum : Nat) (norm.getD i 0 : Nat))) (.int 1)
    let pcoeff := (List.range m.arrowings.length).foldl
      (fun (acc : Nat) i => if m.arrowings.getD i false then acc * m.coeff ^ (norm.getD i 0) else acc) 1
    prod.mul fl (.int pcoeff)
  else .int 0

/-- `reduce(mul, l)` for a list that is not empty (an empty one does not occur: there is at least one factor). -/
def reduceMulF (fl : Rat → Rat) : List PyNum → PyNum
  | [] => .int 1
  | x :: xs => xs.foldl (PyNum.mul fl) x

/-- `_sum_sequences`, polyaburnside.py:200-223. -/
def sumSequencesF (fl : Rat → Rat) (ms : List Multinom) (targets : List Nat) (mnseq : List (List (List Nat))) : PyNum :=
  (pyProduct mnseq).foldl (fun coeffs seq =>
    if colSums targets.length seq = targets then
      coeffs.add fl (reduceMulF fl ((ms.zip seq).map (fun p => p.1.nchoosekmF fl p.2)))
    else coeffs) (.int 0)

/-- `Product.coeff`, polyaburnside.py:162-198. -/
def productCoeffF (fl : Rat → Rat) (coefficient : Nat) (targets : List Nat) (ms : List Multinom) : Py PyNum :=
  match ms with
  | [m] =>
    if targets.all (fun t => decide ((m.power : Int) - t > 0)) then .ok (.int 0)
    else .ok ((m.nchoosekmF fl targets).mul fl (.int coefficient))
  | _ =>
    match targets with
    | [] => .error .indexError
    | t0 :: ts =>
      let seq0 := (pyProduct (ms.map Multinom.possible)).filter (fun s => s.sum = t0)
      let coeffs := seq0.foldl (fun (coeffs : PyNum) seq =>
        coeffs.add fl (sumSequencesF fl ms targets
          ((seq.zip ms).map (fun p => seqExpand p.2.possible p.2.powersum ts p.1 p.1)))) (.int 0)
      .ok (.int (coeffs.toInt * coefficient))

/-- sum of the coefficients of the distinct products, from the left, polyaburnside.py:546 -/
def sumCoeffsF (fl : Rat → Rat) (concs : List Nat) : PolyDict → PyNum → Py PyNum
  | [], acc => .ok acc
  | (_, ms, c) :: rest, acc => do
    let v ← productCoeffF fl c concs ms
    sumCoeffsF fl concs rest (acc.add fl v)

/-- `polya`, polyaburnside.py:489-547, with floating-point arithmetic. -/
def polyaF (fl : Rat → Rat) (concs : List Nat) (group : List Op) (arrowings : Arrowings) : Option (Py Int) :=
  match group with
  | [] => some (.error .indexError)
  | g0 :: _ =>
    if concs.sum ≠ g0.1.length then some (.error .valueError)
    else
      let flags := arrowings.toFlags concs.length
      let group' := group.map (fun g => (zeroBase g.1, zeroBase g.2))
      match groupToCyclic group' with
      | none => none
      | some (.error e) => some (.error e)
      | some (.ok ps) =>
        let dict := ps.foldl (fun d poly =>
          addProduct (poly.map (fun kv => (⟨kv.1.1, kv.1.2, flags, kv.2⟩ : Multinom))) d) []
        match sumCoeffsF fl concs dict (.int 0) with
        | .error e => some (.error e)
        | .ok rad => some (.ok (rad.div fl (.float (fl group.length))).toInt)

end Phenum
