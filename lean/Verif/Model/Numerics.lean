import Verif.Py
/-
Model of phenum/numerics.py.
-/
namespace Phenum

/-- `numerics.factorial`, numerics.py:7-27.  Both branches of the `if` are kept. For a negative
argument `range(1,num+1)` is empty and the result is 1. -/
def factorial (num : Int) : Int :=
  if num = 0 then 1
  else (pyRange 1 (num + 1)).foldl (fun fact i => fact * i) 1

/-- `numerics.binomial_coefficient`, numerics.py:29-53 (`//` is floor division). -/
def binomialCoefficient (n k : Int) : Int :=
  if ¬ (-1 < k ∧ k < n + 1) then 0
  else if k = 0 ∧ n = 0 then 1
  else if k < n - k then
    (pyRangeDown n (n - k)).foldl (fun t i => (t * i).fdiv (n - i + 1)) 1
  else
    (pyRangeDown n k).foldl (fun t i => (t * i).fdiv (n - i + 1)) 1

/-- A 64-bit machine integer: the result of an operation on `np.int64` wraps around modulo 2^64 into the range from -2^63 to 2^63-1. -/
def wrap64 (x : Int) : Int := x.bmod (2 ^ 64)

/-- `numerics.binomial_coefficient` as `multinomial` calls it, numerics.py:29-53: there the first argument is a `np.int64`, because it comes from `np.sum`,
so `t*i` is computed in machine integers. (The first product `1*i` and the quotients cannot overflow.) -/
def binomial64 (n k : Int) : Int :=
  if ¬ (-1 < k ∧ k < n + 1) then 0
  else if k = 0 ∧ n = 0 then 1
  else if k < n - k then
    (pyRangeDown n (n - k)).foldl (fun t i => (wrap64 (t * i)).fdiv (n - i + 1)) 1
  else
    (pyRangeDown n k).foldl (fun t i => (wrap64 (t * i)).fdiv (n - i + 1)) 1

/-- The list `binomials` built in numerics.py:62-65: pairs (remaining total, next count).
`rem` is `binomials[i-1][0]-binomials[i-1][1]`. -/
def multinomialPairs (rem : Int) : List Int → List (Int × Int)
  | [] => []
  | x :: xs => (rem, x) :: multinomialPairs (rem - x) xs

/-- `numerics.multinomial`, numerics.py:56-71. `n[0]` raises IndexError on an empty list. `np.prod` multiplies machine integers.
Simplification: `np.sum` is exact (the sum is a number of sites, below 2^63), and the default integer of numpy has 64 bits.
-/
def multinomial (ns : List Int) : Py Int :=
  match ns with
  | [] => .error .indexError
  | _ => .ok (((multinomialPairs ns.sum ns).map (fun b => binomial64 b.1 b.2)).foldl (fun p b => wrap64 (p * b)) 1)

end Phenum
