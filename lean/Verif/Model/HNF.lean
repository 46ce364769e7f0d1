import Verif.Py
import Mathlib.LinearAlgebra.Matrix.Notation
/-
Model of phenum/HNFs.py: listing the Hermite normal forms.
-/
namespace Phenum

/-- `_get_HNF_diagonals`, HNFs.py:4-25. Simplification: `n` is a natural number (for negative `n` the loops are
empty). -/
def hnfDiagonals (n : Nat) : List (Nat × Nat × Nat) :=
  ((List.range n).map (· + 1)).flatMap (fun i =>
    if n % i = 0 then
      let q := n / i
      ((List.range q).map (· + 1)).flatMap (fun j => if q % j = 0 then [(i, j, q / j)] else [])
    else [])

/-- `find_all_HNFs`, HNFs.py:27-53. -/
def findAllHNFs (n : Nat) : List (Matrix (Fin 3) (Fin 3) ℤ) :=
  (hnfDiagonals n).flatMap (fun diag =>
    let a := diag.1
    let c := diag.2.1
    let f := diag.2.2
    (List.range c).flatMap (fun (b : Nat) =>
      (List.range f).flatMap (fun (d : Nat) =>
        (List.range f).map (fun (e : Nat) =>
          !![(a : ℤ), 0, 0; (b : ℤ), (c : ℤ), 0; (d : ℤ), (e : ℤ), (f : ℤ)]))))

end Phenum
