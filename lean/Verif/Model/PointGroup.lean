import Verif.Model.Cell
import Mathlib.Analysis.Real.Sqrt
import Mathlib.LinearAlgebra.Matrix.Determinant.Basic
/-
Model of `get_lattice_pointGroup` and `get_spaceGroup` (phenum/symmetry.py).

Simplification: floating point numbers are real numbers with exact arithmetic (the norms need square roots); the
tolerance `eps` is a parameter.
-/
namespace Phenum

/-- Vectors of three real numbers. -/
abbrev V3 := Fin 3 → ℝ

/-- `numpy.linalg.norm` of a vector. -/
noncomputable def vnorm (v : V3) : ℝ := Real.sqrt (v 0 ^ 2 + v 1 ^ 2 + v 2 ^ 2)

/-- `numpy.cross`. -/
def vcross (a b : V3) : V3 := ![a 1 * b 2 - a 2 * b 1, a 2 * b 0 - a 0 * b 2, a 0 * b 1 - a 1 * b 0]

/-- `numpy.dot` of two vectors. -/
def vdot (a b : V3) : ℝ := a 0 * b 0 + a 1 * b 1 + a 2 * b 2

/-- `cell_volume`, symmetry.py:218. -/
noncomputable def cellVolume (A : Matrix (Fin 3) (Fin 3) ℝ) : ℝ := |vdot (A 0) (vcross (A 1) (A 2))|

/-- `max_norm`, symmetry.py:219. -/
noncomputable def maxNorm (A : Matrix (Fin 3) (Fin 3) ℝ) : ℝ := max (max (vnorm (A 0)) (vnorm (A 1))) (vnorm (A 2))

/-- `n1`, `n2`, `n3`, symmetry.py:220-222: how far to search along a lattice vector; `b`, `c` are the other two.
`numpy` adds `eps` to every component. -/
noncomputable def searchRange (A : Matrix (Fin 3) (Fin 3) ℝ) (b c : V3) (eps : ℝ) : ℤ :=
  ⌈maxNorm A * vnorm (fun i => vcross b c i / cellVolume A + eps)⌉

/-- The lattice vectors in the sphere, symmetry.py:224-241, in the order of the three loops. -/
noncomputable def sphereVecs (A : Matrix (Fin 3) (Fin 3) ℝ) (eps : ℝ) : List V3 :=
  let n1 := searchRange A (A 1) (A 2) eps
  let n2 := searchRange A (A 2) (A 0) eps
  let n3 := searchRange A (A 0) (A 1) eps
  (pyRange (-n1) (n1 + 1)).flatMap (fun i : ℤ => (pyRange (-n2) (n2 + 1)).flatMap (fun j : ℤ =>
    (pyRange (-n3) (n3 + 1)).flatMap (fun k : ℤ =>
      let v : V3 := fun c => (i : ℝ) * A 0 c + (j : ℝ) * A 1 c + (k : ℝ) * A 2 c
      if vnorm v > maxNorm A + eps then [] else [v])))

/-- `itertools.permutations(range(n), 3)`, in its order. -/
def triples (n : ℕ) : List (ℕ × ℕ × ℕ) :=
  (List.range n).flatMap (fun i => (List.range n).flatMap (fun j => (List.range n).flatMap (fun k =>
    if i ≠ j ∧ i ≠ k ∧ j ≠ k then [(i, j, k)] else [])))

/-- `numpy.allclose(m, m', rtol=0, atol=eps)` for 3x3 matrices. -/
def matClose (eps : ℝ) (m m' : Matrix (Fin 3) (Fin 3) ℝ) : Prop := ∀ i j, |m i j - m' i j| ≤ eps

open Classical in
/-- The body of the loop over the triples, symmetry.py:256-268: the rotation found, if any. -/
noncomputable def tryTriple (A : Matrix (Fin 3) (Fin 3) ℝ) (eps : ℝ) (u v w : V3) : List (Matrix (Fin 3) (Fin 3) ℝ) :=
  let N : Matrix (Fin 3) (Fin 3) ℝ := ![u, v, w]
  if |vnorm u - vnorm (A 0)| > eps ∨ |vnorm v - vnorm (A 1)| > eps ∨ |vnorm w - vnorm (A 2)| > eps ∨
      abs (cellVolume A - abs N.det) > eps then []
  else
    let R := A⁻¹ * N
    if matClose eps (R * R.transpose) 1 then [R] else []

/-- `get_lattice_pointGroup`, symmetry.py:197-270; the rows of `A` are the lattice vectors. `inv` of a singular
matrix raises LinAlgError. -/
noncomputable def latticePointGroup (A : Matrix (Fin 3) (Fin 3) ℝ) (eps : ℝ) : Py (List (Matrix (Fin 3) (Fin 3) ℝ)) :=
  if A.det = 0 then .error .linAlgError else
  let rv := sphereVecs A eps
  .ok ((triples rv.length).flatMap (fun t => tryTriple A eps (rv.getD t.1 0) (rv.getD t.2.1 0) (rv.getD t.2.2 0)))

end Phenum
