import Verif.Model.HNF
import Mathlib.LinearAlgebra.Matrix.NonsingularInverse
import Mathlib.Algebra.Order.Round
/-
Model of the lattice comparisons of phenum/grouptheory.py and phenum/HNFs.py.

Simplification: floating point numbers are elements of an ordered field with exact arithmetic (for instance the
rationals or the reals); the tolerance `eps` is kept. `round` rounds halves upwards instead of to even, which
makes no difference to the distance from the nearest integer.
-/
namespace Phenum

variable {K : Type} [Field K] [LinearOrder K] [IsStrictOrderedRing K] [FloorRing K]

/-- `_is_equiv_lattice`, grouptheory.py:123-148. `numpy.linalg.inv` raises LinAlgError for a singular matrix. -/
noncomputable def isEquivLattice (lat1 lat2 : Matrix (Fin 3) (Fin 3) K) (eps : K) : Py Bool :=
  open Classical in
  if lat1.det = 0 then .error .linAlgError
  else
    let S := lat1⁻¹ * lat2
    .ok (decide (|(|S.det| - 1)| ≤ eps ∧ ∀ i j, |S i j - (round (S i j) : ℤ)| ≤ eps))

/-- An integer matrix as a matrix over `K`. -/
def castM (H : Matrix (Fin 3) (Fin 3) ℤ) : Matrix (Fin 3) (Fin 3) K := H.map (fun x => (x : K))

/-- The inner loop over the rotations, HNFs.py:88-94. -/
noncomputable def dupWith (A : Matrix (Fin 3) (Fin 3) K) (hi hj : Matrix (Fin 3) (Fin 3) ℤ) (eps : K) :
    List (Matrix (Fin 3) (Fin 3) K) → Py Bool
  | [] => .ok false
  | r :: rest => do
    let b ← isEquivLattice (r * (A * castM hi)) (A * castM hj) eps
    if b then .ok true else dupWith A hi hj eps rest

/-- The loop over the HNFs kept so far, HNFs.py:87-96. -/
noncomputable def dupAny (A : Matrix (Fin 3) (Fin 3) K) (rots : List (Matrix (Fin 3) (Fin 3) K)) (eps : K)
    (hi : Matrix (Fin 3) (Fin 3) ℤ) : List (Matrix (Fin 3) (Fin 3) ℤ) → Py Bool
  | [] => .ok false
  | hj :: rest => do
    let b ← dupWith A hi hj eps rots
    if b then .ok true else dupAny A rots eps hi rest

/-- The outer loop, HNFs.py:85-99. -/
noncomputable def dupLoop (A : Matrix (Fin 3) (Fin 3) K) (rots : List (Matrix (Fin 3) (Fin 3) K)) (eps : K) :
    List (Matrix (Fin 3) (Fin 3) ℤ) → List (Matrix (Fin 3) (Fin 3) ℤ) → Py (List (Matrix (Fin 3) (Fin 3) ℤ))
  | [], u => .ok u
  | hi :: rest, u => do
    let d ← dupAny A rots eps hi u
    if d then dupLoop A rots eps rest u else dupLoop A rots eps rest (u ++ [hi])

/-- The list of unique HNFs built by `remove_duplicate_lattices`, HNFs.py:74-99, for the lattice vectors given as
the columns of `A` (`A = transpose(pLV)`) and the rotations of the space group. -/
noncomputable def removeDuplicates (hnfs : List (Matrix (Fin 3) (Fin 3) ℤ)) (A : Matrix (Fin 3) (Fin 3) K)
    (rots : List (Matrix (Fin 3) (Fin 3) K)) (eps : K) : Py (List (Matrix (Fin 3) (Fin 3) ℤ)) :=
  if hnfs.length = 1 then .ok hnfs else dupLoop A rots eps hnfs []

/-- The search in the list of degenerate lattices, grouptheory.py:193-197. -/
noncomputable def inDegen (eps : K) (L : Matrix (Fin 3) (Fin 3) K) : List (Matrix (Fin 3) (Fin 3) K) → Py Bool
  | [] => .ok false
  | D :: rest => do
    let b ← isEquivLattice D L eps
    if b then .ok true else inDegen eps L rest

/-- The loop of `_get_sLV_fixing_operations`, grouptheory.py:179-200; `ops` lists the rotations, each with the
data carried along (shift, `dPerm.v` entry and index). The accumulators are the fixing operations found and the
degenerate lattices found. -/
noncomputable def fixLoop {D : Type} (A : Matrix (Fin 3) (Fin 3) K) (H : Matrix (Fin 3) (Fin 3) ℤ) (eps : K) :
    List (Matrix (Fin 3) (Fin 3) K × D) → List (Matrix (Fin 3) (Fin 3) K × D) → List (Matrix (Fin 3) (Fin 3) K) →
    Py (List (Matrix (Fin 3) (Fin 3) K × D) × Nat)
  | [], fixed, degen => .ok (fixed, degen.length)
  | op :: rest, fixed, degen => do
    let origLat := A * castM H
    let rotLat := op.1 * origLat
    let b ← isEquivLattice rotLat origLat eps
    if b then fixLoop A H eps rest (fixed ++ [op]) degen
    else do
      let inList ← inDegen eps rotLat degen
      if inList then fixLoop A H eps rest fixed degen
      else fixLoop A H eps rest fixed (degen ++ [rotLat])

/-- `_get_sLV_fixing_operations`, grouptheory.py:150-210 (`A = transpose(pLV)`). -/
noncomputable def fixingOperations {D : Type} (A : Matrix (Fin 3) (Fin 3) K) (H : Matrix (Fin 3) (Fin 3) ℤ) (eps : K)
    (ops : List (Matrix (Fin 3) (Fin 3) K × D)) : Py (List (Matrix (Fin 3) (Fin 3) K × D) × Nat) :=
  fixLoop A H eps ops [] []

end Phenum
