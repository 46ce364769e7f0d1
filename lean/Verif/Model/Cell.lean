import Verif.Py
import Mathlib.LinearAlgebra.Matrix.NonsingularInverse
import Mathlib.Algebra.Order.Floor.Ring
/-
Model of `bring_into_cell` (phenum/symmetry.py) and `cartesian2direct` (phenum/vector_utils.py).

Simplification: floating point numbers are elements of an ordered field with exact arithmetic; the tolerance `eps`
is a parameter.
-/
namespace Phenum

variable {K : Type} [Field K] [LinearOrder K] [IsStrictOrderedRing K] [FloorRing K]

/-- `max(vec)` and `min(vec)` of three numbers. -/
def max3 (v : Fin 3 → K) : K := max (max (v 0) (v 1)) (v 2)

/-- `min(vec)` of three numbers. -/
def min3 (v : Fin 3 → K) : K := min (min (v 0) (v 1)) (v 2)

/-- The body of the loop applied to one component, symmetry.py:184-188. -/
def wrapStep (eps v : K) : K := if v ≥ 1 - eps then v - 1 else if v < 0 - eps then v + 1 else v

/-- The loop of `bring_into_cell` in lattice coordinates, symmetry.py:175-191; the state holds the counter `c`. -/
def wrapLoop (eps : K) (maxc : ℤ) : ℕ × (Fin 3 → K) → Option (Py (ℕ × (Fin 3 → K))) :=
  pyWhile (fun s => decide (s.2 0 > 1 - eps ∨ s.2 1 > 1 - eps ∨ s.2 2 > 1 - eps
      ∨ s.2 0 < 0 - eps ∨ s.2 1 < 0 - eps ∨ s.2 2 < 0 - eps))
    (fun s =>
      let c := s.1 + 1
      if (c : ℤ) > maxc then .error .sysExit else .ok (c, fun i => wrapStep eps (s.2 i)))

/-- `bring_into_cell`, symmetry.py:153-195. `none` means that it does not terminate. -/
def bringIntoCell (vec : Fin 3 → K) (cartToLatt lattToCart : Matrix (Fin 3) (Fin 3) K) (eps : K) :
    Option (Py (Fin 3 → K)) :=
  let v := cartToLatt.mulVec vec
  let maxc := max ⌈|max3 v|⌉ ⌈|min3 v|⌉ * 2
  match wrapLoop eps maxc (0, v) with
  | none => none
  | some (.error e) => some (.error e)
  | some (.ok s) => some (.ok (lattToCart.mulVec s.2))

/-- The body of the loop of `cartesian2direct` applied to one component, vector_utils.py:454-455. -/
def directStep (eps v : K) : K :=
  let v := if v < 1 - eps then v else v - 1
  if v ≥ 0 - eps then v else v + 1

/-- The loop of `cartesian2direct` for one atom, vector_utils.py:453-455. -/
def directLoop (eps : K) : (Fin 3 → K) → Option (Py (Fin 3 → K)) :=
  pyWhile (fun v => decide (v 0 ≥ 1 - eps ∨ v 1 ≥ 1 - eps ∨ v 2 ≥ 1 - eps
      ∨ v 0 < 0 - eps ∨ v 1 < 0 - eps ∨ v 2 < 0 - eps))
    (fun v => .ok (fun i => directStep eps (v i)))

/-- `cartesian2direct` for one atom, vector_utils.py:430-457; the rows of `sLV` are the lattice vectors. `inv` of a
singular matrix raises LinAlgError. -/
noncomputable def cartesian2direct (sLV : Matrix (Fin 3) (Fin 3) K) (at' : Fin 3 → K) (eps : K) : Option (Py (Fin 3 → K)) :=
  if sLV.det = 0 then some (.error .linAlgError)
  else directLoop eps (Matrix.vecMul at' sLV⁻¹)

end Phenum
