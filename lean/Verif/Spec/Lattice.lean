import Mathlib.LinearAlgebra.Matrix.NonsingularInverse
import Mathlib.LinearAlgebra.Matrix.Notation
/-
Specification vocabulary: lattices given by the columns of a matrix.
-/
namespace Phenum.Spec

/-- 3x3 matrices. -/
abbrev M3 (K : Type) := Matrix (Fin 3) (Fin 3) K

/-- The lattice generated by the columns of an integer matrix: all its integer combinations. -/
def IntLattice (M : M3 ℤ) : Set (Fin 3 → ℤ) := {v | ∃ x : Fin 3 → ℤ, M.mulVec x = v}

/-- The lattice generated by the columns of a matrix over `K`: all their integer combinations. -/
def ColLattice {K : Type} [Ring K] (M : M3 K) : Set (Fin 3 → K) :=
  {v | ∃ x : Fin 3 → ℤ, M.mulVec (fun i => (x i : K)) = v}

/-- The matrix `[[a,0,0],[b,c,0],[d,e,f]]`. -/
def hnfMat (a b c d e f : ℕ) : M3 ℤ := !![(a : ℤ), 0, 0; (b : ℤ), c, 0; (d : ℤ), e, f]

end Phenum.Spec

namespace Phenum.Spec

/-- `rots` is a group of matrices. -/
structure IsMatGroup {K : Type} [CommRing K] (rots : List (M3 K)) : Prop where
  one : (1 : M3 K) ∈ rots
  mul : ∀ r ∈ rots, ∀ s ∈ rots, r * s ∈ rots
  inv : ∀ r ∈ rots, ∃ s ∈ rots, s * r = 1

end Phenum.Spec
