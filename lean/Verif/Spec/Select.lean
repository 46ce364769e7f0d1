import Mathlib.Data.List.Basic
/-
Specification vocabulary: selecting entries of a list by their (1-based) position.
-/
namespace Phenum.Spec

/-- The entries of `L` whose 1-based position is in `l`, in the order of `L`. -/
def selectPositions {α : Type} (l : List Nat) (L : List α) : List α :=
  (L.zipIdx 1).filterMap (fun p => if p.2 ∈ l then some p.1 else none)

end Phenum.Spec
