import Mathlib.Logic.ExistsUnique
/-
Specification vocabulary: representatives of classes.
-/
namespace Phenum.Spec

/-- `L` lists exactly one representative of each `R`-class of the objects with property `P`, without repetition:
its length is the number of classes. -/
structure IsTransversal {β : Type} (P : β → Prop) (R : β → β → Prop) (L : List β) : Prop where
  nodup : L.Nodup
  mem : ∀ w ∈ L, P w
  unique : ∀ x, P x → ∃! w, w ∈ L ∧ R w x

end Phenum.Spec
