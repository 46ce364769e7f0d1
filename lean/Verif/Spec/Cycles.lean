import Mathlib.Data.List.Basic
/-
Specification vocabulary: cycles of a permutation written as a list.
-/
namespace Phenum.Spec

/-- `c` is a cycle of `σ`: each entry is mapped to the next one, the last one to the first. -/
def IsCycle (σ c : List Nat) : Prop :=
  c ≠ [] ∧ ∀ i (h : i < c.length), σ[c[i]]? = some (c[(i + 1) % c.length]'(Nat.mod_lt _ (by omega)))

/-- `cs` is the list of all cycles of the permutation `σ` (every point occurs in exactly one of them, once). -/
def CycleDecomp (σ : List Nat) (cs : List (List Nat)) : Prop :=
  cs.flatten.Perm (List.range σ.length) ∧ ∀ c ∈ cs, IsCycle σ c

end Phenum.Spec
