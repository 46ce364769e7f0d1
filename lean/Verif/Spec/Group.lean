/-
Specification vocabulary: permutations as lists of positions, groups of them, and their actions.
-/
namespace Phenum.Spec

/-- The list whose `j`-th entry is entry `σ[j]` of `x`. -/
def permute {α : Type} (σ : List Nat) (x : List α) : List α := σ.filterMap (fun j => x[j]?)

/-- `G` is a group of permutations of the positions `0..n-1` (each written as the list of its values). -/
structure IsPermGroup (n : Nat) (G : List (List Nat)) : Prop where
  perm : ∀ σ ∈ G, σ.Perm (List.range n)
  one : List.range n ∈ G
  mul : ∀ σ ∈ G, ∀ τ ∈ G, permute τ σ ∈ G
  inv : ∀ σ ∈ G, ∃ τ ∈ G, permute τ σ = List.range n

/-- Two labellings (or decorated configurations) are equivalent if an operation of the group turns one
into the other. -/
def Equiv {α : Type} (G : List (List Nat)) (x y : List α) : Prop := ∃ σ ∈ G, permute σ x = y

/-- Every member of the list occurs equally often in it (for instance a list without repetitions, or the site
permutations of a group of paired operations). -/
def Balanced {α : Type} [DecidableEq α] (H : List α) : Prop := ∃ m, ∀ g ∈ H, H.countP (fun h => decide (h = g)) = m

end Phenum.Spec
