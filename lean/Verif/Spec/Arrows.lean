import Verif.Spec.Group
import Verif.Spec.Labelling
/-
Specification vocabulary: configurations with arrows. A site is a pair `(arrow, colour)`; a negative arrow
means that the site carries no arrow, otherwise it is the number of a direction. An operation is a pair
(site permutation, arrow permutation), each written as the list of its values.
-/
namespace Phenum.Spec

/-- The effect of an arrow permutation on one site. -/
def turn (τ : List Nat) (s : Int × Nat) : Int × Nat :=
  if s.1 < 0 then s else (((τ.getD s.1.toNat 0 : Nat) : Int), s.2)

/-- The effect of an operation on a configuration: entry `j` of the result is entry `g.1[j]` of the
configuration with its arrow turned by `g.2`. -/
def act (g : List Nat × List Nat) (z : List (Int × Nat)) : List (Int × Nat) := (permute g.1 z).map (turn g.2)

/-- `H` is a group of operations on `n` sites with `dim` arrow directions (closed under performing one
operation after the other, `act h (act g z)`). -/
structure IsOpGroup (n dim : Nat) (H : List (List Nat × List Nat)) : Prop where
  sites : ∀ g ∈ H, g.1.Perm (List.range n)
  arrows : ∀ g ∈ H, g.2.Perm (List.range dim)
  one : (List.range n, List.range dim) ∈ H
  mul : ∀ g ∈ H, ∀ h ∈ H, (permute h.1 g.1, permute g.2 h.2) ∈ H
  inv : ∀ g ∈ H, ∃ h ∈ H, permute h.1 g.1 = List.range n ∧ permute g.2 h.2 = List.range dim

/-- Two configurations are equivalent if an operation turns one into the other. -/
def OpEquiv (H : List (List Nat × List Nat)) (w z : List (Int × Nat)) : Prop := ∃ g ∈ H, act g w = z

/-- Forget the directions of the arrows: every arrow is replaced by direction 0. -/
def erase (z : List (Int × Nat)) : List (Int × Nat) := z.map (fun s => if s.1 < 0 then s else (0, s.2))

/-- `z` has the same colours and the same arrow sites as `col`, and its arrows are directions below `dim`. -/
def FillsIn (dim : Nat) (col z : List (Int × Nat)) : Prop :=
  erase z = erase col ∧ ∀ s ∈ z, s.1 < dim

/-- `z` uses colour `i+1` exactly `concs[i]` times; the sites whose colour satisfies `carries` have an arrow
direction below `dim`, the others have none (`-1`). -/
def IsDecorated (concs : List Nat) (carries : Nat → Prop) (dim : Nat) (z : List (Int × Nat)) : Prop :=
  IsLabelling concs (z.map (·.2)) ∧
  ∀ s ∈ z, (carries s.2 → 0 ≤ s.1 ∧ s.1 < dim) ∧ (¬ carries s.2 → s.1 = -1)

end Phenum.Spec

