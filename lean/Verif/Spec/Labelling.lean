import Mathlib.Data.List.Forall2
/-
Specification vocabulary for labellings (independent of the model).
-/
namespace Phenum.Spec

/-- `x` labels its sites with the colours `1..k` (`k = concs.length`), colour `i+1` being used exactly
`concs[i]` times. -/
def IsLabelling (concs x : List Nat) : Prop :=
  (∀ v ∈ x, 1 ≤ v ∧ v ≤ concs.length) ∧
  ∀ (i : Nat) (h : i < concs.length), x.count (i + 1) = concs[i]

/-- A two-colour labelling: every entry is 0 or 1. -/
def IsBinary (x : List Nat) : Prop := ∀ v ∈ x, v = 0 ∨ v = 1

/-- `d` is a mixed-radix vector for the radices `C`: same length, every digit below its radix. -/
def IsRadixVec (C d : List Nat) : Prop := List.Forall₂ (fun di ci => di < ci) d C

/-- The sites still free when colour `i+1` is placed (those with a colour above `i`), marked 1 where the
colour is `i+1`. -/
def levelRow (i : Nat) (x : List Nat) : List Nat :=
  (x.filter (fun v => i < v)).map (fun v => if v = i + 1 then 1 else 0)

end Phenum.Spec
