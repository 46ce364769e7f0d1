import Verif.Spec.Crystal
import Verif.Spec.Arrows
import Mathlib.Data.Real.Basic
/-
Specification vocabulary: structures derived from a crystal (the objects that are enumerated). A structure gives every
site of the parent crystal a species and a displacement (zero for an atom that is not displaced) and is periodic with
respect to a superlattice. It says nothing about Hermite normal forms, groups of permutations or labelings.
-/
namespace Phenum.Spec

/-- The sites of the parent crystal: the translates of the basis atoms. -/
def CrystalSites (Λ : Set (Fin 3 → ℝ)) (bas : List (Fin 3 → ℝ)) : Set (Fin 3 → ℝ) := {x | ∃ d ∈ bas, x - d ∈ Λ}

/-- A decoration of space: species and displacement at each point (only the sites matter). -/
abbrev Decoration := (Fin 3 → ℝ) → ℕ × (Fin 3 → ℝ)

/-- The decoration is periodic: translations by vectors of `L` do not change it. -/
def PeriodicOn (S L : Set (Fin 3 → ℝ)) (χ : Decoration) : Prop := ∀ x ∈ S, ∀ t ∈ L, χ (x + t) = χ x

/-- The decoration has no period outside `L`: every translation of the parent lattice that leaves it unchanged is in `L`.
(The supercell `L` is then the smallest one that describes it: the structure is not superperiodic.) -/
def NoFurtherPeriod (Λ S L : Set (Fin 3 → ℝ)) (χ : Decoration) : Prop :=
  ∀ t ∈ Λ, (∀ x ∈ S, χ (x + t) = χ x) → t ∈ L

/-- Two structures (superlattice and decoration) are the same up to a symmetry of the parent crystal: the motion
`x ↦ R x + s` maps the superlattice and the decoration of the first to those of the second; it moves the species with
the sites and turns the displacements. -/
def SameStructure (Λ : Set (Fin 3 → ℝ)) (bas : List (Fin 3 → ℝ)) (L : Set (Fin 3 → ℝ)) (χ : Decoration)
    (L' : Set (Fin 3 → ℝ)) (χ' : Decoration) : Prop :=
  ∃ R s, IsCrystalSym Λ (bas.map (fun d => (1, d))) R s ∧ R.mulVec '' L = L' ∧
    ∀ x ∈ CrystalSites Λ bas, χ' (R.mulVec x + s) = ((χ x).1, R.mulVec (χ x).2)

/-- Two decorations are the same up to a symmetry of the parent crystal. -/
def SameDecoration (Λ : Set (Fin 3 → ℝ)) (bas : List (Fin 3 → ℝ)) (χ χ' : Decoration) : Prop :=
  ∃ R s, IsCrystalSym Λ (bas.map (fun d => (1, d))) R s ∧
    ∀ x ∈ CrystalSites Λ bas, χ' (R.mulVec x + s) = ((χ x).1, R.mulVec (χ x).2)

/-- The six directions: plus and minus the Cartesian axes. -/
def arrowDir : ℕ → Fin 3 → ℝ
  | 0 => ![1, 0, 0]
  | 1 => ![-1, 0, 0]
  | 2 => ![0, 1, 0]
  | 3 => ![0, -1, 0]
  | 4 => ![0, 0, 1]
  | 5 => ![0, 0, -1]
  | _ => 0

/-- What an entry (arrow, colour) of a labelling says about its site: the species, and the displacement. -/
def siteValue (p : ℤ × ℕ) : ℕ × (Fin 3 → ℝ) := (p.2, if p.1 < 0 then 0 else arrowDir p.1.toNat)

/-- The positions `pos 0 .. pos (N-1)` number the sites `S` modulo the superlattice `L`. -/
structure IsNumbering (S L : Set (Fin 3 → ℝ)) (N : ℕ) (pos : ℕ → Fin 3 → ℝ) : Prop where
  site : ∀ k, k < N → pos k ∈ S
  unique : ∀ x ∈ S, ∃! k, k < N ∧ x - pos k ∈ L

/-- The labelling `z` of the `N` sites `pos` of the supercell `L` draws the decoration `χ`. -/
def Draws (S L : Set (Fin 3 → ℝ)) (N : ℕ) (pos : ℕ → Fin 3 → ℝ) (z : List (ℤ × ℕ)) (χ : Decoration) : Prop :=
  z.length = N ∧ ∀ x ∈ S, ∀ k, k < N → x - pos k ∈ L → ∃ p, z[k]? = some p ∧ χ x = siteValue p

/-- The sites of one supercell of the structure, listed in some order, have the property `Q`. -/
def HasContents (S L : Set (Fin 3 → ℝ)) (N : ℕ) (Q : List (ℤ × ℕ) → Prop) (χ : Decoration) : Prop :=
  ∃ pos z, IsNumbering S L N pos ∧ Draws S L N pos z χ ∧ Q z

end Phenum.Spec
