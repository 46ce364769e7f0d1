import Verif.Spec.Lattice
import Mathlib.Algebra.Order.Field.Basic
import Mathlib.Algebra.Ring.Int.Parity
/-
Specification vocabulary: crystals, their operations, and the permutations of the sites of a supercell they induce.
-/
namespace Phenum.Spec

/-- The six arrow directions: plus and minus the three Cartesian axes. -/
def IsArrowDir (k : ℕ) (a : Fin 3 → ℤ) : Prop :=
  (k = 0 ∧ a = ![1, 0, 0]) ∨ (k = 1 ∧ a = ![-1, 0, 0]) ∨ (k = 2 ∧ a = ![0, 1, 0]) ∨ (k = 3 ∧ a = ![0, -1, 0]) ∨
  (k = 4 ∧ a = ![0, 0, 1]) ∨ (k = 5 ∧ a = ![0, 0, -1])

/-- The integer `z` is what `x` is rounded to: the nearest integer, halves go to the even neighbour. -/
def RoundsTo {K : Type} [Field K] [LinearOrder K] (x : K) (z : ℤ) : Prop :=
  |x - z| < 1 / 2 ∨ (|x - z| = 1 / 2 ∧ Even z)

section
variable {K : Type} [Field K]

/-- A finite list of motions `x ↦ R x + s` that is a group up to translations of the lattice `Λ`. -/
structure IsSpaceGroup (Λ : Set (Fin 3 → K)) (ops : List (M3 K × (Fin 3 → K))) : Prop where
  one : (1, 0) ∈ ops
  mul : ∀ p ∈ ops, ∀ q ∈ ops, ∃ r ∈ ops, r.1 = p.1 * q.1 ∧ p.1.mulVec q.2 + p.2 - r.2 ∈ Λ
  inv : ∀ p ∈ ops, ∃ q ∈ ops, q.1 * p.1 = 1 ∧ q.1.mulVec p.2 + q.2 ∈ Λ

/-- The permutation `σ` of the `N` sites at the positions `pos` is induced by the motion `x ↦ R x + s` of a crystal
with period lattice `Λ`: entry `i` of `σ` is the site that is moved to site `i`. -/
structure Induces (Λ : Set (Fin 3 → K)) (N : ℕ) (pos : ℕ → Fin 3 → K) (R : M3 K) (s : Fin 3 → K) (σ : List ℕ) : Prop where
  length : σ.length = N
  entries : ∀ i j, i < N → (σ[i]? = some j ↔ j < N ∧ R.mulVec (pos j) + s - pos i ∈ Λ)

/-- The permutation `τ` of the arrow directions is induced by `R`: entry `k` is the image of direction `k`. -/
structure TurnsArrows (R : M3 K) (τ : List ℕ) : Prop where
  length : τ.length = 6
  entries : ∀ k m, k < 6 → (τ[k]? = some m ↔ ∃ a b, IsArrowDir k a ∧ IsArrowDir m b ∧
    R.mulVec (fun i => (a i : K)) = fun i => (b i : K))

/-- The crystal with period lattice `Λ` and the given atoms (type and position) in one cell: all their translates. -/
def Crystal (Λ : Set (Fin 3 → K)) (atoms : List (ℕ × (Fin 3 → K))) : Set (ℕ × (Fin 3 → K)) :=
  {a | ∃ b ∈ atoms, b.1 = a.1 ∧ a.2 - b.2 ∈ Λ}

/-- The motion `x ↦ R x + s` is a symmetry of the crystal and of its lattice: `R` is orthogonal and maps the lattice
onto itself, and the motion maps the crystal onto itself, each atom to an atom of the same type. -/
structure IsCrystalSym (Λ : Set (Fin 3 → K)) (atoms : List (ℕ × (Fin 3 → K))) (R : M3 K) (s : Fin 3 → K) : Prop where
  orth : R * R.transpose = 1
  lattice : R.mulVec '' Λ = Λ
  crystal : (fun a : ℕ × (Fin 3 → K) => (a.1, R.mulVec a.2 + s)) '' Crystal Λ atoms = Crystal Λ atoms

end

end Phenum.Spec
