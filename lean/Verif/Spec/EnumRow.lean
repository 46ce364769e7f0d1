import Verif.Spec.Derivative
import Verif.Model.Text
/-
Specification vocabulary: what a row of enum.out says. The row gives the superlattice by its Hermite normal form; it
gives the content of the site `basis atom a + lattice vector v` by the character of the labeling (and of the arrows)
whose position is found from `v` with the left transform and the Smith normal form, as in the readers of such files.
-/
namespace Phenum.Spec

/-- The superlattice of the row. The lattice vectors of the parent are the rows of `P`. -/
def rowLattice (P : M3 ℝ) (row : EnumEntry) : Set (Fin 3 → ℝ) :=
  ColLattice (P.transpose * !![((row.hnf.getD 0 0 : ℤ) : ℝ), 0, 0;
                               ((row.hnf.getD 1 0 : ℤ) : ℝ), ((row.hnf.getD 2 0 : ℤ) : ℝ), 0;
                               ((row.hnf.getD 3 0 : ℤ) : ℝ), ((row.hnf.getD 4 0 : ℤ) : ℝ), ((row.hnf.getD 5 0 : ℤ) : ℝ)])

/-- The coordinate `i` of the lattice vector `v` in the quotient group: `(L v)_i` modulo the Smith normal form. -/
def rowCoord (row : EnumEntry) (v : Fin 3 → ℤ) (i : ℕ) : ℤ :=
  (row.lt.getD (3 * i) 0 * v 0 + row.lt.getD (3 * i + 1) 0 * v 1 + row.lt.getD (3 * i + 2) 0 * v 2) % row.snf.getD i 0

/-- The position in the labeling of the basis atom `a` in the cell `v`. -/
def rowIndex (row : EnumEntry) (a : ℕ) (v : Fin 3 → ℤ) : ℕ :=
  (((a : ℤ) * row.snf.getD 0 0 + rowCoord row v 0) * row.snf.getD 1 0 * row.snf.getD 2 0 +
    rowCoord row v 1 * row.snf.getD 2 0 + rowCoord row v 2).toNat

/-- The character is the digit `d`. -/
def IsDigit (ch : Option Char) (d : ℕ) : Prop := d < 10 ∧ ch = some (Char.ofNat (48 + d))

/-- The row describes the decoration: the atom `a` of the cell `v` is of species `l + 1`, `l` being its digit in the
labeling; it is not displaced if its digit `r` in the arrows is 0, and displaced in the direction `r - 1` otherwise. -/
def RowDescribes (P : M3 ℝ) (bas : List (Fin 3 → ℝ)) (row : EnumEntry) (ψ : Decoration) : Prop :=
  ∀ a, a < bas.length → ∀ v : Fin 3 → ℤ, ∃ l r,
    IsDigit (row.labeling[rowIndex row a v]?) l ∧ IsDigit (row.arrowing[rowIndex row a v]?) r ∧
    ψ (bas.getD a 0 + P.transpose.mulVec (fun i => (v i : ℝ))) = (l + 1, if r = 0 then 0 else arrowDir (r - 1))

end Phenum.Spec
