import Mathlib.Algebra.Order.Field.Rat
import Mathlib.Algebra.Order.Group.Unbundled.Abs
/-
Specification: numbers with 53 binary digits and rounding to a nearest one (IEEE double precision without its limits on
the exponent).
-/
namespace Phenum.Spec

/-- A number with at most 53 significant binary digits. -/
def IsDouble (x : ℚ) : Prop := ∃ m e : ℤ, |m| ≤ 2 ^ 53 ∧ x = m * (2 : ℚ) ^ e

/-- Rounding to a nearest double (ties either way). -/
def RoundsToNearest (fl : ℚ → ℚ) : Prop := ∀ x, IsDouble (fl x) ∧ ∀ y, IsDouble y → |fl x - x| ≤ |y - x|

end Phenum.Spec
