import Mathlib.Algebra.MvPolynomial.Basic
/-
Specification vocabulary: the polynomials whose coefficients are asked for.
-/
namespace Phenum.Spec
open MvPolynomial

/-- The factor `(c_0 x_0^p + ... + c_(k-1) x_(k-1)^p)^e`, where `c_j` is `c` for the flagged variables and 1 for
the others. -/
noncomputable def factor (k p c e : Nat) (flags : List Bool) : MvPolynomial (Fin k) ℕ :=
  (∑ j : Fin k, C (if flags.getD j false then c else 1) * X j ^ p) ^ e

/-- The exponent vector of the monomial `x_0^t_0 ... x_(k-1)^t_(k-1)`. -/
noncomputable def expo (k : Nat) (t : List Nat) : Fin k →₀ ℕ := Finsupp.equivFunOnFinite.symm (fun j => t.getD j 0)

end Phenum.Spec
