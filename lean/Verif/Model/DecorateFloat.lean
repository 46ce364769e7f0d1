import Verif.Model.Decorate
import Verif.Model.PolyaFloat
/-
Model of `arrow_concs`, phenum/phonons.py:311-349, with the products in floating point. The fractions are the numbers
the program holds (doubles).
-/
namespace Phenum

/-- The loop over the species, phonons.py:325-346, with `cList[i]*aconcs[i]` rounded by `fl`. -/
def arrowEntriesF (fl : ℚ → ℚ) : ℕ → List ℕ → List ℚ → Py Config
  | _, [], _ => .ok []
  | _, _ :: _, [] => .error .indexError
  | lab, c :: cs, a :: as => do
    let r ← arrowEntriesF fl (lab + 1) cs as
    .ok (speciesEntries lab c (pyTrunc (fl (c * a))) ++ r)

/-- `arrow_concs`, phonons.py:311-349, in floating point. -/
def arrowConcsF (fl : ℚ → ℚ) (cList : List ℕ) (aconcs : List ℚ) : Py Config := do
  let l ← arrowEntriesF fl 1 cList aconcs
  .ok (colSort l)

end Phenum
