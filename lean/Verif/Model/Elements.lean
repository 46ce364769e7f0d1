import Verif.Py
import Mathlib.Analysis.SpecialFunctions.Pow.Real
import Mathlib.LinearAlgebra.Matrix.Determinant.Basic
/-
Model of phenum/element_data.py.

Simplifications: floating point numbers are real numbers with exact arithmetic; for a singular lattice or an empty
basis, where numpy returns `inf`, the model returns the real number obtained with `x / 0 = 0` (the theorems exclude
these cases); concentrations are natural numbers (they are counts); of the title, the list of the element names that
are written is modelled.
-/
namespace Phenum

/-- The entries of the dictionary literal `element_volume`, in the order of the source, element_data.py:4-17. -/
def elementTable : List (String × ℚ) :=
  [("H", 37.2958), ("He", 32.1789), ("Li", 21.2543), ("Be", 8.49323), ("B", 7.24205), ("C", 5.68741),
   ("N", 46.6002), ("O", 22.2802), ("F", 17.0258), ("Ne", 21.7346), ("Na", 23.2596), ("Mg", 23.3928),
   ("Al", 16.6075), ("Si", 7.8511), ("P", 9.1459), ("S", 17.1672), ("Cl", 35.2074), ("Ar", 36.3829),
   ("K", 71.5278), ("Ca", 43.4353), ("Sc", 25.6478), ("Ti", 18.1565), ("V", 13.7718), ("Cr", 11.9439),
   ("Mn", 19.3207), ("Fe", 11.82), ("Co", 11.1838), ("Ni", 10.9036), ("Cu", 11.7615), ("Zn", 13.311),
   ("Ga", 18.4496), ("Ge", 19.3638), ("As", 20.4270), ("Se", 58.6173), ("Br", 33.3170), ("Kr", 46.7873),
   ("Rb", 87.3384), ("Sr", 56.1889), ("Y", 33.0792), ("Zr", 23.8327), ("Nb", 17.9685), ("Mo", 15.6279),
   ("Tc", 14.5458), ("Ru", 13.9206), ("Rh", 13.718), ("Pd", 14.716), ("Ag", 17.1045), ("Cd", 18.7161),
   ("In", 26.6861), ("Sn", 29.3238), ("Sb", 27.1733), ("Te", 62.3227), ("I", 24.3807), ("Xe", 59.582),
   ("Cs", 110.723), ("Ba", 63.253), ("Hf", 23.1748), ("Ta", 18.1323), ("W", 15.7772), ("Re", 14.8694),
   ("Os", 14.5485), ("Ir", 14.1558), ("Pt", 15.0591), ("Au", 16.9793), ("Hg", 27.6914), ("Tl", 29.2949),
   ("Pd", 30.3218), ("Bi", 31.2849)]

/-- `element_volume[element]`: in a dictionary literal the last entry for a key wins. -/
def elementVolume (e : String) : Py ℚ :=
  match elementTable.reverse.find? (fun p => p.1 == e) with
  | some p => .ok p.2
  | none => .error .keyError

/-- `get_lat_param_element`, element_data.py:19-34. -/
noncomputable def latParamElement (A : Matrix (Fin 3) (Fin 3) ℝ) (nBasis : ℕ) (e : String) : Py ℝ := do
  let latVol := |A.det / nBasis|
  let v ← elementVolume e
  .ok (((v : ℝ) / latVol) ^ (1 / 3 : ℝ))

/-- The loop over the elements, element_data.py:66-71: the sum and the names written. -/
noncomputable def latParamLoop (A : Matrix (Fin 3) (Fin 3) ℝ) (nBasis : ℕ) (removeZeros : Bool) :
    List (String × ℕ) → ℝ → List String → Py (ℝ × List String)
  | [], s, t => .ok (s, t)
  | (e, c) :: rest, s, t => do
    let a ← latParamElement A nBasis e
    let t := if c > 0 then t ++ [e] else if !removeZeros then t ++ [e] else t
    latParamLoop A nBasis removeZeros rest (s + c * a) t

/-- `get_lattice_parameter`, element_data.py:36-74; `none` is the Python value `None`. -/
noncomputable def latticeParameter (elements : Option (List String)) (concs : List ℕ) (A : Matrix (Fin 3) (Fin 3) ℝ)
    (nBasis : ℕ) (removeZeros : Bool) : Py (ℝ × List String) :=
  match elements with
  | none => .ok (1, [])
  | some els =>
    if els.length ≠ concs.length then .error .valueError else do
    let (s, t) ← latParamLoop A nBasis removeZeros (els.zip concs) 0 []
    if concs.sum = 0 then .error .zeroDivision else .ok (s / concs.sum, t)

end Phenum
