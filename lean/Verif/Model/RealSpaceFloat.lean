import Verif.Model.RealSpace
import Verif.Model.PolyaFloat
/-
Model of the loops of `map_enumStr_to_real_space`, phenum/vector_utils.py:98-126, with their limits computed in floating
point: every division, product, sum and difference of numbers that are not both integers is rounded by `fl`. The matrix
products with the lattice vectors remain exact.
-/
namespace Phenum

/-- `(b*z1)/a`, vector_utils.py:101. -/
def z2Off (fl : ℚ → ℚ) (a b z1 : ℤ) : ℚ := fl (((b * z1 : ℤ) : ℚ) / a)

/-- `z1*(d-(e*b)/c)/a`, vector_utils.py:102. -/
def z3Mid (fl : ℚ → ℚ) (a b c d e z1 : ℤ) : ℚ := fl (fl (z1 * fl (d - fl (((e * b : ℤ) : ℚ) / c))) / a)

/-- `z1*(d-(e*b)/c)/a+(e*z2)/c`, vector_utils.py:102. -/
def z3Lo (fl : ℚ → ℚ) (a b c d e z1 z2 : ℤ) : ℚ := fl (z3Mid fl a b c d e z1 + fl (((e * z2 : ℤ) : ℚ) / c))

/-- `f+z1*(d-(e*b)/c)/a+(e*z2)/c`, vector_utils.py:102. -/
def z3Hi (fl : ℚ → ℚ) (a b c d e f z1 z2 : ℤ) : ℚ := fl (fl (f + z3Mid fl a b c d e z1) + fl (((e * z2 : ℤ) : ℚ) / c))

/-- The three loops over `z1`, `z2`, `z3`, vector_utils.py:100-102. -/
def interiorPointsF (fl : ℚ → ℚ) (a b c d e f : ℤ) : List GVec :=
  (pyRange 0 a).flatMap (fun z1 : ℤ =>
    (pyRange (intTrunc (z2Off fl a b z1)) (intTrunc (fl (c + z2Off fl a b z1)))).flatMap (fun z2 : ℤ =>
      (pyRange (intTrunc (z3Lo fl a b c d e z1 z2)) (intTrunc (z3Hi fl a b c d e f z1 z2))).map (fun z3 : ℤ =>
        (![z1, z2, z3] : GVec))))

/-- `map_enumStr_to_real_space`, vector_utils.py:68-159, with the limits of the loops and the concentrations in floating
point. Simplification: the positions and the cell are exact. -/
noncomputable def mapToRealSpaceF (fl : ℚ → ℚ) (plv : Matrix (Fin 3) (Fin 3) ℝ) (dvecs : List V3) (k : ℕ) (eps : ℝ)
    (st : StructData) (mink : Bool) : Py SpaceData := do
  let slv ← superCell plv st.HNF eps mink
  let pts := interiorPointsF fl (st.HNF 0 0) (st.HNF 1 0) (st.HNF 1 1) (st.HNF 2 0) (st.HNF 2 1) (st.HNF 2 2)
  let atoms := (List.range dvecs.length).flatMap (fun iD => pts.map (fun z => (iD, z)))
  let aBas := atoms.map (fun p => (fun i => plv.mulVec (fun j => (p.2 j : ℝ)) i + dvecs.getD p.1 0 i : V3))
  let gIndx := atoms.map (fun p => groupIndex st.L st.S p.1 p.2)
  if atoms.length ≠ st.n * dvecs.length then .error .sysExit else
  let (spin, x) ← spinLoop k st.labeling gIndx (List.replicate k 0) []
  .ok ⟨slv, aBas, spin, gIndx, x.map (fun c : ℕ => fl ((c : ℚ) / (st.n * dvecs.length : ℕ)))⟩

end Phenum
