import Verif.Model.Reduce
import Verif.Model.Lattice
import Mathlib.Data.Rat.Floor
/-
Model of `map_enumStr_to_real_space`, phenum/vector_utils.py:3-159.

Simplifications: the quotients that bound the loops are exact rational numbers (the code uses floating point numbers);
positions are real numbers with exact arithmetic; `matmul(L,[z1,z2,z3])` on floats holding integers is exact, so that
the check of line 116 never fires. The label of a site is one character of the labeling string.
-/
namespace Phenum

/-- `int(x)` on a float: truncation towards zero. -/
def intTrunc (x : ℚ) : ℤ := if 0 ≤ x then ⌊x⌋ else ⌈x⌉

/-- `z1*(d-(e*b)/c)/a+(e*z2)/c`, vector_utils.py:102. -/
def zOff (a b c d e z1 z2 : ℤ) : ℚ := (z1 : ℚ) * ((d : ℚ) - ((e * b : ℤ) : ℚ) / c) / a + ((e * z2 : ℤ) : ℚ) / c

/-- The three loops over `z1`, `z2`, `z3`, vector_utils.py:100-102. -/
def interiorPoints (a b c d e f : ℤ) : List GVec :=
  (pyRange 0 a).flatMap (fun z1 : ℤ =>
    (pyRange (intTrunc (((b * z1 : ℤ) : ℚ) / a)) (intTrunc ((c : ℚ) + ((b * z1 : ℤ) : ℚ) / a))).flatMap (fun z2 : ℤ =>
      (pyRange (intTrunc (zOff a b c d e z1 z2)) (intTrunc ((f : ℚ) + zOff a b c d e z1 z2))).map (fun z3 : ℤ =>
        (![z1, z2, z3] : GVec))))

/-- The index of the point in the configuration string, vector_utils.py:113-126. -/
def groupIndex (L : Matrix (Fin 3) (Fin 3) ℤ) (S : GVec) (iD : ℕ) (z : GVec) : ℤ :=
  let g : GVec := fun i => L.mulVec z i % S i
  (iD : ℤ) * S 0 * S 1 * S 2 + g 0 * S 1 * S 2 + g 1 * S 2 + g 2

/-- `int(ch)` on a single character. -/
def digitOf (ch : Char) : Py ℕ := if ch.isDigit then .ok (ch.toNat - 48) else .error .valueError

/-- The spin variable of label `i` of `k` labels, vector_utils.py:141-152. -/
def spinOf (k i : ℕ) : ℤ :=
  let digit : ℤ := (i : ℤ) - (k / 2 : ℕ)
  if k % 2 = 0 then (if digit < 0 then digit else digit + 1) else digit

/-- The loop over the atoms that fills `spin` and `x`, vector_utils.py:138-152. A label that is no species raises
IndexError. -/
def spinLoop (k : ℕ) (labeling : List Char) : List ℤ → List ℕ → List ℤ → Py (List ℤ × List ℕ)
  | [], x, spin => .ok (spin, x)
  | gi :: rest, x, spin => do
    let ch ← pyGet labeling gi.toNat
    let i ← digitOf ch
    let xi ← pyGet x i
    spinLoop k labeling rest (x.set i (xi + 1)) (spin ++ [spinOf k i])

/-- The data of a structure that the routine uses. -/
structure StructData where
  n : ℕ
  HNF : Matrix (Fin 3) (Fin 3) ℤ
  S : GVec
  L : Matrix (Fin 3) (Fin 3) ℤ
  labeling : List Char

/-- The dictionary returned. `sLV` has the superlattice vectors as rows. -/
structure SpaceData where
  sLV : Matrix (Fin 3) (Fin 3) ℝ
  aBas : List V3
  spin : List ℤ
  gIndx : List ℤ
  x : List ℚ

/-- The superlattice vectors as rows, reduced if that is asked for, vector_utils.py:87-92. -/
noncomputable def superCell (plv : Matrix (Fin 3) (Fin 3) ℝ) (HNF : Matrix (Fin 3) (Fin 3) ℤ) (eps : ℝ) (mink : Bool) :
    Py (Matrix (Fin 3) (Fin 3) ℝ) :=
  if mink then minkReduce (plv * castM HNF).transpose eps else .ok (plv * castM HNF).transpose

/-- `map_enumStr_to_real_space`, vector_utils.py:68-159: `plv` has the parent lattice vectors as columns, `dvecs` are
the basis atoms, `k` is the number of species. Simplification: `n` and the number of basis atoms are positive (else the
last division fails). -/
noncomputable def mapToRealSpace (plv : Matrix (Fin 3) (Fin 3) ℝ) (dvecs : List V3) (k : ℕ) (eps : ℝ) (st : StructData)
    (mink : Bool) : Py SpaceData := do
  let slv ← superCell plv st.HNF eps mink
  let pts := interiorPoints (st.HNF 0 0) (st.HNF 1 0) (st.HNF 1 1) (st.HNF 2 0) (st.HNF 2 1) (st.HNF 2 2)
  let atoms := (List.range dvecs.length).flatMap (fun iD => pts.map (fun z => (iD, z)))
  let aBas := atoms.map (fun p => (fun i => plv.mulVec (fun j => (p.2 j : ℝ)) i + dvecs.getD p.1 0 i : V3))
  let gIndx := atoms.map (fun p => groupIndex st.L st.S p.1 p.2)
  if atoms.length ≠ st.n * dvecs.length then .error .sysExit else
  let (spin, x) ← spinLoop k st.labeling gIndx (List.replicate k 0) []
  .ok ⟨slv, aBas, spin, gIndx, x.map (fun c : ℕ => (c : ℚ) / (st.n * dvecs.length : ℕ))⟩

end Phenum
