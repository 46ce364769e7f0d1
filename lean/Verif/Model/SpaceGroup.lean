import Verif.Model.PointGroup
/-
Model of `get_spaceGroup` (phenum/symmetry.py).

Simplifications: real numbers with exact arithmetic (Model/PointGroup.lean); `atomType` and `bas_vecs`, which the code
takes as two lists of the same length, are one list of pairs.
-/
namespace Phenum

/-- The result of a call that may raise (`Py`) or not terminate (`none`). -/
abbrev Run := ExceptT PyErr Option

/-- A call that terminates. -/
def runPy {α : Type} (x : Py α) : Run α := ExceptT.mk (some x)

/-- A call that may not terminate. -/
def runO {α : Type} (x : Option (Py α)) : Run α := ExceptT.mk x

/-- `_does_mapping_exist`, symmetry.py:98-129. -/
noncomputable def doesMappingExist (v : V3) (thisType : ℕ) (atoms : List (ℕ × V3)) (eps : ℝ) : Bool :=
  open Classical in atoms.any (fun a => decide (a.1 = thisType) && decide (∀ i, |v i - a.2 i| ≤ eps))

/-- The loop over `kAtom` with its `break`, symmetry.py:335-347. -/
noncomputable def allMapped (c2l l2c : Matrix (Fin 3) (Fin 3) ℝ) (eps : ℝ) (op : Matrix (Fin 3) (Fin 3) ℝ) (fract : V3)
    (atoms : List (ℕ × V3)) : List (ℕ × V3) → Run Bool
  | [] => pure true
  | a :: rest => do
    let v2 : V3 ← (bringIntoCell (fun i => op.mulVec a.2 i + fract i) c2l l2c eps : Option (Py V3))
    if doesMappingExist v2 a.1 atoms eps then allMapped c2l l2c eps op fract atoms rest else pure false

/-- The loop over `jAtom`, symmetry.py:329-357: the translations found for the operation `op`; `a0` is the first
atom. -/
noncomputable def opFracts (c2l l2c : Matrix (Fin 3) (Fin 3) ℝ) (eps : ℝ) (op : Matrix (Fin 3) (Fin 3) ℝ) (a0 : ℕ × V3)
    (atoms : List (ℕ × V3)) : List (ℕ × V3) → Run (List V3)
  | [] => pure []
  | a :: rest =>
    if a.1 ≠ a0.1 then opFracts c2l l2c eps op a0 atoms rest else do
    let fract : V3 ← (bringIntoCell (fun i => a.2 i - op.mulVec a0.2 i) c2l l2c eps : Option (Py V3))
    let mapped ← allMapped c2l l2c eps op fract atoms atoms
    let more ← opFracts c2l l2c eps op a0 atoms rest
    pure (if mapped then fract :: more else more)

/-- The loop over the operations of the point group, symmetry.py:324-357; `sg_ops` and `sg_fracts` as pairs. -/
noncomputable def sgLoop (c2l l2c : Matrix (Fin 3) (Fin 3) ℝ) (eps : ℝ) (a0 : ℕ × V3) (atoms : List (ℕ × V3)) :
    List (Matrix (Fin 3) (Fin 3) ℝ) → Run (List (Matrix (Fin 3) (Fin 3) ℝ × V3))
  | [] => pure []
  | op :: rest => do
    let fr ← opFracts c2l l2c eps op a0 atoms atoms
    let more ← sgLoop c2l l2c eps a0 atoms rest
    pure (fr.map (fun f => (op, f)) ++ more)

/-- The loop that brings the atoms into the cell, symmetry.py:312-313. -/
noncomputable def bringAtoms (c2l l2c : Matrix (Fin 3) (Fin 3) ℝ) (eps : ℝ) : List (ℕ × V3) → Run (List (ℕ × V3))
  | [] => pure []
  | a :: rest => do
    let p : V3 ← (bringIntoCell a.2 c2l l2c eps : Option (Py V3))
    let more ← bringAtoms c2l l2c eps rest
    pure ((a.1, p) :: more)

/-- `get_spaceGroup`, symmetry.py:272-360; the rows of `P` are the lattice vectors. -/
noncomputable def spaceGroup (P : Matrix (Fin 3) (Fin 3) ℝ) (atoms : List (ℕ × V3)) (eps : ℝ) (lattcoords : Bool) :
    Run (List (Matrix (Fin 3) (Fin 3) ℝ × V3)) :=
  if P.transpose.det = 0 then throw .linAlgError else do
  let l2c := P.transpose
  let c2l := l2c⁻¹
  let atoms := if lattcoords then atoms.map (fun a => (a.1, l2c.mulVec a.2)) else atoms
  let atoms ← bringAtoms c2l l2c eps atoms
  let ops ← (some (latticePointGroup P eps) : Option (Py (List (Matrix (Fin 3) (Fin 3) ℝ))))
  match ops, atoms with
  | [], _ => pure []
  | _ :: _, [] => throw .indexError
  | _ :: _, a0 :: _ => sgLoop c2l l2c eps a0 atoms ops

end Phenum
