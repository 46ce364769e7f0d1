import Verif.Model.SpaceGroup
import Verif.Model.Perms
import Verif.Model.SNF
/-
Model of the drivers of phenum/grouptheory.py and phenum/HNFs.py: `_map_dvector_permutation`,
`_get_dvector_permutations`, `_rm_3D_operations`, `get_sym_group`, `get_HNFs`.

Simplifications: real numbers with exact arithmetic (Model/PointGroup.lean); the tolerance `eps` is a parameter
(`get_sym_group` uses 1E-10, `get_HNFs` 1E-7 unless told otherwise). The warnings printed about remapped basis vectors
are not modelled.
-/
namespace Phenum

/-- The loop over `jD`, grouptheory.py:227-233: the first basis vector not yet used that is close to `x`. -/
noncomputable def findClose (d : List V3) (eps : ℝ) (found : List Bool) (x : V3) : Option ℕ :=
  open Classical in
  (List.range d.length).find? (fun j => !(found.getD j false) && decide (∀ i, |x i - d.getD j 0 i| ≤ eps))

/-- The loop over `iD`, grouptheory.py:226-233. -/
noncomputable def mapDvecLoop (d : List V3) (eps : ℝ) : List V3 → List Bool → List ℕ
  | [], _ => []
  | x :: xs, found =>
    match findClose d eps found x with
    | some j => j :: mapDvecLoop d eps xs (found.set j true)
    | none => mapDvecLoop d eps xs found

/-- `_map_dvector_permutation`, grouptheory.py:212-242 (both lists have the same length). -/
noncomputable def mapDvectorPermutation (rd d : List V3) (eps : ℝ) : Py (List ℕ) :=
  let rp := mapDvecLoop d eps rd (List.replicate rd.length false)
  if rp.length ≠ d.length then .error .sysExit else .ok rp

/-- The body of the loop over the operations of `_get_dvector_permutations`, grouptheory.py:446-479: the lattice vectors
`v` and the permutation. `np.matmul(bas_vecs, rot)` multiplies the basis vectors, as rows, from the left. -/
noncomputable def dvecOne (c2l l2c : Matrix (Fin 3) (Fin 3) ℝ) (bas : List V3) (eps : ℝ)
    (op : Matrix (Fin 3) (Fin 3) ℝ × V3) : Run (List V3 × List ℕ) := do
  let trd := bas.map (fun d => (fun i => Matrix.vecMul d op.1 i + op.2 i : V3))
  let rd ← trd.mapM (fun x => runO (bringIntoCell x c2l l2c eps))
  let v := List.zipWith (fun r t => (fun i => r i - t i : V3)) rd trd
  let perm ← runPy (mapDvectorPermutation rd bas eps)
  pure (v, perm)

/-- `_rm_3D_operations`, grouptheory.py:924-963: `ValueError` unless the first lattice vector is `x00` and the third
`00x`; keeps the operations whose matrix has the form `[[±1,0,0],[0,*,*],[0,*,*]]`. -/
noncomputable def rm3D (P : Matrix (Fin 3) (Fin 3) ℝ) (ops : List (Matrix (Fin 3) (Fin 3) ℝ × V3)) (eps : ℝ) :
    Py (List (Matrix (Fin 3) (Fin 3) ℝ × V3)) :=
  open Classical in
  if ¬ (|P 0 1| ≤ eps ∧ |P 0 2| ≤ eps) ∨ ¬ (|P 2 0| ≤ eps ∧ |P 2 1| ≤ eps) then .error .valueError
  else .ok (ops.filter (fun op => decide ((|op.1 0 1| ≤ eps ∧ |op.1 0 2| ≤ eps) ∧ (|op.1 1 0| ≤ eps ∧ |op.1 2 0| ≤ eps) ∧
    abs (abs (op.1 0 0) - 1) ≤ eps)))

/-- `_get_dvector_permutations`, grouptheory.py:411-486; `latDim` is `LatDim`. -/
noncomputable def dvectorPermutations (P : Matrix (Fin 3) (Fin 3) ℝ) (bas : List V3) (latDim : ℕ) (eps : ℝ) :
    Run (List (List V3 × List ℕ)) := do
  let sg ← spaceGroup P (bas.map (fun d => (1, d))) eps false
  let sg ← runPy (if latDim = 2 then rm3D P sg eps else .ok sg)
  sg.mapM (dvecOne (P.transpose)⁻¹ P.transpose bas eps)

/-- The loop bringing the basis vectors into the cell, grouptheory.py:736-738 and HNFs.py:145-146. -/
noncomputable def bringBasis (P : Matrix (Fin 3) (Fin 3) ℝ) (bas : List V3) (eps : ℝ) : Run (List V3) :=
  bas.mapM (fun b => runO (bringIntoCell b (P⁻¹).transpose P.transpose eps))

/-- The operations of the space group with the data recorded for their index in `dPerm` (`dPerm.v[iRot]`,
`site_perm[iRot]`); `none` where the index is out of range. -/
def withData (sg : List (Matrix (Fin 3) (Fin 3) ℝ × V3)) (dp : List (List V3 × List ℕ)) :
    List (Matrix (Fin 3) (Fin 3) ℝ × (V3 × Option (List V3 × List ℕ))) :=
  (List.range sg.length).map (fun i => ((sg.getD i (0, 0)).1, ((sg.getD i (0, 0)).2, dp[i]?)))

/-- `dPerm.v[iRot]` for the operations kept, grouptheory.py:186; raises IndexError. (The code looks the entry up when it
keeps the operation; no other error can come first.) -/
def takeData (kept : List (Matrix (Fin 3) (Fin 3) ℝ × (V3 × Option (List V3 × List ℕ)))) : Py (List (CellOp ℝ)) :=
  kept.mapM (fun k => match k.2.2 with
    | some d => .ok ⟨k.1, k.2.1, d.1, d.2⟩
    | none => .error .indexError)

/-- `get_sym_group`, grouptheory.py:710-759. -/
noncomputable def getSymGroup (P : Matrix (Fin 3) (Fin 3) ℝ) (bas : List V3) (H : Matrix (Fin 3) (Fin 3) ℤ) (latDim : ℕ)
    (eps : ℝ) (arrows : Bool) : Run (List (List ℕ × List ℕ)) :=
  if P.det = 0 then throw .linAlgError else do
  let bas ← bringBasis P bas eps
  let dp ← dvectorPermutations P bas latDim eps
  let sg ← spaceGroup P (bas.map (fun d => (1, d))) eps false
  let fix ← runPy (fixingOperations P.transpose H eps (withData sg dp))
  let ops ← runPy (takeData fix.1)
  let snf ← runO (smithNormalForm H)
  runPy (rotationPerms P.transpose H.det.toNat bas.length snf.A (fun i => snf.M i i) ops eps arrows)

/-- The loop over the unique HNFs in `remove_duplicate_lattices`, HNFs.py:105-113: only its errors matter for `get_HNFs`. -/
noncomputable def checkFixing (P : Matrix (Fin 3) (Fin 3) ℝ) (eps : ℝ)
    (ops : List (Matrix (Fin 3) (Fin 3) ℝ × (V3 × Option (List V3 × List ℕ)))) (U : List (Matrix (Fin 3) (Fin 3) ℤ)) :
    Py (List ℕ) :=
  U.mapM (fun u => do
    let fix ← fixingOperations P.transpose u eps ops
    let _ ← takeData fix.1
    .ok (fix.2 + 1))

/-- `remove_duplicate_lattices`, HNFs.py:54-115: the unique HNFs and their degeneracies (the lists of fixing operations,
which are not used, are left out). -/
noncomputable def removeDuplicateLattices (hnfs : List (Matrix (Fin 3) (Fin 3) ℤ)) (P : Matrix (Fin 3) (Fin 3) ℝ)
    (bas : List V3) (dp : List (List V3 × List ℕ)) (eps : ℝ) : Run (List (Matrix (Fin 3) (Fin 3) ℤ) × List ℕ) := do
  let sg ← spaceGroup P (bas.map (fun d => (1, d))) eps false
  let U ← runPy (removeDuplicates hnfs P.transpose (sg.map (·.1)) eps)
  let degens ← runPy (checkFixing P eps (withData sg dp) U)
  pure (U, degens)

/-- `get_HNFs`, HNFs.py:117-158. -/
noncomputable def getHNFs (n : ℕ) (P : Matrix (Fin 3) (Fin 3) ℝ) (bas : List V3) (latDim : ℕ) (eps : ℝ) :
    Run (List (Matrix (Fin 3) (Fin 3) ℤ)) :=
  if P.det = 0 then throw .linAlgError else do
  let bas ← bringBasis P bas eps
  let dp ← dvectorPermutations P bas latDim eps
  let r ← removeDuplicateLattices (findAllHNFs n) P bas dp eps
  pure r.1

end Phenum
