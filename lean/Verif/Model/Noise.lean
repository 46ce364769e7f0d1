import Verif.Model.SymGroup
/-
Model of the searches for symmetries with rounding errors: `get_lattice_pointGroup`, `bring_into_cell`, `get_spaceGroup`,
`_get_dvector_permutations`, `_is_equiv_lattice`, `remove_duplicate_lattices`, `get_HNFs`, `get_sym_group`
(phenum/symmetry.py, phenum/grouptheory.py, phenum/HNFs.py).

A call has a set of possible results. Whenever the code compares or rounds a number, the number it sees (`meas`) is any number within
`δ` of the number it would have in exact arithmetic: `δ` bounds the error accumulated up to that place (from the input, from every sum,
product, norm, inverse and determinant on the way). The errors of different comparisons are independent of each other, also of two
comparisons of the same number; so every way in which the errors depend on the order of operations, the library or the history is covered.
The functions follow those of Model/PointGroup.lean, Model/SpaceGroup.lean, Model/Lattice.lean, Model/Perms.lean and
Model/SymGroup.lean line by line.

Simplifications: `LatDim` is 3. `inv` raises LinAlgError exactly for singular matrices. The determinant of the identity is exact.
-/
namespace Phenum

/-- The possible results of a call. -/
def Noisy (α : Type) : Type := Py α → Prop

/-- The call has this result only. -/
def sure {α : Type} (r : Py α) : Noisy α := fun r' => r' = r

/-- One call after another: an error ends the run. -/
instance : Monad Noisy where
  pure a := sure (.ok a)
  bind x f := fun r => (∃ e, x (.error e) ∧ r = .error e) ∨ ∃ a, x (.ok a) ∧ f a r

/-- A number with an error of at most `δ`. -/
def meas (δ x : ℝ) : Noisy ℝ := fun r => ∃ y, |y - x| ≤ δ ∧ r = .ok y

/-- A vector with an error of at most `δ` in every component. -/
def measV (δ : ℝ) (v : V3) : Noisy V3 := fun r => ∃ w : V3, (∀ i, |w i - v i| ≤ δ) ∧ r = .ok w

/-- A matrix with an error of at most `δ` in every entry. -/
def measM (δ : ℝ) (m : Matrix (Fin 3) (Fin 3) ℝ) : Noisy (Matrix (Fin 3) (Fin 3) ℝ) :=
  fun r => ∃ w : Matrix (Fin 3) (Fin 3) ℝ, (∀ i j, |w i j - m i j| ≤ δ) ∧ r = .ok w

/-- A loop that appends the results of its passes. -/
def flatMapN {α β : Type} (f : α → Noisy (List β)) : List α → Noisy (List β)
  | [] => pure []
  | a :: l => do
    let x ← f a
    let r ← flatMapN f l
    pure (x ++ r)

/-- A loop that collects the results of its passes. -/
def mapN {α β : Type} (f : α → Noisy β) : List α → Noisy (List β)
  | [] => pure []
  | a :: l => do
    let x ← f a
    let r ← mapN f l
    pure (x :: r)

/-! ## The point group -/

/-- `n1`, `n2`, `n3`, symmetry.py:220-222. -/
noncomputable def searchRangeN (δ : ℝ) (A : Matrix (Fin 3) (Fin 3) ℝ) (b c : V3) (eps : ℝ) : Noisy ℤ := do
  let x ← meas δ (maxNorm A * vnorm (fun i => vcross b c i / cellVolume A + eps))
  pure ⌈x⌉

open Classical in
/-- The lattice vectors in the sphere, symmetry.py:224-241; the number compared is `length - max_norm`. -/
noncomputable def sphereVecsN (δ : ℝ) (A : Matrix (Fin 3) (Fin 3) ℝ) (eps : ℝ) : Noisy (List V3) := do
  let n1 ← searchRangeN δ A (A 1) (A 2) eps
  let n2 ← searchRangeN δ A (A 2) (A 0) eps
  let n3 ← searchRangeN δ A (A 0) (A 1) eps
  flatMapN (fun i : ℤ => flatMapN (fun j : ℤ => flatMapN (fun k : ℤ => do
      let v : V3 := fun c => (i : ℝ) * A 0 c + (j : ℝ) * A 1 c + (k : ℝ) * A 2 c
      let d ← meas δ (vnorm v - maxNorm A)
      if d > eps then pure [] else pure [v])
    (pyRange (-n3) (n3 + 1))) (pyRange (-n2) (n2 + 1))) (pyRange (-n1) (n1 + 1))

open Classical in
/-- The body of the loop over the triples, symmetry.py:256-268. -/
noncomputable def tryTripleN (δ : ℝ) (A : Matrix (Fin 3) (Fin 3) ℝ) (eps : ℝ) (u v w : V3) : Noisy (List (Matrix (Fin 3) (Fin 3) ℝ)) := do
  let N : Matrix (Fin 3) (Fin 3) ℝ := ![u, v, w]
  let d0 ← meas δ (vnorm u - vnorm (A 0))
  let d1 ← meas δ (vnorm v - vnorm (A 1))
  let d2 ← meas δ (vnorm w - vnorm (A 2))
  let d3 ← meas δ (cellVolume A - abs N.det)
  if |d0| > eps ∨ |d1| > eps ∨ |d2| > eps ∨ |d3| > eps then pure []
  else do
    let R := A⁻¹ * N
    let T ← measM δ (R * R.transpose)
    if matClose eps T 1 then pure [R] else pure []

/-- `get_lattice_pointGroup`, symmetry.py:197-270. -/
noncomputable def latticePointGroupN (δ : ℝ) (A : Matrix (Fin 3) (Fin 3) ℝ) (eps : ℝ) : Noisy (List (Matrix (Fin 3) (Fin 3) ℝ)) :=
  if A.det = 0 then sure (.error .linAlgError) else do
  let rv ← sphereVecsN δ A eps
  flatMapN (fun t => tryTripleN δ A eps (rv.getD t.1 0) (rv.getD t.2.1 0) (rv.getD t.2.2 0)) (triples rv.length)

/-! ## The space group -/

/-- The body of the loop of `bring_into_cell` applied to one component, symmetry.py:184-188; `w` is the number seen, `v` the exact
one. -/
noncomputable def wrapStepN (eps w v : ℝ) : ℝ := if w ≥ 1 - eps then v - 1 else if w < 0 - eps then v + 1 else v

/-- The loop of `bring_into_cell`, symmetry.py:180-191; at most `k` more rounds until `exit()`. -/
noncomputable def wrapLoopN (δ eps : ℝ) : ℕ → V3 → Noisy V3
  | k, v => do
    let w ← measV δ v
    if (w 0 > 1 - eps ∨ w 1 > 1 - eps ∨ w 2 > 1 - eps) ∨ (w 0 < 0 - eps ∨ w 1 < 0 - eps ∨ w 2 < 0 - eps) then
      match k with
      | 0 => sure (.error .sysExit)
      | k + 1 => wrapLoopN δ eps k (fun i => wrapStepN eps (w i) (v i))
    else pure v

/-- `bring_into_cell`, symmetry.py:153-195. -/
noncomputable def bringIntoCellN (δ : ℝ) (vec : V3) (cartToLatt lattToCart : Matrix (Fin 3) (Fin 3) ℝ) (eps : ℝ) : Noisy V3 := do
  let v := cartToLatt.mulVec vec
  let w ← measV δ v
  let maxc := max ⌈|max3 w|⌉ ⌈|min3 w|⌉ * 2
  let r ← wrapLoopN δ eps maxc.toNat v
  pure (lattToCart.mulVec r)

open Classical in
/-- `numpy.allclose(u, v, rtol=0, atol=eps)` for vectors. -/
noncomputable def closeN (δ eps : ℝ) (u v : V3) : Noisy Bool := do
  let d ← measV δ (fun i => u i - v i)
  pure (decide (∀ i, |d i| ≤ eps))

/-- `_does_mapping_exist`, symmetry.py:98-129. -/
noncomputable def doesMappingExistN (δ : ℝ) (v : V3) (thisType : ℕ) (eps : ℝ) : List (ℕ × V3) → Noisy Bool
  | [] => pure false
  | a :: rest =>
    if a.1 = thisType then do
      let b ← closeN δ eps v a.2
      if b then pure true else doesMappingExistN δ v thisType eps rest
    else doesMappingExistN δ v thisType eps rest

/-- The loop over `kAtom`, symmetry.py:335-347. -/
noncomputable def allMappedN (δ : ℝ) (c2l l2c : Matrix (Fin 3) (Fin 3) ℝ) (eps : ℝ) (op : Matrix (Fin 3) (Fin 3) ℝ) (fract : V3)
    (atoms : List (ℕ × V3)) : List (ℕ × V3) → Noisy Bool
  | [] => pure true
  | a :: rest => do
    let v2 ← bringIntoCellN δ (fun i => op.mulVec a.2 i + fract i) c2l l2c eps
    let b ← doesMappingExistN δ v2 a.1 eps atoms
    if b then allMappedN δ c2l l2c eps op fract atoms rest else pure false

/-- The loop over `jAtom`, symmetry.py:329-357. -/
noncomputable def opFractsN (δ : ℝ) (c2l l2c : Matrix (Fin 3) (Fin 3) ℝ) (eps : ℝ) (op : Matrix (Fin 3) (Fin 3) ℝ) (a0 : ℕ × V3)
    (atoms : List (ℕ × V3)) : List (ℕ × V3) → Noisy (List V3)
  | [] => pure []
  | a :: rest =>
    if a.1 ≠ a0.1 then opFractsN δ c2l l2c eps op a0 atoms rest else do
    let fract ← bringIntoCellN δ (fun i => a.2 i - op.mulVec a0.2 i) c2l l2c eps
    let mapped ← allMappedN δ c2l l2c eps op fract atoms atoms
    let more ← opFractsN δ c2l l2c eps op a0 atoms rest
    pure (if mapped then fract :: more else more)

/-- The loop over the operations of the point group, symmetry.py:324-357. -/
noncomputable def sgLoopN (δ : ℝ) (c2l l2c : Matrix (Fin 3) (Fin 3) ℝ) (eps : ℝ) (a0 : ℕ × V3) (atoms : List (ℕ × V3)) :
    List (Matrix (Fin 3) (Fin 3) ℝ) → Noisy (List (Matrix (Fin 3) (Fin 3) ℝ × V3))
  | [] => pure []
  | op :: rest => do
    let fr ← opFractsN δ c2l l2c eps op a0 atoms atoms
    let more ← sgLoopN δ c2l l2c eps a0 atoms rest
    pure (fr.map (fun f => (op, f)) ++ more)

/-- The loop that brings the atoms into the cell, symmetry.py:312-313. -/
noncomputable def bringAtomsN (δ : ℝ) (c2l l2c : Matrix (Fin 3) (Fin 3) ℝ) (eps : ℝ) : List (ℕ × V3) → Noisy (List (ℕ × V3))
  | [] => pure []
  | a :: rest => do
    let p ← bringIntoCellN δ a.2 c2l l2c eps
    let more ← bringAtomsN δ c2l l2c eps rest
    pure ((a.1, p) :: more)

/-- `get_spaceGroup` with `lattcoords = False`, symmetry.py:272-360. -/
noncomputable def spaceGroupN (δ : ℝ) (P : Matrix (Fin 3) (Fin 3) ℝ) (atoms : List (ℕ × V3)) (eps : ℝ) :
    Noisy (List (Matrix (Fin 3) (Fin 3) ℝ × V3)) :=
  if P.transpose.det = 0 then sure (.error .linAlgError) else do
  let atoms ← bringAtomsN δ (P.transpose)⁻¹ P.transpose eps atoms
  let ops ← latticePointGroupN δ P eps
  match ops, atoms with
  | [], _ => pure []
  | _ :: _, [] => sure (.error .indexError)
  | _ :: _, a0 :: _ => sgLoopN δ (P.transpose)⁻¹ P.transpose eps a0 atoms ops

/-! ## Comparing superlattices -/

/-- `_is_equiv_lattice`, grouptheory.py:123-148. -/
noncomputable def isEquivLatticeN (δ : ℝ) (lat1 lat2 : Matrix (Fin 3) (Fin 3) ℝ) (eps : ℝ) : Noisy Bool :=
  open Classical in
  if lat1.det = 0 then sure (.error .linAlgError)
  else do
    let S ← measM δ (lat1⁻¹ * lat2)
    let d ← meas δ (lat1⁻¹ * lat2).det
    pure (decide (|(|d| - 1)| ≤ eps ∧ ∀ i j, |S i j - (round (S i j) : ℤ)| ≤ eps))

/-- The inner loop over the rotations, HNFs.py:88-94. -/
noncomputable def dupWithN (δ : ℝ) (A : Matrix (Fin 3) (Fin 3) ℝ) (hi hj : Matrix (Fin 3) (Fin 3) ℤ) (eps : ℝ) :
    List (Matrix (Fin 3) (Fin 3) ℝ) → Noisy Bool
  | [] => pure false
  | r :: rest => do
    let b ← isEquivLatticeN δ (r * (A * castM hi)) (A * castM hj) eps
    if b then pure true else dupWithN δ A hi hj eps rest

/-- The loop over the HNFs kept so far, HNFs.py:87-96. -/
noncomputable def dupAnyN (δ : ℝ) (A : Matrix (Fin 3) (Fin 3) ℝ) (rots : List (Matrix (Fin 3) (Fin 3) ℝ)) (eps : ℝ)
    (hi : Matrix (Fin 3) (Fin 3) ℤ) : List (Matrix (Fin 3) (Fin 3) ℤ) → Noisy Bool
  | [] => pure false
  | hj :: rest => do
    let b ← dupWithN δ A hi hj eps rots
    if b then pure true else dupAnyN δ A rots eps hi rest

/-- The outer loop, HNFs.py:85-99. -/
noncomputable def dupLoopN (δ : ℝ) (A : Matrix (Fin 3) (Fin 3) ℝ) (rots : List (Matrix (Fin 3) (Fin 3) ℝ)) (eps : ℝ) :
    List (Matrix (Fin 3) (Fin 3) ℤ) → List (Matrix (Fin 3) (Fin 3) ℤ) → Noisy (List (Matrix (Fin 3) (Fin 3) ℤ))
  | [], u => pure u
  | hi :: rest, u => do
    let d ← dupAnyN δ A rots eps hi u
    if d then dupLoopN δ A rots eps rest u else dupLoopN δ A rots eps rest (u ++ [hi])

/-- The list of unique HNFs, HNFs.py:74-99. -/
noncomputable def removeDuplicatesN (δ : ℝ) (hnfs : List (Matrix (Fin 3) (Fin 3) ℤ)) (A : Matrix (Fin 3) (Fin 3) ℝ)
    (rots : List (Matrix (Fin 3) (Fin 3) ℝ)) (eps : ℝ) : Noisy (List (Matrix (Fin 3) (Fin 3) ℤ)) :=
  if hnfs.length = 1 then pure hnfs else dupLoopN δ A rots eps hnfs []

/-- The search in the list of degenerate lattices, grouptheory.py:193-197. -/
noncomputable def inDegenN (δ eps : ℝ) (L : Matrix (Fin 3) (Fin 3) ℝ) : List (Matrix (Fin 3) (Fin 3) ℝ) → Noisy Bool
  | [] => pure false
  | D :: rest => do
    let b ← isEquivLatticeN δ D L eps
    if b then pure true else inDegenN δ eps L rest

/-- The loop of `_get_sLV_fixing_operations`, grouptheory.py:179-200. -/
noncomputable def fixLoopN (δ : ℝ) {D : Type} (A : Matrix (Fin 3) (Fin 3) ℝ) (H : Matrix (Fin 3) (Fin 3) ℤ) (eps : ℝ) :
    List (Matrix (Fin 3) (Fin 3) ℝ × D) → List (Matrix (Fin 3) (Fin 3) ℝ × D) → List (Matrix (Fin 3) (Fin 3) ℝ) →
    Noisy (List (Matrix (Fin 3) (Fin 3) ℝ × D) × Nat)
  | [], fixed, degen => pure (fixed, degen.length)
  | op :: rest, fixed, degen => do
    let origLat := A * castM H
    let rotLat := op.1 * origLat
    let b ← isEquivLatticeN δ rotLat origLat eps
    if b then fixLoopN δ A H eps rest (fixed ++ [op]) degen
    else do
      let inList ← inDegenN δ eps rotLat degen
      if inList then fixLoopN δ A H eps rest fixed degen
      else fixLoopN δ A H eps rest fixed (degen ++ [rotLat])

/-- `_get_sLV_fixing_operations`, grouptheory.py:150-210. -/
noncomputable def fixingOperationsN (δ : ℝ) {D : Type} (A : Matrix (Fin 3) (Fin 3) ℝ) (H : Matrix (Fin 3) (Fin 3) ℤ) (eps : ℝ)
    (ops : List (Matrix (Fin 3) (Fin 3) ℝ × D)) : Noisy (List (Matrix (Fin 3) (Fin 3) ℝ × D) × Nat) :=
  fixLoopN δ A H eps ops [] []

/-! ## Permutations of the basis vectors -/

/-- The loop over `jD`, grouptheory.py:227-233, from position `j` on. -/
noncomputable def findCloseN (δ eps : ℝ) (found : List Bool) (x : V3) : List V3 → ℕ → Noisy (Option ℕ)
  | [], _ => pure none
  | y :: rest, j =>
    if found.getD j false then findCloseN δ eps found x rest (j + 1) else do
    let b ← closeN δ eps x y
    if b then pure (some j) else findCloseN δ eps found x rest (j + 1)

/-- The loop over `iD`, grouptheory.py:226-233. -/
noncomputable def mapDvecLoopN (δ : ℝ) (d : List V3) (eps : ℝ) : List V3 → List Bool → Noisy (List ℕ)
  | [], _ => pure []
  | x :: xs, found => do
    let j ← findCloseN δ eps found x d 0
    match j with
    | some j => do
      let r ← mapDvecLoopN δ d eps xs (found.set j true)
      pure (j :: r)
    | none => mapDvecLoopN δ d eps xs found

/-- `_map_dvector_permutation`, grouptheory.py:212-242. -/
noncomputable def mapDvectorPermutationN (δ : ℝ) (rd d : List V3) (eps : ℝ) : Noisy (List ℕ) := do
  let rp ← mapDvecLoopN δ d eps rd (List.replicate rd.length false)
  if rp.length ≠ d.length then sure (.error .sysExit) else pure rp

/-- The body of the loop over the operations of `_get_dvector_permutations`, grouptheory.py:446-479. -/
noncomputable def dvecOneN (δ : ℝ) (c2l l2c : Matrix (Fin 3) (Fin 3) ℝ) (bas : List V3) (eps : ℝ)
    (op : Matrix (Fin 3) (Fin 3) ℝ × V3) : Noisy (List V3 × List ℕ) := do
  let trd := bas.map (fun d => (fun i => Matrix.vecMul d op.1 i + op.2 i : V3))
  let rd ← mapN (fun x => bringIntoCellN δ x c2l l2c eps) trd
  let v := List.zipWith (fun r t => (fun i => r i - t i : V3)) rd trd
  let perm ← mapDvectorPermutationN δ rd bas eps
  pure (v, perm)

/-- `_get_dvector_permutations` with `LatDim = 3`, grouptheory.py:411-486. -/
noncomputable def dvectorPermutationsN (δ : ℝ) (P : Matrix (Fin 3) (Fin 3) ℝ) (bas : List V3) (eps : ℝ) :
    Noisy (List (List V3 × List ℕ)) := do
  let sg ← spaceGroupN δ P (bas.map (fun d => (1, d))) eps
  mapN (dvecOneN δ (P.transpose)⁻¹ P.transpose bas eps) sg

/-- The loop bringing the basis vectors into the cell, grouptheory.py:736-738 and HNFs.py:145-146. -/
noncomputable def bringBasisN (δ : ℝ) (P : Matrix (Fin 3) (Fin 3) ℝ) (bas : List V3) (eps : ℝ) : Noisy (List V3) :=
  mapN (fun b => bringIntoCellN δ b (P⁻¹).transpose P.transpose eps) bas

/-! ## Permutations of the sites -/

/-- The image of the member list for one basis atom, grouptheory.py:564-580. -/
noncomputable def rotGpN (δ eps : ℝ) (tinv R T : Matrix (Fin 3) (Fin 3) ℝ) (v : V3) (S : GVec) (g : List GVec) : Noisy (List GVec) :=
  open Classical in
  mapN (fun x => do
    let r ← measV δ (tinv.mulVec (-v + (R * T).mulVec (fun i => (x i : ℝ))))
    let z : GVec := fun i => npRound (r i)
    if ∀ i, |r i - (z i : ℝ)| ≤ eps then pure (fun i => z i % S i) else sure (.error .sysExit)) g

/-- The loop over the basis atoms, grouptheory.py:563-602. -/
noncomputable def fillRowsN (δ eps : ℝ) (tinv T : Matrix (Fin 3) (Fin 3) ℝ) (S : GVec) (g : List GVec) (n : ℕ) (op : CellOp ℝ) :
    List ℕ → List ℕ → Noisy (List ℕ)
  | [], tab => pure tab
  | iD :: rest, tab => do
    let gp ← rotGpN δ eps tinv op.rot T (op.v.getD iD 0) S g
    fillRowsN δ eps tinv T S g n op rest (fillTable n gp iD (op.dperm.getD iD 0) g 0 (List.replicate n false) tab)

/-- The arrow permutation of a rotation, grouptheory.py:566, 569, 604-617. -/
noncomputable def arrowPermN (δ : ℝ) (R : Matrix (Fin 3) (Fin 3) ℝ) : Noisy (List ℕ) := do
  let ag ← mapN (fun a : GVec => do
    let w ← measV δ (R.transpose.mulVec (fun k => (a k : ℝ)))
    pure (fun i => npRound (w i) : GVec)) arrowDirs
  let dap := fillTable 6 ag 0 0 arrowDirs 0 (List.replicate 6 false) (List.replicate 6 0)
  if dap.count 0 > 1 then sure (.error .sysExit) else pure dap

/-- The permutation effected by one operation, grouptheory.py:555-623. -/
noncomputable def opPermN (δ eps : ℝ) (tinv T : Matrix (Fin 3) (Fin 3) ℝ) (S : GVec) (g : List GVec) (n nd : ℕ) (op : CellOp ℝ) :
    Noisy (List ℕ × List ℕ) := do
  let tab ← fillRowsN δ eps tinv T S g n op (List.range nd) (List.replicate (nd * n) 0)
  let dap ← arrowPermN δ op.rot
  pure (tab, dap)

/-- `_get_rotation_perms_lists` for one HNF, grouptheory.py:491-708. -/
noncomputable def rotationPermsN (δ : ℝ) (At : Matrix (Fin 3) (Fin 3) ℝ) (n nd : ℕ) (L : Matrix (Fin 3) (Fin 3) ℤ) (S : GVec)
    (ops : List (CellOp ℝ)) (eps : ℝ) (arrows : Bool) : Noisy (List (List ℕ × List ℕ)) :=
  if At.det = 0 then sure (.error .linAlgError) else
  let tinv := castM L * At⁻¹
  if tinv.det = 0 then sure (.error .linAlgError) else
  let T := tinv⁻¹
  let g := memberList S
  if g.length ≠ n then sure (.error .valueError) else do
  let perms ← mapN (opPermN δ eps tinv T S g n nd) ops
  sure (composePerms (transPerms S g n nd) (cleanPerms arrows perms))

/-- `np.linalg.det(HNF)`. The determinant of the identity is exact. -/
noncomputable def detN (δ : ℝ) (H : Matrix (Fin 3) (Fin 3) ℤ) : Noisy ℝ := if H = 1 then pure 1 else meas δ (H.det : ℝ)

/-- `SmithNormalForm`, grouptheory.py:266-409: only the determinant is not an integer computation (line 285). A loop that does
not end has no result. -/
noncomputable def smithNormalFormN (δ : ℝ) (H : Matrix (Fin 3) (Fin 3) ℤ) : Noisy SnfState := do
  let d ← detN δ H
  if d < 1 then sure (.error .valueError) else
  match snfLoop H 99 0 { M := H, A := 1, B := 1 } with
  | none => fun _ => False
  | some (.error e) => sure (.error e)
  | some (.ok s) => sure (snfFinish H s)

/-! ## The drivers -/

/-- `get_sym_group` with `LatDim = 3`, grouptheory.py:710-759; `n = int(round(np.linalg.det(HNF[0])))`, line 516. -/
noncomputable def getSymGroupN (δ : ℝ) (P : Matrix (Fin 3) (Fin 3) ℝ) (bas : List V3) (H : Matrix (Fin 3) (Fin 3) ℤ)
    (eps : ℝ) (arrows : Bool) : Noisy (List (List ℕ × List ℕ)) :=
  if P.det = 0 then sure (.error .linAlgError) else do
  let bas ← bringBasisN δ P bas eps
  let dp ← dvectorPermutationsN δ P bas eps
  let sg ← spaceGroupN δ P (bas.map (fun d => (1, d))) eps
  let fix ← fixingOperationsN δ P.transpose H eps (withData sg dp)
  let ops ← sure (takeData fix.1)
  let snf ← smithNormalFormN δ H
  let d ← detN δ H
  rotationPermsN δ P.transpose (npRound d).toNat bas.length snf.A (fun i => snf.M i i) ops eps arrows

/-- The loop over the unique HNFs in `remove_duplicate_lattices`, HNFs.py:105-113. -/
noncomputable def checkFixingN (δ : ℝ) (P : Matrix (Fin 3) (Fin 3) ℝ) (eps : ℝ)
    (ops : List (Matrix (Fin 3) (Fin 3) ℝ × (V3 × Option (List V3 × List ℕ)))) (U : List (Matrix (Fin 3) (Fin 3) ℤ)) :
    Noisy (List ℕ) :=
  mapN (fun u => do
    let fix ← fixingOperationsN δ P.transpose u eps ops
    let _ ← sure (takeData fix.1)
    pure (fix.2 + 1)) U

/-- `remove_duplicate_lattices`, HNFs.py:54-115. -/
noncomputable def removeDuplicateLatticesN (δ : ℝ) (hnfs : List (Matrix (Fin 3) (Fin 3) ℤ)) (P : Matrix (Fin 3) (Fin 3) ℝ)
    (bas : List V3) (dp : List (List V3 × List ℕ)) (eps : ℝ) : Noisy (List (Matrix (Fin 3) (Fin 3) ℤ) × List ℕ) := do
  let sg ← spaceGroupN δ P (bas.map (fun d => (1, d))) eps
  let U ← removeDuplicatesN δ hnfs P.transpose (sg.map (·.1)) eps
  let degens ← checkFixingN δ P eps (withData sg dp) U
  pure (U, degens)

/-- `get_HNFs` with `LatDim = 3`, HNFs.py:117-158. -/
noncomputable def getHNFsN (δ : ℝ) (n : ℕ) (P : Matrix (Fin 3) (Fin 3) ℝ) (bas : List V3) (eps : ℝ) :
    Noisy (List (Matrix (Fin 3) (Fin 3) ℤ)) :=
  if P.det = 0 then sure (.error .linAlgError) else do
  let bas ← bringBasisN δ P bas eps
  let dp ← dvectorPermutationsN δ P bas eps
  let r ← removeDuplicateLatticesN δ (findAllHNFs n) P bas dp eps
  pure r.1

end Phenum
