import Verif.Model.Lattice
/-
Model of the permutations generated by phenum/grouptheory.py: `_make_member_list`, `_find_permutation_of_group`,
`_get_rotation_perms_lists`.

Simplifications: exact arithmetic over an ordered field `K` (see Model/Lattice.lean); the comparison `np.allclose` of
two integer vectors is equality (the code's relative tolerance 1E-5 could only confuse entries beyond 10^5).
-/
namespace Phenum

/-- A member of the translation group: three integers. -/
abbrev GVec := Fin 3 → ℤ

/-- One step of the loop of `_make_member_list`, grouptheory.py:90-96. -/
def memberStep (n p : GVec) : GVec :=
  let p2 := (p 2 + 1) % n 2
  if p2 = 0 then
    let p1 := (p 1 + 1) % n 1
    if p1 = 0 then ![(p 0 + 1) % n 0, p1, p2] else ![p 0, p1, p2]
  else ![p 0, p 1, p2]

/-- `k` members starting from `p`. -/
def memberFrom (n : GVec) : ℕ → GVec → List GVec
  | 0, _ => []
  | k + 1, p => p :: memberFrom n k (memberStep n p)

/-- `_make_member_list`, grouptheory.py:73-97. -/
def memberList (n : GVec) : List GVec := memberFrom n (n 0 * n 1 * n 2).toNat 0

/-- The inner loop of the searches: the first `jm` not yet used with `gp[jm] = x`, grouptheory.py:112-118, 583-602. -/
def findMatch (gp : List GVec) (skip : List Bool) (x : GVec) : Option ℕ :=
  (List.range gp.length).find? (fun jm => !(skip.getD jm false) && decide (gp[jm]? = some x))

/-- `_find_permutation_of_group`, grouptheory.py:99-121: the loop over the members of `g`. -/
def findPermLoop (gp : List GVec) : List GVec → List Bool → List ℕ
  | [], _ => []
  | x :: xs, skip =>
    match findMatch gp skip x with
    | some jm => jm :: findPermLoop gp xs (skip.set jm true)
    | none => findPermLoop gp xs skip

/-- `_find_permutation_of_group`, grouptheory.py:99-121. -/
def findPerm (g gp : List GVec) : List ℕ := findPermLoop gp g (List.replicate g.length false)

variable {K : Type} [Field K] [LinearOrder K] [IsStrictOrderedRing K] [FloorRing K]

/-- `np.round`: halves go to the even neighbour. -/
def npRound (x : K) : ℤ :=
  if Int.fract x = 1 / 2 then (if ⌊x⌋ % 2 = 0 then ⌊x⌋ else ⌊x⌋ + 1) else round x

/-- An operation fixing the superlattice: the rotation, the shift (not used here), for each basis atom the lattice vector `v`, and the
permutation of the basis atoms (`Op[iH].rot[iOp]`, `Op[iH].shift[iOp]`, `RPlist[iH].v[iOp]`, `dperms.perm.site_perm[RotIndx[iOp]]`). -/
structure CellOp (K : Type) where
  rot : Matrix (Fin 3) (Fin 3) K
  shift : Fin 3 → K
  v : List (Fin 3 → K)
  dperm : List ℕ

/-- The image `gp` of the member list for basis atom `iD`, grouptheory.py:564-580: transform, check that the result
is integer, reduce modulo the diagonal of the SNF. -/
def rotGp (eps : K) (tinv R T : Matrix (Fin 3) (Fin 3) K) (v : Fin 3 → K) (S : GVec) (g : List GVec) : Py (List GVec) :=
  g.mapM (fun x =>
    let r := tinv.mulVec (-v + (R * T).mulVec (fun i => (x i : K)))
    let z : GVec := fun i => npRound (r i)
    if ∀ i, |r i - (z i : K)| ≤ eps then .ok (fun i => z i % S i) else .error .sysExit)

/-- The loops over `im`, `jm` that fill the (d,g) table for basis atom `iD`, grouptheory.py:582-602. The table is kept
in the "long form" of line 622: entry `row*n + im`. -/
def fillTable (n : ℕ) (gp : List GVec) (iD row : ℕ) : List GVec → ℕ → List Bool → List ℕ → List ℕ
  | [], _, _, tab => tab
  | x :: xs, im, skip, tab =>
    match findMatch gp skip x with
    | some jm => fillTable n gp iD row xs (im + 1) (skip.set jm true) (tab.set (row * n + im) (jm + iD * n))
    | none => fillTable n gp iD row xs (im + 1) skip tab

/-- The loop over the basis atoms, grouptheory.py:563-602. -/
def fillRows (eps : K) (tinv T : Matrix (Fin 3) (Fin 3) K) (S : GVec) (g : List GVec) (n : ℕ) (op : CellOp K) :
    List ℕ → List ℕ → Py (List ℕ)
  | [], tab => .ok tab
  | iD :: rest, tab => do
    let gp ← rotGp eps tinv op.rot T (op.v.getD iD 0) S g
    fillRows eps tinv T S g n op rest (fillTable n gp iD (op.dperm.getD iD 0) g 0 (List.replicate n false) tab)

/-- The six arrow directions, grouptheory.py:523. -/
def arrowDirs : List GVec := [![1, 0, 0], ![-1, 0, 0], ![0, 1, 0], ![0, -1, 0], ![0, 0, 1], ![0, 0, -1]]

/-- The arrow permutation `dap` of a rotation, grouptheory.py:566, 569, 604-617; `exit()` if more than one entry
is 0. -/
def arrowPerm (R : Matrix (Fin 3) (Fin 3) K) : Py (List ℕ) :=
  let ag := arrowDirs.map (fun a => (fun i => npRound (R.transpose.mulVec (fun k => (a k : K)) i) : GVec))
  let dap := fillTable 6 ag 0 0 arrowDirs 0 (List.replicate 6 false) (List.replicate 6 0)
  if dap.count 0 > 1 then .error .sysExit else .ok dap

/-- The permutation of the sites and of the arrows effected by one operation, grouptheory.py:555-623. -/
def opPerm (eps : K) (tinv T : Matrix (Fin 3) (Fin 3) K) (S : GVec) (g : List GVec) (n nd : ℕ) (op : CellOp K) :
    Py (List ℕ × List ℕ) := do
  let tab ← fillRows eps tinv T S g n op (List.range nd) (List.replicate (nd * n) 0)
  let dap ← arrowPerm op.rot
  .ok (tab, dap)

/-- `itertools.groupby` used to drop repeated neighbours, grouptheory.py:640, 649. -/
def dropRepeats {α : Type} [DecidableEq α] : List α → List α
  | [] => []
  | [a] => [a]
  | a :: b :: l => if a = b then dropRepeats (b :: l) else a :: dropRepeats (b :: l)

/-- `list.sort()` on lists of numbers (lexicographic). -/
def lexSort (l : List (List ℕ)) : List (List ℕ) := l.mergeSort (fun a b => decide (a ≤ b))

/-- Removal of duplicates and sorting, grouptheory.py:638-656. Without arrows the arrow permutations are replaced by
the identity (line 705). -/
def cleanPerms (arrows : Bool) (perms : List (List ℕ × List ℕ)) : List (List ℕ × List ℕ) :=
  if arrows then
    if perms.length > 1 then
      let nr := (perms.map (fun p => p.1.length)).headD 0
      let joined := lexSort (dropRepeats (perms.map (fun p => p.1 ++ p.2)))
      joined.map (fun p => (p.take nr, p.drop (p.length - 6)))
    else perms
  else
    let sites := perms.map (fun p => p.1)
    let sites := if perms.length > 1 then dropRepeats (lexSort sites) else sites
    sites.map (fun p => (p, List.range 6))

/-- The permutations effected by the translations, grouptheory.py:665-679. -/
def transPerms (S : GVec) (g : List GVec) (n nd : ℕ) : List (List ℕ) :=
  g.map (fun t =>
    let perm := findPerm g (g.map (fun x => (fun i => (x i + t i) % S i : GVec)))
    (List.range nd).flatMap (fun il => perm.map (fun i => il * n + i)))

/-- The compositions with the translations, grouptheory.py:681-700: entry `iOp*n + it` is
`[tperms[it][i] for i in rperms[iOp]]`. -/
def composePerms (tperms : List (List ℕ)) (rperms : List (List ℕ × List ℕ)) : Py (List (List ℕ × List ℕ)) :=
  (rperms.flatMap (fun r => tperms.map (fun t => (r, t)))).mapM (fun (r, t) => do
    let s ← pyGather r.1 t
    .ok (s, r.2))

/-- `_get_rotation_perms_lists` for one HNF, grouptheory.py:491-708: `At` has the parent lattice vectors as columns
(`At = transpose(A)`), `n` is the determinant of the HNF, `nd` the number of basis atoms, `S` the diagonal of the
SNF. -/
noncomputable def rotationPerms (At : Matrix (Fin 3) (Fin 3) K) (n nd : ℕ) (L : Matrix (Fin 3) (Fin 3) ℤ) (S : GVec)
    (ops : List (CellOp K)) (eps : K) (arrows : Bool) : Py (List (List ℕ × List ℕ)) := do
  if At.det = 0 then .error .linAlgError else
  let tinv := castM L * At⁻¹
  if tinv.det = 0 then .error .linAlgError else
  let T := tinv⁻¹
  let g := memberList S
  if g.length ≠ n then .error .valueError else
  let perms ← ops.mapM (opPerm eps tinv T S g n nd)
  composePerms (transPerms S g n nd) (cleanPerms arrows perms)

end Phenum
