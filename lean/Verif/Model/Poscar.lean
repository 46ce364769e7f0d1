import Verif.Model.Text
import Verif.Model.RealSpace
import Verif.Model.Elements
import Verif.Model.Perms
/-
Model of `write_POSCAR` and `write_config`, phenum/io_utils.py:330-505.

Simplifications: here the numbers that are written are modelled, not their layout (`{0: .8f}` rounds them), and of the title the
list of the element names (Elements.lean): for the text see PoscarText.lean; the calls of `random.uniform(-rattle,rattle)` are values `rnd ilab iAt` of an
arbitrary function.
-/
namespace Phenum

/-- The table `arrow_directions` of `write_POSCAR`, io_utils.py:354. -/
def poscarDirs : List GVec :=
  [![0, 0, 0], ![0, 0, -1], ![0, -1, 0], ![-1, 0, 0], ![1, 0, 0], ![0, 1, 0], ![0, 0, 1]]

/-- The table `arrow_directions` of `write_config`, io_utils.py:426. -/
def configDirs : List GVec := [![1, 0, 0], ![-1, 0, 0], ![0, 1, 0], ![0, -1, 0], ![0, 0, 1], ![0, 0, -1]]

/-- `arrow_directions[int(arrow)]`, io_utils.py:368 and 466. -/
def dirOf (table : List GVec) (arrow : Char) : Py GVec := (digitOf arrow).bind (pyGet table)

/-- The counts of the species, io_utils.py:357-359: `concs[int(labeling[g_indx[atom]])] += 1`. -/
def countLoop (labeling : Str) (gIndx : List ℤ) : List ℕ → List ℕ → Py (List ℕ)
  | [], concs => .ok concs
  | atom :: rest, concs => do
    let g ← pyGet gIndx atom
    let ch ← pyGet labeling g.toNat
    let i ← digitOf ch
    let c ← pyGet concs i
    countLoop labeling gIndx rest (concs.set i (c + 1))

/-- `displace` after line 394 (line 491 in `write_config`): `directions[iAt]*args["displace"]*lattice_parameter`, rattled. -/
noncomputable def displacement (dir : GVec) (displace lp rattle : ℝ) : V3 :=
  fun i => (dir i : ℝ) * displace * lp + (dir i : ℝ) * displace * lp * rattle

/-- The body of the loop over the species and the atoms, io_utils.py:391-398: the line written, if any. -/
noncomputable def poscarStep (labeling : Str) (gIndx : List ℤ) (aBas : List V3) (dirs : List GVec) (displace lp : ℝ) (rnd : ℕ → ℕ → ℝ)
    (p : ℕ × ℕ) : Py (List V3) := do
  let dir ← pyGet dirs p.2
  let g ← pyGet gIndx p.2
  let ch ← pyGet labeling g.toNat
  if [ch] = natStr p.1 then (pyGet aBas p.2).map (fun pos => [fun i => pos i + displacement dir displace lp (rnd p.1 p.2) i]) else .ok []

/-- `itertools.product(range(k), range(N))`. -/
def pairsOf (k N : ℕ) : List (ℕ × ℕ) := (List.range k).flatMap (fun i => (List.range N).map (fun j => (i, j)))

/-- The options used. `removeZeros` is the truth value of `args["remove_zeros"]`. -/
structure StrArgs where
  species : Option (List String)
  removeZeros : Bool
  displace : ℝ
  mapping : Option (List ℕ) := none

/-- A POSCAR file. -/
structure Poscar where
  names : List String
  scale : ℝ
  cell : Matrix (Fin 3) (Fin 3) ℝ
  counts : List ℕ
  atoms : List V3

/-- `write_POSCAR`, io_utils.py:330-398; `N` is `structure_data["n"]*system_data["nD"]`. -/
noncomputable def writePoscar (plv : Matrix (Fin 3) (Fin 3) ℝ) (nD k N : ℕ) (labeling arrows : Str) (sd : SpaceData) (args : StrArgs)
    (rnd : ℕ → ℕ → ℝ) : Py Poscar := do
  let concs ← countLoop labeling sd.gIndx (List.range N) (List.replicate k 0)
  let r ← latticeParameter args.species concs plv nD args.removeZeros
  let dirs ← arrows.mapM (dirOf poscarDirs)
  let counts := if args.removeZeros ∧ args.species.isSome then concs.filter (fun c => c ≠ 0) else concs
  let lines ← (pairsOf k N).mapM (poscarStep labeling sd.gIndx sd.aBas dirs args.displace r.1 rnd)
  .ok ⟨r.2, r.1, sd.sLV, counts, lines.flatten⟩

/-- A line of the config file: number of the atom, species, position. -/
structure ConfigAtom where
  id : ℕ
  typ : ℕ
  pos : V3

/-- A structure of a config file; `names` are the element names used in its title. -/
structure ConfigFile where
  size : ℕ
  cell : Matrix (Fin 3) (Fin 3) ℝ
  atoms : List ConfigAtom
  names : List String

/-- The counts of the species, io_utils.py:432-438. -/
def configCounts (labeling : Str) (gIndx : List ℤ) (k N : ℕ) : Py (List ℕ) :=
  (List.range k).mapM (fun i => do
    let hits ← (List.range N).mapM (fun atom => do
      let g ← pyGet gIndx atom
      let ch ← pyGet labeling g.toNat
      .ok (decide ([ch] = natStr i)))
    .ok (hits.countP (fun b => b)))

/-- The species used for the lattice parameter, io_utils.py:442-445: with a mapping of another length than the species,
the species that the mapping selects. -/
def configSpecies (args : StrArgs) : Py (Option (List String)) :=
  match args.mapping, args.species with
  | none, sp => .ok sp
  | some _, none => .error .typeError
  | some m, some sp => if sp.length ≠ m.length then (m.mapM (fun i => pyGet sp i)).map some else .ok (some sp)

/-- The body of the loop over the atoms and the species, io_utils.py:484-503. -/
noncomputable def configStep (labeling : Str) (sd : SpaceData) (cell : Matrix (Fin 3) (Fin 3) ℝ) (dirs : List GVec) (args : StrArgs) (lp : ℝ)
    (rnd : ℕ → ℕ → ℝ) (p : ℕ × ℕ) : Py (List ConfigAtom) := do
  let dir ← pyGet dirs p.1
  let g ← pyGet sd.gIndx p.1
  let ch ← pyGet labeling g.toNat
  if [ch] = natStr p.2 then do
    let pos ← pyGet sd.aBas p.1
    let lab ← match args.mapping with
      | none => .ok p.2
      | some m => (match m[p.2]? with
        | some l => .ok l
        | none => .error .keyError)
    .ok [⟨p.1 + 1, lab, fun i => cell.transpose.mulVec pos i + displacement dir args.displace lp (rnd p.2 p.1) i⟩]
  else .ok []

/-- `write_config`, io_utils.py:400-505. -/
noncomputable def writeConfig (plv : Matrix (Fin 3) (Fin 3) ℝ) (nD k N : ℕ) (labeling arrows : Str) (sd : SpaceData) (args : StrArgs)
    (rnd : ℕ → ℕ → ℝ) : Py ConfigFile := do
  let concs ← configCounts labeling sd.gIndx k N
  let sp ← configSpecies args
  let r ← latticeParameter sp concs plv nD true
  let dirs ← arrows.mapM (dirOf configDirs)
  let cell := r.1 • sd.sLV
  let lines ← ((List.range N).flatMap (fun i => (List.range k).map (fun j => (i, j)))).mapM (configStep labeling sd cell dirs args r.1 rnd)
  .ok ⟨N, cell, lines.flatten, r.2⟩

end Phenum
