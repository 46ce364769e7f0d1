import Verif.Model.PointGroup
import Verif.Model.Perms
/-
Model of the lattice reduction in phenum/vector_utils.py: `_gaussian_reduce_two_vectors`, `_reduce_C_in_ABC`,
`_minkowski_conditions_check`, `_minkowski_reduce_basis`.

Simplification: floating point numbers are real numbers with exact arithmetic; the tolerance `eps` is a parameter.
-/
namespace Phenum

/-- The loop of `_gaussian_reduce_two_vectors` with the final swap, vector_utils.py:409-426; the first argument is
the number of iterations left (`11 - it`). The division by `dot(U,U) = 0` gives `nan`, on which `round` raises
ValueError. -/
noncomputable def gaussIter (eps : ℝ) : ℕ → V3 → V3 → Py (V3 × V3)
  | 0, _, _ => .error .sysExit
  | k + 1, U, V =>
    if vdot U U = 0 then .error .valueError else
    let R : V3 := fun i => V i - (npRound (vdot U V / vdot U U + 1 / 10 ^ 10) : ℝ) * U i
    if vnorm R ≥ vnorm U - eps then .ok (U, R) else gaussIter eps k R U

/-- `_gaussian_reduce_two_vectors`, vector_utils.py:377-428. -/
noncomputable def gaussReduce (U V : V3) (eps : ℝ) : Py (V3 × V3) :=
  if vnorm U > vnorm V - eps then gaussIter eps 10 V U else gaussIter eps 10 U V

/-- Three vectors as the rows of a matrix. -/
def rows3 (A B C : V3) : Matrix (Fin 3) (Fin 3) ℝ := Matrix.of ![A, B, C]

/-- `dist.index(min(dist))`: the first at minimal distance, vector_utils.py:338-344. -/
noncomputable def argMin {α : Type} (d : α → ℝ) : α → List α → α
  | a, [] => a
  | a, b :: l => if d b < d a then argMin d b l else argMin d a l

/-- `_reduce_C_in_ABC`, vector_utils.py:287-375. The message of line 324 (which does not stop the run) is not
modelled. -/
noncomputable def reduceC (A B C : V3) (eps : ℝ) : Py (V3 × V3 × V3) := do
  let old := rows3 A B C
  let (A, B) ← gaussReduce A B eps
  let cr := vcross A B
  let cpd : V3 := fun i => cr i / vnorm cr
  let T : V3 := fun i => C i - cpd i * vdot C cpd
  let abc := rows3 A B C
  if abc.det = 0 then .error .linAlgError else
  let LC : Fin 3 → ℤ := fun i => ⌊Matrix.vecMul T abc⁻¹ i + eps⌋
  let dist : (Fin 3 → ℤ) → ℝ := fun k =>
    vnorm (fun i => T i - Matrix.vecMul (fun j => ((k j + LC j : ℤ) : ℝ)) abc i)
  let k := argMin dist ![0, 0, 0] [![1, 0, 0], ![0, 1, 0], ![1, 1, 0]]
  let C' : V3 := fun i => C i - Matrix.vecMul (fun j => ((k j + LC j : ℤ) : ℝ)) abc i
  let abc' := rows3 A B C'
  if abc'.det = 0 then .error .linAlgError else
  let temp := abc'⁻¹.transpose * old.transpose
  if ∃ i j, |temp i j - (npRound (temp i j) : ℝ)| > eps then .error .sysExit else
  .ok (A, B, C')

/-- `norms.index(max(norms))` for three numbers. -/
noncomputable def argMax3 (n : Fin 3 → ℝ) : Fin 3 :=
  if n 1 ≤ n 0 ∧ n 2 ≤ n 0 then 0 else if n 2 ≤ n 1 then 1 else 2

/-- The sorting of the three vectors, vector_utils.py:188-196: the longest goes to row 2, its norm is replaced by 0,
and so on. -/
noncomputable def sortRows (M : Matrix (Fin 3) (Fin 3) ℝ) : Matrix (Fin 3) (Fin 3) ℝ :=
  let n0 : Fin 3 → ℝ := fun i => vnorm (M i)
  let i2 := argMax3 n0
  let n1 := Function.update n0 i2 0
  let i1 := argMax3 n1
  let n2 := Function.update n1 i1 0
  let i0 := argMax3 n2
  rows3 (M i0) (M i1) (M i2)

/-- The loop over `it`, vector_utils.py:186-199. -/
noncomputable def minkLoop (eps : ℝ) : ℕ → Matrix (Fin 3) (Fin 3) ℝ → Py (Matrix (Fin 3) (Fin 3) ℝ)
  | 0, M => .ok M
  | k + 1, M => do
    let M := sortRows M
    let (A, B, C) ← reduceC (M 0) (M 1) (M 2) eps
    if vnorm C ≥ vnorm B - eps then .ok (rows3 A B C) else minkLoop eps k (rows3 A B C)

/-- `_minkowski_conditions_check`, vector_utils.py:218-285. -/
def minkCheck (M : Matrix (Fin 3) (Fin 3) ℝ) (eps : ℝ) : Prop :=
  let b1 := M 0
  let b2 := M 1
  let b3 := M 2
  ¬ (vnorm b1 > vnorm b2 + eps) ∧ ¬ (vnorm b2 > vnorm b3 + eps) ∧
  ¬ (vnorm b2 > vnorm (fun i => b1 i + b2 i) + eps) ∧ ¬ (vnorm b2 > vnorm (fun i => b1 i - b2 i) + eps) ∧
  ¬ (vnorm b3 > vnorm (fun i => b1 i + b3 i) + eps) ∧ ¬ (vnorm b3 > vnorm (fun i => b3 i - b1 i) + eps) ∧
  ¬ (vnorm b3 > vnorm (fun i => b2 i + b3 i) + eps) ∧ ¬ (vnorm b3 > vnorm (fun i => b3 i - b2 i) + eps) ∧
  ¬ (vnorm b3 > vnorm (fun i => b1 i + b2 i + b3 i) + eps) ∧ ¬ (vnorm b3 > vnorm (fun i => b1 i - b2 i + b3 i) + eps) ∧
  ¬ (vnorm b3 > vnorm (fun i => b1 i + b2 i - b3 i) + eps) ∧ ¬ (vnorm b3 > vnorm (fun i => b1 i - b2 i - b3 i) + eps)

open Classical in
/-- `_minkowski_reduce_basis`, vector_utils.py:161-216. The rows are the basis vectors. -/
noncomputable def minkReduce (M : Matrix (Fin 3) (Fin 3) ℝ) (eps : ℝ) : Py (Matrix (Fin 3) (Fin 3) ℝ) :=
  if |M.det| ≤ eps then .error .valueError else do
  let out ← minkLoop eps 10 M
  if ¬ minkCheck out eps then .error .sysExit else
  if out.det < 0 then .ok (rows3 (out 0) (out 2) (out 1)) else .ok out

end Phenum
