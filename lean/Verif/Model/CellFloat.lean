import Verif.Model.Cell
import Verif.Model.PolyaFloat
/-
Model of the loops of `bring_into_cell` (phenum/symmetry.py) and `cartesian2direct` (phenum/vector_utils.py) in floating
point: every operation is rounded by `fl`. The lattice coordinates the loops start from (products of matrices) are
arguments.
-/
namespace Phenum

/-- The body of the loop of `bring_into_cell` applied to one component, symmetry.py:184-188, in floating point. -/
def wrapStepF (fl : ℚ → ℚ) (eps v : ℚ) : ℚ :=
  if v ≥ fl (1 - eps) then fl (v - 1) else if v < fl (0 - eps) then fl (v + 1) else v

/-- The loop of `bring_into_cell` in lattice coordinates, symmetry.py:177-191, in floating point. -/
def wrapLoopF (fl : ℚ → ℚ) (eps : ℚ) (v : Fin 3 → ℚ) : Option (Py (ℕ × (Fin 3 → ℚ))) :=
  let maxc : ℤ := max ⌈|max3 v|⌉ ⌈|min3 v|⌉ * 2
  pyWhile (fun s => decide (s.2 0 > fl (1 - eps) ∨ s.2 1 > fl (1 - eps) ∨ s.2 2 > fl (1 - eps)
      ∨ s.2 0 < fl (0 - eps) ∨ s.2 1 < fl (0 - eps) ∨ s.2 2 < fl (0 - eps)))
    (fun s =>
      let c := s.1 + 1
      if (c : ℤ) > maxc then .error .sysExit else .ok (c, fun i => wrapStepF fl eps (s.2 i)))
    (0, v)

/-- The body of the loop of `cartesian2direct` applied to one component, vector_utils.py:455-456, in floating point. -/
def directStepF (fl : ℚ → ℚ) (eps v : ℚ) : ℚ :=
  let v := if v < fl (1 - eps) then v else fl (v - 1)
  if v ≥ fl (0 - eps) then v else fl (v + 1)

/-- The loop of `cartesian2direct` for one atom, vector_utils.py:454-456, in floating point. -/
def directLoopF (fl : ℚ → ℚ) (eps : ℚ) : (Fin 3 → ℚ) → Option (Py (Fin 3 → ℚ)) :=
  pyWhile (fun v => decide (v 0 ≥ fl (1 - eps) ∨ v 1 ≥ fl (1 - eps) ∨ v 2 ≥ fl (1 - eps)
      ∨ v 0 < fl (0 - eps) ∨ v 1 < fl (0 - eps) ∨ v 2 < fl (0 - eps)))
    (fun v => .ok (fun i => directStepF fl eps (v i)))

end Phenum
