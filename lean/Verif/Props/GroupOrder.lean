import Verif.Props.PointGroup
import Verif.Proof.GroupOrder
/-
C45: the number of symmetries of a lattice.
-/
namespace Phenum
open Spec

/-- C45. The number of symmetries returned for a lattice divides 48, and it is even. -/
theorem C45_order (A : M3 ℝ) (hA : A.det ≠ 0) : ∃ e > 0, ∀ eps, 0 ≤ eps → eps < e →
    ∃ L, latticePointGroup A eps = .ok L ∧ L.Nodup ∧ L.length ∣ 48 ∧ 2 ∣ L.length := by
  classical
  obtain ⟨e, he, h⟩ := pointGroup_char A hA
  refine ⟨e, he, fun eps h0 h1 => ?_⟩
  obtain ⟨L, e1, hn, hm⟩ := h eps h0 h1
  have hm' : ∀ R, R ∈ L ↔ IsLatSym A R := hm
  have hc : Nat.card {R | IsLatSym A R} = L.length := by
    have hs : {R | IsLatSym A R} = (L.toFinset : Set (M3 ℝ)) := by
      ext R
      simp only [Set.mem_setOf_eq, List.coe_toFinset]
      exact (hm' R).symm
    rw [hs, Nat.card_coe_set_eq, Set.ncard_coe_finset, List.toFinset_card_of_nodup hn]
  refine ⟨L, e1, hn, hc ▸ latSym_dvd A hA, ?_⟩
  rw [← hc, ← Nat.card_congr (latSymEquiv A hA), Nat.card_prod]
  rw [show Nat.card Bool = 2 by simp]
  exact Dvd.intro_left _ rfl

/-- The simple cubic lattice meets the hypothesis. -/
example : (1 : M3 ℝ).det ≠ 0 := by simp

end Phenum
