import Verif.Proof.Small
import Verif.Props.Concs
import Verif.Props.Labelling
/-
A lower bound for the number of structures.
-/
namespace Phenum
open Spec

theorem product_count : ∀ C : List ℕ, (pyProduct (C.map List.range)).length = C.prod
  | [] => by simp [pyProduct]
  | c :: C => by
    rw [List.map_cons, pyProduct, List.length_flatMap]
    simp only [List.length_map, product_count C, List.map_const', List.sum_replicate, smul_eq_mul, List.length_range, List.prod_cons]

/-- all labellings, once each -/
theorem labellings_list (c : List ℕ) : ∃ A : List (List ℕ), A.Nodup ∧ (∀ x ∈ A, IsLabelling c x) ∧ A.length = c.sum.factorial / (c.map Nat.factorial).prod := by
  classical
  set C := coefficients c (c.sum : ℕ) with hC
  have hrad : ∀ d ∈ pyProduct (C.map List.range), IsRadixVec C d := by
    intro d hd
    rw [mem_pyProduct, List.forall₂_map_right_iff] at hd
    exact hd.imp (fun a b h => List.mem_range.mp h)
  have key : ∀ d, ∃ x, d ∈ pyProduct (C.map List.range) → IsLabelling c x ∧ digits c.length x = d := by
    intro d
    by_cases hd : d ∈ pyProduct (C.map List.range)
    · obtain ⟨x, hx⟩ := exists_labelling (hrad d hd)
      exact ⟨x, fun _ => hx⟩
    · exact ⟨[], fun h => absurd h hd⟩
  choose X hX using key
  refine ⟨(pyProduct (C.map List.range)).map X, ?_, ?_, ?_⟩
  · apply List.Nodup.map_on
    · intro d hd d' hd' e
      rw [← (hX d hd).2, ← (hX d' hd').2, e]
    · apply nodup_pyProduct
      intro r hr
      obtain ⟨m, -, rfl⟩ := List.mem_map.mp hr
      exact List.nodup_range
  · intro x hx
    obtain ⟨d, hd, rfl⟩ := List.mem_map.mp hx
    exact (hX d hd).1
  · rw [List.length_map, product_count, hC, C05_product]

theorem perm_labels {α : Type} [DecidableEq α] (f : α → ℕ) : ∀ (x : List ℕ) (z : List α), (z.map f).Perm x → ∃ z' : List α, z'.Perm z ∧ z'.map f = x
  | [], z, h => ⟨z, .refl _, List.perm_nil.mp h⟩
  | a :: x, z, h => by
    have ha : a ∈ z.map f := h.symm.subset (by simp)
    obtain ⟨p, hp, rfl⟩ := List.mem_map.mp ha
    have h1 := List.perm_cons_erase hp
    have h2 : ((z.erase p).map f).Perm x := by
      have := (h1.map f).symm.trans h
      rw [List.map_cons] at this
      exact this.cons_inv
    obtain ⟨z', h3, h4⟩ := perm_labels f x _ h2
    exact ⟨p :: z', (h3.cons p).trans h1.symm, by rw [List.map_cons, h4]⟩

theorem labelling_perm {c x y : List ℕ} (hx : IsLabelling c x) (hy : IsLabelling c y) : x.Perm y := by
  rw [List.perm_iff_count]
  intro a
  by_cases ha : 1 ≤ a ∧ a ≤ c.length
  · have h1 := hx.2 (a - 1) (by omega)
    have h2 := hy.2 (a - 1) (by omega)
    rw [show a - 1 + 1 = a from by omega] at h1 h2
    rw [h1, h2]
  · rw [List.count_eq_zero_of_not_mem (fun h => ha (hx.1 a h)), List.count_eq_zero_of_not_mem (fun h => ha (hy.1 a h))]

theorem composed_labelling {c : List ℕ} {aconcs : List ℚ} {z : Config} (h : Composed c aconcs 6 z) : IsLabelling c (z.map (·.2)) := by
  refine ⟨fun v hv => ?_, fun i hi => ?_⟩
  · obtain ⟨s, hs, rfl⟩ := List.mem_map.mp hv
    exact h.species s hs
  · have := (h.counts i hi).1
    rw [getD_lt hi] at this
    rw [← this, List.count, List.countP_map]
    apply List.countP_congr
    intro s _
    simp

/-- The labellings are at most as many as the operations times the classes. -/
theorem multinomial_le {c : List ℕ} {aconcs : List ℚ} (hlen : c.length ≤ aconcs.length) {G : List Op} {L : List Config}
    (h : IsTransversal (Composed c aconcs 6) (OpEquiv G) L) : c.sum.factorial / (c.map Nat.factorial).prod ≤ G.length * L.length := by
  classical
  obtain ⟨A, h1, h2, h3⟩ := labellings_list c
  obtain ⟨z0, hz0⟩ := composed_exists c aconcs hlen
  have key : ∀ x, ∃ p : Op × Config, x ∈ A → p.1 ∈ G ∧ p.2 ∈ L ∧ (act p.1 p.2).map (·.2) = x := by
    intro x
    by_cases hx : x ∈ A
    · obtain ⟨z, hz, e⟩ := perm_labels (·.2) x z0 (labelling_perm (composed_labelling hz0) (h2 x hx))
      have hc := (composed_contents c aconcs hlen).perm z0 z hz0 hz
      obtain ⟨w, ⟨hw, g, hg, he⟩, -⟩ := h.unique z hc
      exact ⟨(g, w), fun _ => ⟨hg, hw, by rw [he, e]⟩⟩
    · exact ⟨(([], []), []), fun h => absurd h hx⟩
  choose f hf using key
  rw [← h3, ← List.length_product, ← List.length_map (f := f) (as := A)]
  apply List.Subperm.length_le
  apply List.Nodup.subperm
  · apply List.Nodup.map_on _ h1
    intro x hx y hy e
    rw [← (hf x hx).2.2, ← (hf y hy).2.2, e]
  · intro p hp
    obtain ⟨x, hx, rfl⟩ := List.mem_map.mp hp
    exact List.pair_mem_product.mpr ⟨(hf x hx).1, (hf x hx).2.1⟩

end Phenum
