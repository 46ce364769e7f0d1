import Verif.Spec.Select
import Verif.Proof.Combined
/-
Runs with a subset of ordinals.
-/
namespace Phenum
open Spec

theorem pick_select {α : Type} (l : List Nat) (L : List α) :
    pick (fun c => decide (c ∈ l)) 1 L = selectPositions l L := by
  unfold selectPositions
  suffices h : ∀ c, pick (fun c => decide (c ∈ l)) c L = (L.zipIdx c).filterMap (fun p => if p.2 ∈ l then some p.1 else none) from h 1
  induction L with
  | nil => intro c; rfl
  | cons z L ih =>
    intro c
    rw [pick, ih, List.zipIdx_cons, List.filterMap_cons]
    by_cases h : c ∈ l
    · simp [h]
    · simp [h]

theorem pick_length_le {α : Type} (l : List Nat) (c : Nat) (L : List α) :
    (pick (fun c => decide (c ∈ l)) c L).length ≤ l.length := by
  rw [pick_length]
  have hn : ((List.range' c L.length).filter (fun c => decide (c ∈ l))).Nodup := List.Nodup.filter _ (List.nodup_range' (step := 1))
  have hs : ((List.range' c L.length).filter (fun c => decide (c ∈ l))) ⊆ l := by
    intro v hv
    simpa using (List.mem_filter.mp hv).2
  exact (List.subperm_of_subset hn hs).length_le

section
variable {a : BArgs} {ems : List Nat → List Config}
  (hne : a.concs ≠ []) (hpos : ∀ c ∈ a.concs, 1 ≤ c) (hG : IsPermGroup a.concs.sum a.G)
  (hs : (!a.supers && decide (a.narrows = 0)) = false) (he : EmOk a ems)
include hne hpos hG hs he

/-- a run with a non-empty list of ordinals, given the canonical labellings -/
theorem brancher_subset {l : List Nat} (hl : l ≠ []) (hsub : a.subset = .list l) {Y : List (List Nat)}
    (hY : Canon a Y) : brancher a = some (.ok (selectPositions l (Y.flatMap ems))) := by
  obtain ⟨s, X, h1, h2, h3, h4, h5, h6, h7, h8⟩ := brancher_run hne hpos hG hs he
  have hkeep : keepCandidate a a.subset = fun c => decide (c ∈ l) := by
    funext c
    unfold keepCandidate useSubset
    rw [hsub]
    simp [hl]
  rw [hkeep] at h5
  rw [h1]
  congr 2
  obtain ⟨Z, hZ⟩ := sorted_prefix h4 hY.sorted (fun x hx => (hY.mem x).mpr (h6 x hx))
    (fun x hx y hy hlt => h7 x hx y ((hY.mem y).mp hy) hlt)
  by_cases hb : fn a.C 0 ≤ fn s.branch 0
  · have hc := h8 hb
    have : Z = [] := by
      cases hZ' : Z with
      | nil => rfl
      | cons z Z' =>
        exfalso
        have hzY : z ∈ Y := by rw [hZ, hZ']; simp
        have hzX := (hc.mem z).mpr ((hY.mem z).mp hzY)
        have := hY.nodup
        rw [hZ, hZ', List.nodup_append] at this
        exact this.2.2 z hzX z (by simp) rfl
    rw [hZ, this, List.append_nil, h5, pick_select]
  · have hlen : l.length ≤ s.survivors.length := by
      unfold bCond at h2
      rw [h3, hsub] at h2
      have hlt : decide (s.branch.getD 0 0 < a.C.getD 0 0) = true := by
        simpa [fn] using hb
      rw [hlt] at h2
      simp only [Bool.true_and, Bool.or_eq_false_iff] at h2
      have := h2.1.1
      simpa using this
    rw [hZ, ← pick_select, List.flatMap_append, pick_append, ← h5]
    have hle := pick_length_le l 1 (Y.flatMap ems)
    rw [hZ, List.flatMap_append, pick_append, List.length_append, ← h5] at hle
    have : (pick (fun c => decide (c ∈ l)) (1 + (X.flatMap ems).length) (Z.flatMap ems)).length = 0 := by omega
    rw [List.length_eq_zero_iff.mp this, List.append_nil]

end

end Phenum
