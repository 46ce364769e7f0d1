import Verif.Proof.PolyaCount
import Verif.Proof.Canon
/-
Orbit counting for plain labellings and for configurations with arrows.
-/
namespace Phenum
open Spec

theorem toFlags_none (k : Nat) : Arrowings.toFlags k .none = List.replicate k false := rfl

/-- labellings -/
theorem rad_plain {concs : List Nat} {group : List Op}
    (hG : IsPermGroup concs.sum (group.map (·.1))) (hb : Balanced (group.map (·.1))) (L : List (List Nat)) (hL : L.Nodup)
    (hLX : ∀ x ∈ L, IsLabelling concs x)
    (htr : ∀ x, IsLabelling concs x → ∃! w, w ∈ L ∧ Equiv (group.map (·.1)) w x) :
    RadSum concs group (List.replicate concs.length false) L.length := by
  obtain ⟨m, hm⟩ := hb
  have hmem : ∀ x : List Nat, x ∈ confs ((List.range concs.length).map (· + 1)) id concs ↔ IsLabelling concs x := by
    intro x
    unfold confs
    rw [Finset.mem_filter, List.mem_toFinset, mem_words]
    unfold HasContent
    constructor
    · rintro ⟨⟨h1, h2⟩, h3⟩
      constructor
      · intro v hv
        obtain ⟨i, hi, rfl⟩ := List.mem_map.mp (h2 v hv)
        rw [List.mem_range] at hi
        omega
      · intro i hi
        rw [← h3 i hi, List.count_eq_countP]
        apply List.countP_congr
        intro a _
        simp
    · intro h
      refine ⟨⟨lab_len h, ?_⟩, ?_⟩
      · intro v hv
        have := h.1 v hv
        exact List.mem_map.mpr ⟨v - 1, List.mem_range.mpr (by omega), by omega⟩
      · intro i hi
        rw [← h.2 i hi, List.count_eq_countP]
        apply List.countP_congr
        intro a _
        simp
  have hTid : ∀ r, (fun a : Nat => a)^[r] = id := by
    intro r
    exact Function.iterate_id r
  refine rad_generic (A := (List.range concs.length).map (· + 1)) (col := id)
    (flags := List.replicate concs.length false) ?_ ?_ ?_ (fun _ a => a) ?_ ?_ ?_ L ?_ ?_ ?_
  · exact List.Nodup.map (fun a b h => by simpa using h) List.nodup_range
  · intro a ha
    obtain ⟨i, hi, rfl⟩ := List.mem_map.mp ha
    rw [List.mem_range] at hi
    simp only [id]; omega
  · exact fun g hg => hG.perm g.1 (List.mem_map_of_mem hg)
  · exact fun g _ a ha => ⟨ha, rfl⟩
  · intro g _ r _ j hj
    have : (List.replicate concs.length false).getD j false = false := by
      rw [List.getD_eq_getElem?_getD, List.getElem?_replicate]
      split <;> rfl
    rw [this]
    simp only [hTid, id, and_true, List.countP_map]
    simp only [Bool.false_eq_true, if_false]
    have e : ((fun a : Nat => decide (a = j + 1)) ∘ fun x => x + 1) = fun a => a == j := by
      funext a
      simp only [Function.comp, Nat.add_right_cancel_iff]
      rw [Bool.eq_iff_iff]
      simp
    rw [e, ← List.count_eq_countP]
    exact List.count_eq_one_of_mem List.nodup_range (List.mem_range.mpr hj)
  · intro x hx h hh
    have hxl := lab_len ((hmem x).mp hx)
    have := siteCount hG hm hxl (List.mem_map_of_mem (f := (·.1)) hh)
    rw [List.countP_map, List.countP_map] at this
    simp only [List.map_id']
    exact this
  · exact hL
  · exact fun z hz => (hmem z).mpr (hLX z hz)
  · intro x hx
    obtain ⟨w, ⟨hw, σ, hσ, e⟩, hu⟩ := htr x ((hmem x).mp hx)
    obtain ⟨g, hg, rfl⟩ := List.mem_map.mp hσ
    refine ⟨w, ⟨hw, g, hg, by simpa using e⟩, ?_⟩
    rintro w' ⟨hw', g', hg', e'⟩
    exact hu w' ⟨hw', g'.1, List.mem_map_of_mem hg', by simpa using e'⟩

theorem polya_plain {concs : List Nat} (hn : 1 ≤ concs.sum) {group : List Op}
    (hG : IsPermGroup concs.sum (group.map (·.1))) (hb : Balanced (group.map (·.1)))
    (h2 : ∀ g ∈ group, ∃ d, g.2.Perm (List.range d)) (L : List (List Nat)) (hL : L.Nodup)
    (hLX : ∀ x ∈ L, IsLabelling concs x)
    (htr : ∀ x, IsLabelling concs x → ∃! w, w ∈ L ∧ Equiv (group.map (·.1)) w x) :
    polya concs group .none = some (.ok L.length) :=
  polya_of_rad hn (by rintro rfl; exact absurd hG.one (by simp)) (fun g hg => hG.perm g.1 (List.mem_map_of_mem hg)) h2
    (toFlags_none _) (List.length_replicate ..) (rad_plain hG hb L hL hLX htr)

/-! arrows -/

theorem turn_iter_neg (τ : List Nat) (s : Site) (h : s.1 < 0) (r : Nat) : (turn τ)^[r] s = s := by
  induction r with
  | zero => rfl
  | succ r ih => rw [Function.iterate_succ_apply', ih]; unfold turn; rw [if_pos h]

theorem turn_iter (τ : List Nat) (d v r : Nat) : (turn τ)^[r] ((d : Int), v) = ((((pf τ)^[r] d : Nat) : Int), v) := by
  induction r with
  | zero => rfl
  | succ r ih =>
    rw [Function.iterate_succ_apply', ih, Function.iterate_succ_apply']
    unfold turn
    rw [if_neg (by simp only [not_lt]; omega)]
    rfl

/-- all values of a site for the erased colours `E` -/
def siteVals (E : List Site) (dim : Nat) : List Site :=
  E.flatMap (fun s => if s.1 < 0 then [s] else (List.range dim).map (fun (d : Nat) => ((d : Int), s.2)))

theorem erase1_nat (d v : Nat) : erase1 ((d : Int), v) = (0, v) := by
  unfold erase1; rw [if_neg (by simp only [not_lt]; omega)]

section
variable {E : List Site} (hE : ∀ s ∈ E, erase1 s = s) (dim : Nat)
include hE

theorem fixE_pos {s : Site} (hs : s ∈ E) (h : ¬ s.1 < 0) : s = (0, s.2) := by
  have := hE s hs
  unfold erase1 at this
  rw [if_neg h] at this
  exact this.symm

theorem block_erase {s a : Site} (hs : s ∈ E)
    (ha : a ∈ (if s.1 < 0 then [s] else (List.range dim).map (fun (d : Nat) => ((d : Int), s.2)))) : erase1 a = s := by
  split at ha
  · rw [List.mem_singleton] at ha; rw [ha]; exact hE s hs
  · rename_i h
    obtain ⟨d, -, rfl⟩ := List.mem_map.mp ha
    rw [erase1_nat]
    exact (fixE_pos hE hs h).symm

theorem mem_siteVals (a : Site) : a ∈ siteVals E dim ↔ erase1 a ∈ E ∧ a.1 < dim := by
  unfold siteVals
  rw [List.mem_flatMap]
  constructor
  · rintro ⟨s, hs, ha⟩
    have he := block_erase hE dim hs ha
    refine ⟨by rw [he]; exact hs, ?_⟩
    split at ha
    · rename_i h
      rw [List.mem_singleton] at ha; rw [ha]; omega
    · obtain ⟨d, hd, rfl⟩ := List.mem_map.mp ha
      rw [List.mem_range] at hd
      simp only; omega
  · rintro ⟨h1, h2⟩
    refine ⟨erase1 a, h1, ?_⟩
    have hneg := erase1_neg a
    split
    · rename_i h
      have h' := hneg.mp h
      unfold erase1
      rw [if_pos h']; simp
    · rename_i h
      have h' : ¬ a.1 < 0 := fun hc => h (hneg.mpr hc)
      rw [List.mem_map]
      refine ⟨a.1.toNat, List.mem_range.mpr (by omega), ?_⟩
      rw [erase1_snd]
      apply Prod.ext
      · simp only; omega
      · rfl

theorem siteVals_nodup (hnd : E.Nodup) : (siteVals E dim).Nodup := by
  unfold siteVals
  rw [List.nodup_flatMap]
  constructor
  · intro s _
    split
    · simp
    · apply List.Nodup.map _ List.nodup_range
      intro a b h
      have := (Prod.mk.inj h).1
      omega
  · apply List.Pairwise.imp_of_mem _ hnd
    intro s t hs ht hst a ha ha'
    apply hst
    rw [← block_erase hE dim hs ha, ← block_erase hE dim ht ha']

/-- colour number of a site value -/
def ecol (E : List Site) (a : Site) : Nat := E.idxOf (erase1 a) + 1

omit hE in
theorem ecol_iff (hnd : E.Nodup) {a : Site} (ha : erase1 a ∈ E) {j : Nat} (hj : j < E.length) :
    ecol E a = j + 1 ↔ erase1 a = E[j] := by
  unfold ecol
  rw [Nat.add_right_cancel_iff]
  constructor
  · rintro rfl; simp
  · intro h; rw [h]; exact hnd.idxOf_getElem j hj

theorem rad_arrows {concs : List Nat} (hlen : E.length = concs.length) (hnd : E.Nodup)
    {group : List Op} (hH : IsOpGroup concs.sum dim group) (hb : Balanced group)
    (L : List Config) (hL : L.Nodup) (hLX : ∀ z ∈ L, z ∈ confs (siteVals E dim) (ecol E) concs)
    (htr : ∀ z ∈ confs (siteVals E dim) (ecol E) concs, ∃! w, w ∈ L ∧ OpEquiv group w z) :
    RadSum concs group (E.map (fun s => decide (0 ≤ s.1))) L.length := by
  obtain ⟨m, hm⟩ := hb
  have hconf : ∀ z ∈ confs (siteVals E dim) (ecol E) concs, z.length = concs.sum ∧ ∀ s ∈ z, s.1 < dim := by
    intro z hz
    unfold confs at hz
    rw [Finset.mem_filter, List.mem_toFinset, mem_words] at hz
    exact ⟨hz.1.1, fun s hs => ((mem_siteVals hE dim s).mp (hz.1.2 s hs)).2⟩
  have key := fun hcol hT hw hcount => rad_generic (A := siteVals E dim) (col := ecol E) (concs := concs) (group := group)
    (flags := E.map (fun s => decide (0 ≤ s.1))) (siteVals_nodup hE dim hnd) hcol hH.sites (fun g => turn g.2) hT hw hcount
    L hL hLX htr
  refine key ?_ ?_ ?_ ?_
  · intro a ha
    have h1 := ((mem_siteVals hE dim a).mp ha).1
    have := List.idxOf_lt_length_of_mem h1
    unfold ecol; omega
  · intro g hg a ha
    have h1 := (mem_siteVals hE dim a).mp ha
    refine ⟨(mem_siteVals hE dim _).mpr ⟨by rw [turn_erase]; exact h1.1, ?_⟩, ?_⟩
    · unfold turn
      split
      · exact h1.2
      · rename_i hneg
        have hlt : a.1.toNat < dim := by omega
        have := pf_lt (hH.arrows g hg) hlt
        unfold pf at this
        simp only
        exact_mod_cast this
    · unfold ecol; rw [turn_erase]
  · intro g hg r hr j hj
    rw [← hlen] at hj
    have hflag : (E.map (fun s => decide (0 ≤ s.1))).getD j false = decide (0 ≤ E[j].1) := by
      simp [hj]
    rw [hflag]
    unfold siteVals
    rw [List.countP_flatMap]
    rw [sum_map_single E _ E[j] hnd (List.getElem_mem hj)]
    · simp only [Function.comp]
      by_cases hneg : E[j].1 < 0
      · rw [if_pos hneg]
        have h1 : ecol E E[j] = j + 1 := by
          rw [ecol_iff hnd (by rw [hE _ (List.getElem_mem hj)]; exact List.getElem_mem hj) hj]
          exact hE _ (List.getElem_mem hj)
        rw [List.countP_singleton, if_pos (by
          rw [decide_eq_true_eq]
          exact ⟨h1, turn_iter_neg _ _ hneg r⟩)]
        rw [if_neg (by simpa using hneg)]
      · rw [if_neg hneg, if_pos (by simpa using hneg)]
        unfold fixedDirs
        rw [perm_range_length (hH.arrows g hg), List.countP_map]
        apply List.countP_congr
        intro d _
        have he : erase1 (((d : Int), E[j].2)) = E[j] := by
          rw [erase1_nat]; exact (fixE_pos hE (List.getElem_mem hj) hneg).symm
        have h1 : ecol E ((d : Int), E[j].2) = j + 1 := by
          rw [ecol_iff hnd (by rw [he]; exact List.getElem_mem hj) hj]
          exact he
        simp only [Function.comp, decide_eq_true_eq, h1, true_and, turn_iter]
        constructor
        · intro h
          have := (Prod.mk.inj h).1
          exact_mod_cast this
        · intro h; rw [h]
    · intro s hs hne
      simp only [Function.comp]
      rw [List.countP_eq_zero]
      intro a ha hc
      rw [decide_eq_true_eq] at hc
      have he := block_erase hE dim hs ha
      rw [ecol_iff hnd (by rw [he]; exact hs) hj, he] at hc
      exact hne hc.1
  · intro x hx h hh
    obtain ⟨h1, h2⟩ := hconf x hx
    exact opCount hH hm h1 h2 hh

theorem polya_arrows {concs : List Nat} (hlen : E.length = concs.length) (hnd : E.Nodup) (hn : 1 ≤ concs.sum)
    {group : List Op} (hH : IsOpGroup concs.sum dim group) (hb : Balanced group)
    {arrowings : Arrowings} (hfl : arrowings.toFlags concs.length = E.map (fun s => decide (0 ≤ s.1)))
    (L : List Config) (hL : L.Nodup) (hLX : ∀ z ∈ L, z ∈ confs (siteVals E dim) (ecol E) concs)
    (htr : ∀ z ∈ confs (siteVals E dim) (ecol E) concs, ∃! w, w ∈ L ∧ OpEquiv group w z) :
    polya concs group arrowings = some (.ok L.length) :=
  polya_of_rad hn (by rintro rfl; exact absurd hH.one (by simp)) hH.sites (fun g hg => ⟨dim, hH.arrows g hg⟩)
    hfl (by rw [List.length_map, hlen]) (rad_arrows hE dim hlen hnd hH hb L hL hLX htr)

end
end Phenum
