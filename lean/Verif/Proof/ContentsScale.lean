import Verif.Props.ProgramInput
import Mathlib.Algebra.Order.BigOperators.Group.Finset
/-
The composition of a structure does not depend on the supercell in which it is counted.
-/
namespace Phenum
open Spec

theorem card_fiber_le {S L L' : Set V3} (hL : IsSub L) (hL' : IsSub L') (hS : ∀ x ∈ S, ∀ t ∈ L', x + t ∈ S) {N : ℕ} {pos : ℕ → V3} (hp : IsNumbering S L N pos)
    {x y : V3} (hy : y ∈ S) [DecidablePred (fun k => pos k - x ∈ L')] [DecidablePred (fun k => pos k - y ∈ L')] (hsub : L ⊆ L') :
    ((Finset.range N).filter (fun k => pos k - x ∈ L')).card ≤ ((Finset.range N).filter (fun k => pos k - y ∈ L')).card := by
  classical
  have hex : ∀ k, pos k - x ∈ L' → ∃ j, j < N ∧ y + (pos k - x) - pos j ∈ L := fun k hk => by
    obtain ⟨j, hj, -⟩ := hp.unique _ (hS y hy _ hk)
    exact ⟨j, hj⟩
  refine Finset.card_le_card_of_injOn (fun k => if h : pos k - x ∈ L' then (hex k h).choose else 0) ?_ ?_
  · intro k hk
    simp only [Finset.coe_filter, Finset.mem_range, Set.mem_setOf_eq] at hk ⊢
    rw [dif_pos hk.2]
    obtain ⟨h1, h2⟩ := (hex k hk.2).choose_spec
    refine ⟨h1, ?_⟩
    have := hL'.add _ hk.2 _ (hL'.neg _ (hsub h2))
    convert this using 1
    abel
  · intro k hk k' hk' e
    simp only [Finset.coe_filter, Finset.mem_range, Set.mem_setOf_eq] at hk hk'
    simp only [dif_pos hk.2, dif_pos hk'.2] at e
    obtain ⟨-, h2⟩ := (hex k hk.2).choose_spec
    obtain ⟨-, h2'⟩ := (hex k' hk'.2).choose_spec
    rw [← e] at h2'
    have hm : pos k - pos k' ∈ L := by
      have := hL.add _ h2 _ (hL.neg _ h2')
      convert this using 1
      abel
    have hz : pos k - pos k ∈ L := by rw [sub_self]; exact hL.zero
    exact (hp.unique (pos k) (hp.site k hk.1)).unique ⟨hk.1, hz⟩ ⟨hk'.1, hm⟩

/-- counting in a supercell `L` of the period lattice `L'`: every number is the same multiple of that in `L'` -/
theorem count_scale {S L L' : Set V3} (hL : IsSub L) (hL' : IsSub L') (hsub : L ⊆ L') (hS : ∀ x ∈ S, ∀ t ∈ L', x + t ∈ S) {N N' : ℕ} {pos pos' : ℕ → V3}
    (hp : IsNumbering S L N pos) (hp' : IsNumbering S L' N' pos') :
    ∃ q, N = q * N' ∧ ∀ (Q : V3 → Prop) [DecidablePred Q], (∀ x ∈ S, ∀ t ∈ L', Q (x + t) ↔ Q x) →
      ((Finset.range N).filter (fun k => Q (pos k))).card = q * ((Finset.range N').filter (fun k => Q (pos' k))).card := by
  classical
  set q := ((Finset.range N).filter (fun k => pos k - pos' 0 ∈ L')).card with hq
  have hfib : ∀ j, j < N' → ((Finset.range N).filter (fun k => pos k - pos' j ∈ L')).card = q := fun j hj =>
    le_antisymm (card_fiber_le hL hL' hS hp (hp'.site 0 (by omega)) hsub) (card_fiber_le hL hL' hS hp (hp'.site j hj) hsub)
  have key : ∀ (Q : V3 → Prop) [DecidablePred Q], (∀ x ∈ S, ∀ t ∈ L', Q (x + t) ↔ Q x) →
      ((Finset.range N).filter (fun k => Q (pos k))).card = q * ((Finset.range N').filter (fun k => Q (pos' k))).card := by
    intro Q _ hQ
    have hex : ∀ k, k < N → ∃ j, j < N' ∧ pos k - pos' j ∈ L' := fun k hk => by
      obtain ⟨j, hj, -⟩ := hp'.unique _ (hp.site k hk)
      exact ⟨j, hj⟩
    have hQ' : ∀ k j, j < N' → pos k - pos' j ∈ L' → (Q (pos k) ↔ Q (pos' j)) := by
      intro k j hj hm
      have := hQ _ (hp'.site j hj) _ hm
      rwa [add_sub_cancel] at this
    have hcov : (Finset.range N).filter (fun k => Q (pos k)) =
        ((Finset.range N').filter (fun j => Q (pos' j))).biUnion (fun j => (Finset.range N).filter (fun k => pos k - pos' j ∈ L')) := by
      ext k
      simp only [Finset.mem_filter, Finset.mem_biUnion, Finset.mem_range]
      constructor
      · rintro ⟨hk, hQk⟩
        obtain ⟨j, hj, hm⟩ := hex k hk
        exact ⟨j, ⟨hj, (hQ' k j hj hm).mp hQk⟩, hk, hm⟩
      · rintro ⟨j, ⟨hj, hQj⟩, hk, hm⟩
        exact ⟨hk, (hQ' k j hj hm).mpr hQj⟩
    rw [hcov, Finset.card_biUnion]
    · rw [Finset.sum_congr rfl (fun j hj => hfib j (Finset.mem_range.mp (Finset.mem_filter.mp hj).1)), Finset.sum_const, smul_eq_mul, mul_comm]
    · intro j hj j' hj' hne
      rw [Function.onFun, Finset.disjoint_left]
      intro k hk hk'
      simp only [Finset.mem_filter, Finset.mem_range] at hk hk' hj hj'
      have hj := (Finset.mem_filter.mp (by exact_mod_cast hj : j ∈ (Finset.range N').filter (fun j => Q (pos' j)))).1
      have hj' := (Finset.mem_filter.mp (by exact_mod_cast hj' : j' ∈ (Finset.range N').filter (fun j => Q (pos' j)))).1
      rw [Finset.mem_range] at hj hj'
      exact hne ((hp'.unique _ (hp.site k hk.1)).unique ⟨hj, hk.2⟩ ⟨hj', hk'.2⟩)
  refine ⟨q, ?_, key⟩
  have := key (fun _ => True) (fun _ _ _ _ => Iff.rfl)
  simpa using this

/-- counting in a list by positions -/
theorem countP_positions {α : Type} (p : α → Bool) (l : List α) (d : α) :
    l.countP p = ((Finset.range l.length).filter (fun k => p (l.getD k d) = true)).card := by
  have h := List.countP_eq_length_filter (p := p) (l := l)
  have e : l = (List.range l.length).map (fun k => l.getD k d) := by
    apply List.ext_getElem
    · simp
    · intro i h1 h2
      simp [List.getD_eq_getElem?_getD, h1]
  conv_lhs => rw [e]
  rw [List.countP_map, List.countP_eq_length_filter, ← List.toFinset_card_of_nodup (List.nodup_range.filter _), List.toFinset_filter, List.toFinset_range]
  rfl

/-- the number of sites of a species in one cell -/
theorem composed_count_sites {S L : Set V3} (hL : IsSub L) {N : ℕ} {pos : ℕ → V3} (hp : IsNumbering S L N pos) {z : Config} {χ : Decoration} (hd : Draws S L N pos z χ)
    {c : Conc} {aconcs : List ℚ} (hc : Composed c aconcs 6 z) {i : ℕ} (hi : i < c.length) :
    c.getD i 0 = ((Finset.range N).filter (fun k => (χ (pos k)).1 = i + 1)).card := by
  rw [← (hc.counts i hi).1, countP_positions _ z (0, 0), hd.1]
  congr 1
  apply Finset.filter_congr
  intro k hk
  rw [Finset.mem_range] at hk
  obtain ⟨p, h1, h2⟩ := hd.2 _ (hp.site k hk) k hk (by rw [sub_self]; exact hL.zero)
  rw [h2, List.getD_eq_getElem?_getD, h1]
  simp [siteValue]

/-- the ranges of concentrations do not depend on the supercell in which the atoms are counted -/
theorem contents_ranges {S L L' : Set V3} (hL : IsSub L) (hL' : IsSub L') (hsub : L ⊆ L') (hS : ∀ x ∈ S, ∀ t ∈ L', x + t ∈ S) {N N' : ℕ} (hN : 0 < N)
    {χ : Decoration} (hper : PeriodicOn S L' χ) {c c' : Conc} {aconcs aconcs' : List ℚ} (hlen : c.length = c'.length)
    (h : HasContents S L N (Composed c aconcs 6) χ) (h' : HasContents S L' N' (Composed c' aconcs' 6) χ) (hsum : c'.sum = N') {rows : List ConcRange}
    (hr : InConcRanges rows N c) : InConcRanges rows N' c' := by
  obtain ⟨pos, z, hp, hd, hc⟩ := h
  obtain ⟨pos', z', hp', hd', hc'⟩ := h'
  obtain ⟨q, hq, hcount⟩ := count_scale hL hL' hsub hS hp hp'
  have hq0 : 0 < q := Nat.pos_of_ne_zero (by rintro rfl; omega)
  have hcc : c = c'.map (q * ·) := by
    apply List.ext_getElem
    · simpa using hlen
    · intro i h1 h2
      have e1 := composed_count_sites hL hp hd hc h1
      have e2 := composed_count_sites hL' hp' hd' hc' (by omega : i < c'.length)
      rw [hcount (fun x => (χ x).1 = i + 1) (fun x hx t ht => by rw [hper x hx t ht]), ← e2, getD_lt h1, getD_lt (by omega)] at e1
      simpa using e1
  refine ⟨hsum, ?_⟩
  have h2 := hr.2
  unfold InRanges at h2 ⊢
  rw [hcc, List.map_map, List.forall₂_map_left_iff] at h2
  rw [List.forall₂_map_left_iff]
  refine h2.imp ?_
  intro x r hx
  have e : (((q * x : ℕ) : ℤ) : ℚ) / N = ((x : ℤ) : ℚ) / N' := by
    rw [hq]
    push_cast
    exact mul_div_mul_left _ _ (by positivity)
  simp only [Function.comp] at hx
  rw [e] at hx
  exact hx

/-- A structure has only one composition. The positions may be numbered in two ways. -/
theorem contents_unique {S L : Set V3} (hL : IsSub L) (hS : ∀ x ∈ S, ∀ t ∈ L, x + t ∈ S) {N : ℕ} (hN : 0 < N) {χ : Decoration} (hper : PeriodicOn S L χ)
    {c c' : Conc} {aconcs aconcs' : List ℚ} (hlen : c.length = c'.length) (h : HasContents S L N (Composed c aconcs 6) χ)
    (h' : HasContents S L N (Composed c' aconcs' 6) χ) : c = c' := by
  obtain ⟨pos, z, hp, hd, hc⟩ := h
  obtain ⟨pos', z', hp', hd', hc'⟩ := h'
  obtain ⟨q, hq, hcount⟩ := count_scale hL hL (subset_refl _) hS hp hp'
  have hq1 : q = 1 := by
    rcases Nat.lt_trichotomy q 1 with h | h | h
    · have : q = 0 := by omega
      subst this; omega
    · exact h
    · nlinarith
  subst hq1
  apply List.ext_getElem hlen
  intro i h1 h2
  have e1 := composed_count_sites hL hp hd hc h1
  have e2 := composed_count_sites hL hp' hd' hc' h2
  rw [hcount (fun x => (χ x).1 = i + 1) (fun x hx t ht => by rw [hper x hx t ht]), one_mul, ← e2, getD_lt h1, getD_lt h2] at e1
  exact e1

/-- the contents depend only on the decoration of the sites -/
theorem contents_congr {S L : Set V3} {N : ℕ} {Q : List (ℤ × ℕ) → Prop} {χ χ' : Decoration} (h : HasContents S L N Q χ) (e : ∀ x ∈ S, χ x = χ' x) :
    HasContents S L N Q χ' := by
  obtain ⟨pos, z, hp, hd, hc⟩ := h
  exact ⟨pos, z, hp, ⟨hd.1, fun x hx k hk hm => by rw [← e x hx]; exact hd.2 x hx k hk hm⟩, hc⟩

end Phenum
