import Verif.Proof.Orbits
import Verif.Props.Search
/-
C13 - C18: counting with the Polya-Burnside formula.
-/
namespace Phenum
open Spec

/-! labellings without arrows -/

theorem mem_confs_plain (concs x : List Nat) :
    x ∈ confs ((List.range concs.length).map (· + 1)) id concs ↔ IsLabelling concs x := by
  unfold confs
  rw [Finset.mem_filter, List.mem_toFinset, mem_words]
  unfold HasContent
  constructor
  · rintro ⟨⟨h1, h2⟩, h3⟩
    constructor
    · intro v hv
      obtain ⟨i, hi, rfl⟩ := List.mem_map.mp (h2 v hv)
      rw [List.mem_range] at hi
      omega
    · intro i hi
      rw [← h3 i hi, List.count_eq_countP]
      apply List.countP_congr
      intro a _
      simp
  · intro h
    refine ⟨⟨lab_len h, ?_⟩, ?_⟩
    · intro v hv
      have := h.1 v hv
      exact List.mem_map.mpr ⟨v - 1, List.mem_range.mpr (by omega), by omega⟩
    · intro i hi
      rw [← h.2 i hi, List.count_eq_countP]
      apply List.countP_congr
      intro a _
      simp

/-- C13. For every permutation group of the sites, `polya` (no arrows) returns the number of symmetry orbits of
the labellings with the given concentrations: there is a list with exactly one labelling of each orbit, and its
length (the length of any such list) is the returned number. Concentrations may be zero. -/
theorem C13_polya_counts_orbits (concs : List Nat) (group : List (List Nat × List Nat)) (hn : 1 ≤ concs.sum)
    (hG : IsPermGroup concs.sum (group.map (·.1))) (hb : Balanced (group.map (·.1)))
    (h2 : ∀ g ∈ group, ∃ d, g.2.Perm (List.range d)) :
    (∃ L, IsTransversal (IsLabelling concs) (Equiv (group.map (·.1))) L) ∧
    ∀ L, IsTransversal (IsLabelling concs) (Equiv (group.map (·.1))) L →
      polya concs group .none = some (.ok L.length) := by
  refine ⟨exists_transversal _ _ (mem_confs_plain concs) _ ?_ ?_ ?_, ?_⟩
  · exact fun x hx => hG.equiv_refl x (lab_len hx)
  · exact fun x y hx _ h => hG.equiv_symm (lab_len hx) h
  · exact fun x y z hx _ _ h h' => hG.equiv_trans (lab_len hx) h h'
  · exact fun L hL => polya_plain hn hG hb h2 L hL.nodup hL.mem hL.unique

/-! arrows -/

theorem decorated_orbits (concs : List Nat) (dim : Nat) (group : List Op) (hn : 1 ≤ concs.sum)
    (hH : IsOpGroup concs.sum dim group) (hb : Balanced group) (carries : Nat → Bool) (arrowings : Arrowings)
    (hfl : arrowings.toFlags concs.length = (pattern concs.length carries).map (fun s => decide (0 ≤ s.1))) :
    (∃ L, IsTransversal (IsDecorated concs (fun v => carries v = true) dim) (OpEquiv group) L) ∧
    ∀ L, IsTransversal (IsDecorated concs (fun v => carries v = true) dim) (OpEquiv group) L →
      polya concs group arrowings = some (.ok L.length) ∧
      RadSum concs group ((pattern concs.length carries).map (fun s => decide (0 ≤ s.1))) L.length := by
  have hl : ∀ z, IsDecorated concs (fun v => carries v = true) dim z → z.length = concs.sum := by
    intro z hz; rw [← lab_len hz.1, List.length_map]
  have hd : ∀ z, IsDecorated concs (fun v => carries v = true) dim z → ∀ s ∈ z, s.1 < dim := by
    intro z hz s hs
    by_cases hc : carries s.2 = true
    · exact ((hz.2 s hs).1 hc).2
    · rw [(hz.2 s hs).2 hc]; omega
  refine ⟨exists_transversal _ _ mem_confs_pattern _ ?_ ?_ ?_, ?_⟩
  · exact fun x hx => hH.opEquiv_refl (hl x hx) (hd x hx)
  · exact fun x y hx _ h => hH.opEquiv_symm (hl x hx) (hd x hx) h
  · exact fun x y z hx _ _ h h' => hH.opEquiv_trans (hl x hx) (hd x hx) h h'
  · intro L hL
    exact ⟨polya_arrows (pattern_fix _ _) dim (pattern_length _ _) (pattern_nodup _ _) hn hH hb hfl L hL.nodup
      (fun z hz => (mem_confs_pattern z).mpr (hL.mem z hz))
      (fun z hz => hL.unique z ((mem_confs_pattern z).mp hz)),
      rad_arrows (pattern_fix _ _) dim (pattern_length _ _) (pattern_nodup _ _) hH hb L hL.nodup
      (fun z hz => (mem_confs_pattern z).mpr (hL.mem z hz))
      (fun z hz => hL.unique z ((mem_confs_pattern z).mp hz))⟩

/-- C14 (number of decorated colours given). For every group of paired operations, `polya(concs, group, m)`
returns the number of orbits of the configurations in which the sites of the last `m` colours carry an arrow
with one of `dim` directions, and the other sites none. -/
theorem C14_polya_arrows_number (concs : List Nat) (dim m : Nat) (group : List (List Nat × List Nat))
    (hn : 1 ≤ concs.sum) (hm : m ≤ concs.length) (hH : IsOpGroup concs.sum dim group) (hb : Balanced group) :
    (∃ L, IsTransversal (IsDecorated concs (fun v => concs.length - m < v) dim) (OpEquiv group) L) ∧
    ∀ L, IsTransversal (IsDecorated concs (fun v => concs.length - m < v) dim) (OpEquiv group) L →
      polya concs group (.num m) = some (.ok L.length) := by
  have := decorated_orbits concs dim group hn hH hb (fun v => decide (concs.length - m < v)) (.num m) (by
    apply List.ext_getElem
    · simp [Arrowings.toFlags, pattern]; omega
    · intro i h1 h2
      simp only [List.length_map, pattern_length] at h2
      simp only [Arrowings.toFlags, pattern, List.getElem_map, List.getElem_range, List.getElem_append,
        List.length_replicate, List.getElem_replicate, decide_eq_true_eq]
      split
      · rw [if_neg (by omega)]; rfl
      · rw [if_pos (by omega)]; rfl)
  simp only [decide_eq_true_eq] at this
  exact ⟨this.1, fun L hL => (this.2 L hL).1⟩

/-- C14 (flags given). The same if the decorated colours are given as a list of flags, one per colour. -/
theorem C14_polya_arrows_flags (concs : List Nat) (dim : Nat) (flags : List Bool) (group : List (List Nat × List Nat))
    (hn : 1 ≤ concs.sum) (hf : flags.length = concs.length) (hH : IsOpGroup concs.sum dim group) (hb : Balanced group) :
    (∃ L, IsTransversal (IsDecorated concs (fun v => flags[v - 1]? = some true) dim) (OpEquiv group) L) ∧
    ∀ L, IsTransversal (IsDecorated concs (fun v => flags[v - 1]? = some true) dim) (OpEquiv group) L →
      polya concs group (.flags flags) = some (.ok L.length) := by
  have := decorated_orbits concs dim group hn hH hb (fun v => decide (flags[v - 1]? = some true)) (.flags flags) (by
    apply List.ext_getElem
    · simp [Arrowings.toFlags, pattern]; omega
    · intro i h1 h2
      have h1' : i < flags.length := h1
      simp only [Arrowings.toFlags, pattern, List.getElem_map, List.getElem_range, decide_eq_true_eq,
        Nat.add_sub_cancel, List.getElem?_eq_getElem h1', Option.some.injEq]
      cases flags[i] <;> rfl)
  simp only [decide_eq_true_eq] at this
  exact ⟨this.1, fun L hL => (this.2 L hL).1⟩

/-! predicted count = enumerated count -/

/-- C15 (no arrows). For every permutation group and decoration without arrows, the number returned by `polya`
for the concentrations is the number of structures returned by `brancher` (superperiodic ones kept). -/
theorem C15_count_plain (a : BArgs) (h : StdCall a) (hnone : a.subset = .none)
    (hG : IsPermGroup a.decor.length (a.group.map (·.1))) (hb : Balanced (a.group.map (·.1)))
    (h2 : ∀ g ∈ a.group, ∃ d, g.2.Perm (List.range d)) (hna : ∀ s ∈ a.decor, s.1 = -1) :
    ∃ L, brancher a = some (.ok L) ∧ polya a.concs a.group .none = some (.ok L.length) := by
  obtain ⟨L, hL, hnd, hperm, hu⟩ := C06_one_per_orbit a h hnone hG hna
  refine ⟨L, hL, ?_⟩
  have hn : 1 ≤ a.concs.sum := by
    rw [h.concs', findConcentrations_sum]
    exact List.length_pos_iff.mpr h.nonempty
  have := (C13_polya_counts_orbits a.concs a.group hn (h.grp hG) hb h2).2 (L.map (unpaint a.decor)) ⟨?_, ?_, ?_⟩
  · rw [this, List.length_map]
  · apply List.Nodup.map_on _ hnd
    intro x hx y hy e
    rw [← paint_unpaint (decor := a.decor) (z := x) (fun c hc => (hperm x hx).mem_iff.mp hc), e,
      paint_unpaint (fun c hc => (hperm y hy).mem_iff.mp hc)]
  · intro w hw
    obtain ⟨z, hz, rfl⟩ := List.mem_map.mp hw
    rw [h.concs']
    exact unpaint_labelling (hperm z hz)
  · intro x hx
    have hx' := labx h.concs' hx
    obtain ⟨w, ⟨hw, σ, hσ, e⟩, huw⟩ := hu (paint a.decor x) (paint_perm hx')
    refine ⟨unpaint a.decor w, ⟨List.mem_map_of_mem hw, σ, hσ, ?_⟩, ?_⟩
    · rw [permute_unpaint, e, unpaint_paint (lab_range hx')]
    · rintro w' ⟨hw', τ, hτ, e'⟩
      obtain ⟨z, hz, rfl⟩ := List.mem_map.mp hw'
      congr 1
      apply huw
      refine ⟨hz, τ, hτ, ?_⟩
      rw [← e', permute_unpaint, paint_unpaint]
      intro c hc
      exact (hperm z hz).mem_iff.mp ((hG.permute_perm' hτ z (hperm z hz).length_eq).mem_iff.mp hc)

/-- The arrow-free sites of the decoration precede those with an arrow (as `arrow_concs` arranges). -/
def ArrowsLast (d : Config) : Prop := d.Pairwise (fun s t => 0 ≤ s.1 → 0 ≤ t.1)

theorem colorList_sublist (l : Config) : (colorList l).Sublist l := by
  induction l using strong_list with
  | h0 => rw [colorList_nil]
  | h x xs ih =>
    rw [colorList_cons]
    exact (ih.trans (List.filter_sublist)).cons_cons x

theorem bools_sorted (l : List Bool) (h : l.Pairwise (fun a b => a = true → b = true)) :
    List.replicate (l.length - l.count true) false ++ List.replicate (l.count true) true = l := by
  induction l with
  | nil => rfl
  | cons b l ih =>
    rw [List.pairwise_cons] at h
    have ih' := ih h.2
    have hle : l.count true ≤ l.length := List.count_le_length
    cases b with
    | false =>
      simp only [List.length_cons, List.count_cons, Bool.false_eq_true, beq_iff_eq, if_false, Nat.add_zero]
      rw [show l.length + 1 - l.count true = (l.length - l.count true) + 1 by omega, List.replicate_succ,
        List.cons_append, ih']
    | true =>
      have : l = List.replicate l.length true := by
        apply List.eq_replicate_iff.mpr
        exact ⟨rfl, fun b hb => h.1 b hb rfl⟩
      have hc : l.count true = l.length := by
        rw [this]; simp
      simp only [List.length_cons, List.count_cons, beq_self_eq_true, if_true]
      rw [hc, Nat.sub_self, List.replicate_zero, List.nil_append, List.replicate_succ, ← this]

theorem howMany_species (d : Config) :
    ∃ T : List Nat, (howManyArrows d).2.1 = T.length ∧ T.Nodup ∧ ∀ v, v ∈ T ↔ ∃ s ∈ d, 0 ≤ s.1 ∧ s.2 = v := by
  unfold howManyArrows
  simp only
  have key : ∀ (d : Config) (acc : Nat × List Nat), acc.2.Nodup →
      let r := d.foldl (fun (acc : Nat × List Nat) i =>
        if i.1 ≥ 0 then (acc.1 + 1, if i.2 ∈ acc.2 then acc.2 else acc.2 ++ [i.2]) else acc) acc
      r.2.Nodup ∧ ∀ v, v ∈ r.2 ↔ v ∈ acc.2 ∨ ∃ s ∈ d, 0 ≤ s.1 ∧ s.2 = v := by
    intro d
    induction d with
    | nil => intro acc h; exact ⟨h, by simp⟩
    | cons s d ih =>
      intro acc h
      simp only [List.foldl_cons]
      by_cases h0 : s.1 ≥ 0
      · rw [if_pos h0]
        have hnd : (if s.2 ∈ acc.2 then acc.2 else acc.2 ++ [s.2]).Nodup := by
          split
          · exact h
          · rename_i hm
            rw [List.nodup_append]
            refine ⟨h, by simp, ?_⟩
            intro a ha b hb e
            rw [List.mem_singleton] at hb
            exact hm (hb ▸ e ▸ ha)
        obtain ⟨i1, i2⟩ := ih (acc.1 + 1, if s.2 ∈ acc.2 then acc.2 else acc.2 ++ [s.2]) hnd
        refine ⟨i1, fun v => ?_⟩
        rw [i2]
        simp only [List.mem_cons, exists_eq_or_imp]
        have : v ∈ (if s.2 ∈ acc.2 then acc.2 else acc.2 ++ [s.2]) ↔ v ∈ acc.2 ∨ s.2 = v := by
          split
          · rename_i hm
            constructor
            · exact Or.inl
            · rintro (h | rfl)
              · exact h
              · exact hm
          · rw [List.mem_append, List.mem_singleton, eq_comm (a := v)]
        rw [this]
        have h0' : 0 ≤ s.1 := h0
        simp only [h0', true_and, or_assoc]
      · rw [if_neg h0]
        obtain ⟨i1, i2⟩ := ih acc h
        refine ⟨i1, fun v => ?_⟩
        rw [i2]
        have h0' : ¬ 0 ≤ s.1 := h0
        simp only [List.mem_cons, exists_eq_or_imp, h0', false_and, false_or]
  obtain ⟨k1, k2⟩ := key d (0, []) (by simp)
  exact ⟨_, rfl, k1, by simpa using k2⟩

theorem decor_flags {d : Config} (huni : UniformDecor d) (hlast : ArrowsLast d) :
    Arrowings.toFlags (findConcentrations d).length (.num (howManyArrows d).2.1) =
      ((colorList d).map erase1).map (fun s => decide (0 ≤ s.1)) := by
  have hE : ((colorList d).map erase1).map (fun s => decide (0 ≤ s.1)) = (colorList d).map (fun s => decide (0 ≤ s.1)) := by
    rw [List.map_map]
    apply List.map_congr_left
    intro s _
    have := erase1_neg s
    simp only [Function.comp, decide_eq_decide]
    omega
  rw [hE, ← bools_sorted ((colorList d).map (fun s => decide (0 ≤ s.1)))]
  · have hcount : ((colorList d).map (fun s => decide (0 ≤ s.1))).count true = (howManyArrows d).2.1 := by
      obtain ⟨T, e, hT, hmem⟩ := howMany_species d
      rw [e, List.count_eq_countP, List.countP_map, List.countP_eq_length_filter, ← List.length_map (f := (·.2))]
      apply List.Perm.length_eq
      apply (List.perm_ext_iff_of_nodup _ hT).mpr
      · intro v
        rw [hmem, List.mem_map]
        simp only [List.mem_filter, mem_colorList, Function.comp, beq_iff_eq, decide_eq_true_eq, and_assoc]
      · apply List.Nodup.map_on _ ((nodup_colorList d).filter _)
        intro s hs t ht e'
        simp only [List.mem_filter, mem_colorList, Function.comp, beq_iff_eq, decide_eq_true_eq] at hs ht
        exact huni s hs.1 t ht.1 hs.2 ht.2 e'
    rw [hcount, List.length_map, findConcentrations_length]
    rfl
  · rw [List.pairwise_map]
    simp only [decide_eq_true_eq]
    exact hlast.sublist (colorList_sublist d)

theorem mem_confs_decor {d : Config} (huni : UniformDecor d) (dim : Nat) (z : Config) :
    z ∈ confs (siteVals ((colorList d).map erase1) dim) (ecol ((colorList d).map erase1)) (findConcentrations d) ↔
      (erase z).Perm (erase d) ∧ ∀ s ∈ z, s.1 < dim := by
  have hfix : ∀ s ∈ (colorList d).map erase1, erase1 s = s := by
    intro s hs
    obtain ⟨t, -, rfl⟩ := List.mem_map.mp hs
    unfold erase1
    split
    · rfl
    · simp
  have hnd : ((colorList d).map erase1).Nodup := by
    apply List.Nodup.map_on _ (nodup_colorList d)
    intro s hs t ht e
    exact huni.inj s ((mem_colorList d s).mp hs) t ((mem_colorList d t).mp ht) e
  have hlen : ((colorList d).map erase1).length = (findConcentrations d).length := by
    rw [List.length_map, findConcentrations_length]
  have hmemE : ∀ e, e ∈ (colorList d).map erase1 ↔ e ∈ erase d := by
    intro e
    rw [erase_eq, List.mem_map, List.mem_map]
    simp only [mem_colorList]
  have hcd : ∀ (j : Nat) (hj : j < ((colorList d).map erase1).length) (hj' : j < (findConcentrations d).length),
      (erase d).count ((colorList d).map erase1)[j] = (findConcentrations d)[j] := by
    intro j hj hj'
    have hj2 : j < (colorList d).length := by rwa [List.length_map] at hj
    have : (findConcentrations d)[j] = d.count (colorList d)[j] := by
      simp only [findConcentrations_eq, List.getElem_map, List.count_eq_countP]
      apply List.countP_congr
      intro s _
      simp only [beq_iff_eq]
    rw [this, List.getElem_map, erase_eq, List.count_eq_countP, List.countP_map, List.count_eq_countP]
    apply List.countP_congr
    intro s hs
    simp only [Function.comp, beq_iff_eq]
    constructor
    · intro h
      exact huni.inj s hs _ ((mem_colorList d _).mp (List.getElem_mem hj2)) h
    · intro h; rw [h]
  have hcz : (∀ s ∈ z, erase1 s ∈ (colorList d).map erase1) → ∀ (j : Nat) (hj : j < ((colorList d).map erase1).length),
      z.countP (fun a => decide (ecol ((colorList d).map erase1) a = j + 1)) = (erase z).count ((colorList d).map erase1)[j] := by
    intro hz j hj
    rw [erase_eq z, List.count_eq_countP, List.countP_map]
    apply List.countP_congr
    intro s hs
    simp only [Function.comp, beq_iff_eq, decide_eq_true_eq]
    exact ecol_iff hnd (hz s hs) hj
  unfold confs
  rw [Finset.mem_filter, List.mem_toFinset, mem_words]
  simp only [mem_siteVals hfix]
  unfold HasContent
  constructor
  · rintro ⟨⟨h1, h2⟩, h3⟩
    refine ⟨?_, fun s hs => (h2 s hs).2⟩
    rw [List.perm_iff_count]
    intro e
    by_cases he : e ∈ (colorList d).map erase1
    · obtain ⟨j, hj, rfl⟩ := List.getElem_of_mem he
      rw [hcd j hj (by omega), ← h3 j (by omega), hcz (fun s hs => (h2 s hs).1) j hj]
    · rw [List.count_eq_zero_of_not_mem (fun h => he ((hmemE e).mpr h)), List.count_eq_zero_of_not_mem]
      intro h
      rw [erase_eq, List.mem_map] at h
      obtain ⟨s, hs, rfl⟩ := h
      exact he (h2 s hs).1
  · rintro ⟨hp, hlt⟩
    have hz : ∀ s ∈ z, erase1 s ∈ (colorList d).map erase1 := by
      intro s hs
      rw [hmemE, ← hp.mem_iff, erase_eq]
      exact List.mem_map_of_mem hs
    refine ⟨⟨?_, fun s hs => ⟨hz s hs, hlt s hs⟩⟩, ?_⟩
    · have := hp.length_eq
      rw [erase_eq, erase_eq, List.length_map, List.length_map] at this
      rw [findConcentrations_sum, this]
    · intro j hj
      rw [hcz hz j (by omega), hp.count_eq, hcd j (by omega) hj]

/-- C15 (arrows). For every group of paired operations and every decoration with arrows (arrow-free colours
first), the number returned by `polya` for the concentrations and the number of decorated species reported by
`how_many_arrows` is the number of structures returned by `brancher` (superperiodic ones kept). -/
theorem C15_count_arrows (a : BArgs) (h : StdCall a) (hnone : a.subset = .none) (hdim : 1 ≤ a.dim)
    (hH : IsOpGroup a.decor.length a.dim a.group) (hb : Balanced a.group) (har : ∃ s ∈ a.decor, 0 ≤ s.1)
    (huni : UniformDecor a.decor) (hlast : ArrowsLast a.decor) :
    ∃ L, brancher a = some (.ok L) ∧
      polya a.concs a.group (.num (howManyArrows a.decor).2.1) = some (.ok L.length) := by
  obtain ⟨L, hL, hnd, hmem, hu⟩ := C12_one_per_orbit a h hnone hdim hH har huni
  refine ⟨L, hL, ?_⟩
  have hc := h.concs'
  have hn : 1 ≤ a.concs.sum := by
    rw [hc, findConcentrations_sum]
    exact List.length_pos_iff.mpr h.nonempty
  have hfix : ∀ s ∈ (colorList a.decor).map erase1, erase1 s = s := by
    intro s hs
    obtain ⟨t, -, rfl⟩ := List.mem_map.mp hs
    unfold erase1
    split
    · rfl
    · simp
  apply polya_arrows (E := (colorList a.decor).map erase1) hfix a.dim
  · rw [List.length_map, hc, findConcentrations_length]
  · apply List.Nodup.map_on _ (nodup_colorList a.decor)
    intro s hs t ht e
    exact huni.inj s ((mem_colorList _ s).mp hs) t ((mem_colorList _ t).mp ht) e
  · exact hn
  · rw [hc, findConcentrations_sum]; exact hH
  · exact hb
  · rw [hc]; exact decor_flags huni hlast
  · exact hnd
  · intro z hz
    rw [hc, mem_confs_decor huni]
    exact hmem z hz
  · intro z hz
    rw [hc, mem_confs_decor huni] at hz
    exact hu z hz.1 hz.2

/-! input handling -/

/-- C16. For every group of permutations of `n` sites, `polya` raises ValueError exactly if the concentrations
do not sum to `n`; otherwise it returns a number. -/
theorem C16_rejects (n : Nat) (hn : 1 ≤ n) (concs : List Nat) (group : List (List Nat × List Nat)) (hne : group ≠ [])
    (h1 : ∀ g ∈ group, g.1.Perm (List.range n)) (h2 : ∀ g ∈ group, ∃ d, g.2.Perm (List.range d)) (m : Nat)
    (hm : m ≤ concs.length) :
    (concs.sum ≠ n → polya concs group (.num m) = some (.error .valueError)) ∧
    (concs.sum = n → ∃ v, polya concs group (.num m) = some (.ok v)) := by
  constructor
  · intro hs
    obtain ⟨g, gs, rfl⟩ := List.exists_cons_of_ne_nil hne
    unfold polya
    simp only
    rw [if_pos]
    rw [perm_range_length (h1 g (by simp))]
    exact hs
  · intro hs
    obtain ⟨cs, -, e⟩ := polya_sum hn hs hne h1 h2 (arrowings := .num m) rfl (by simp [Arrowings.toFlags]; omega)
    exact ⟨_, e⟩

theorem zeroBase_succ {l : List Nat} : zeroBase (l.map (· + 1)) = l := by
  unfold zeroBase
  rw [if_neg (by simp), List.map_map]
  conv_rhs => rw [← List.map_id l]
  apply List.map_congr_left
  intro a _
  simp

/-- C16 (index bases). Every component of every operation may be written with indices starting at 1 instead of 0
(any mixture): the answer of `polya` is the same. -/
theorem C16_index_base (concs : List Nat) (arrowings : Arrowings)
    (group group' : List (List Nat × List Nat))
    (h : List.Forall₂ (fun g g' => (∃ n, g.1.Perm (List.range n)) ∧ (∃ d, g.2.Perm (List.range d)) ∧
      (g'.1 = g.1 ∨ g'.1 = g.1.map (· + 1)) ∧ (g'.2 = g.2 ∨ g'.2 = g.2.map (· + 1))) group group') :
    polya concs group' arrowings = polya concs group arrowings := by
  have hz : group'.map (fun g => (zeroBase g.1, zeroBase g.2)) = group.map (fun g => (zeroBase g.1, zeroBase g.2)) := by
    induction h with
    | nil => rfl
    | cons h _ ih =>
      rw [List.map_cons, List.map_cons, ih]
      obtain ⟨⟨n, hn⟩, ⟨d, hd⟩, h3, h4⟩ := h
      congr 2
      · rcases h3 with h3 | h3
        · rw [h3]
        · rw [h3, zeroBase_succ, zeroBase_perm hn]
      · rcases h4 with h4 | h4
        · rw [h4]
        · rw [h4, zeroBase_succ, zeroBase_perm hd]
  have hl : group'.length = group.length := h.length_eq.symm
  cases h with
  | nil => rfl
  | cons h1 h2 =>
    rename_i g g' gs gs'
    obtain ⟨-, -, h3, -⟩ := h1
    have hlen : g'.1.length = g.1.length := by
      rcases h3 with h3 | h3 <;> rw [h3]
      rw [List.length_map]
    unfold polya
    simp only
    rw [hz, hl, hlen]

/-- C17. For every operation, the polynomial dictionary lists each (cycle length, number of directions fixed by
that power of the arrow permutation) once, with the number of cycles of that length; the lengths weighted by
their multiplicities add up to the number of sites. -/
theorem C17_cycle_dictionary (n d : Nat) (op : List Nat × List Nat) (h1 : op.1.Perm (List.range n))
    (h2 : op.2.Perm (List.range d)) :
    ∃ cs dict, CycleDecomp op.1 cs ∧ opPolynomials op = some (.ok dict) ∧ (dict.map (·.1)).Nodup ∧
      (∀ r c m, ((r, c), m) ∈ dict ↔
        c = (List.range d).countP (fun v => decide ((fun u => op.2.getD u 0)^[r] v = v)) ∧
        m = cs.countP (fun cyc => decide (cyc.length = r)) ∧ 1 ≤ m) ∧
      (dict.map (fun kv => kv.1.1 * kv.2)).sum = n := by
  obtain ⟨cs, hc, e⟩ := opPolynomials_ok h1 h2
  have hmem := mem_bumpAll (fixedDirs op.2) (cs.map List.length) [] (by simp) (fun _ => 0) (by simp)
  refine ⟨cs, _, hc, e, hmem.1, ?_, ?_⟩
  · intro r c m
    rw [hmem.2, Nat.zero_add, List.countP_map]
    have hfd : fixedDirs op.2 r = (List.range d).countP (fun v => decide ((fun u => op.2.getD u 0)^[r] v = v)) := by
      unfold fixedDirs
      rw [perm_range_length h2]
      rfl
    rw [← hfd]
    by_cases hcr : c = fixedDirs op.2 r
    · have : cs.countP ((fun r_1 => decide ((r, c) = (r_1, fixedDirs op.2 r_1))) ∘ List.length) =
          cs.countP (fun cyc => decide (cyc.length = r)) := by
        apply List.countP_congr
        intro cyc _
        simp only [Function.comp, decide_eq_true_eq, Prod.mk.injEq]
        constructor
        · rintro ⟨rfl, -⟩; rfl
        · rintro rfl; exact ⟨rfl, hcr⟩
      rw [this]
      constructor
      · rintro ⟨rfl, h⟩; exact ⟨hcr, rfl, h⟩
      · rintro ⟨-, rfl, h⟩; exact ⟨rfl, h⟩
    · have : cs.countP ((fun r_1 => decide ((r, c) = (r_1, fixedDirs op.2 r_1))) ∘ List.length) = 0 := by
        rw [List.countP_eq_zero]
        intro cyc _ hh
        simp only [Function.comp, decide_eq_true_eq, Prod.mk.injEq] at hh
        exact hcr (by rw [hh.2, hh.1])
      rw [this]
      constructor
      · rintro ⟨-, h⟩; omega
      · rintro ⟨h, -⟩; exact absurd h hcr
  · rw [bumpAll_sum]
    have h3 := hc.1.length_eq
    rw [List.length_flatten, List.length_range, perm_range_length h1] at h3
    simpa using h3

/-- C18. For every non-empty list of factors `(sum_j c_j x_j^p)^e` with positive powers and exponents, the
coefficient computed by `Product.coeff` for a target monomial of the degree of the product is (the product's
integer prefactor times) the coefficient of that monomial in the expanded product. -/
theorem C18_product_coefficient (k : Nat) (hk : 0 < k) (prefactor : Nat) (targets : List Nat) (ht : targets.length = k)
    (ms : List Multinom) (hne : ms ≠ [])
    (hms : ∀ m ∈ ms, 1 ≤ m.power ∧ 1 ≤ m.exponent ∧ m.arrowings.length = k)
    (hdeg : targets.sum = (ms.map (fun m => m.power * m.exponent)).sum) :
    productCoeff prefactor targets ms = .ok ((prefactor * MvPolynomial.coeff (expo k targets)
      (ms.map (fun m => factor k m.power m.coeff m.exponent m.arrowings)).prod : ℕ) : ℚ) :=
  productCoeff_eq (fun m hm => ⟨(hms m hm).1, (hms m hm).2.1, (hms m hm).2.2⟩) hne prefactor ht hk hdeg

/-- C18, limit: for a target of another degree the number computed for a single factor need not be the
coefficient (`(x)^2` and the monomial `x`: the code answers 1, the coefficient is 0). `polya` never asks for
such a coefficient. -/
theorem C18_degree_needed :
    productCoeff 1 [1] [⟨1, 1, [false], 2⟩] = .ok 1 ∧
    MvPolynomial.coeff (expo 1 [1]) (factor 1 1 1 2 [false]) = 0 := by
  constructor
  · decide +kernel
  · have : factor 1 1 1 2 [false] = (MvPolynomial.X 0 : MvPolynomial (Fin 1) ℕ) ^ 2 := by
      unfold factor
      simp
    rw [this, MvPolynomial.coeff_X_pow, if_neg]
    intro h
    have := DFunLike.congr_fun h 0
    simp [expo] at this

/-! Non-vacuity -/

example : IsPermGroup ([2, 1] : List Nat).sum (exGroup.map (·.1)) ∧ Balanced (exGroup.map (·.1)) ∧
    (∀ g ∈ exGroup, ∃ d, g.2.Perm (List.range d)) :=
  ⟨exGroup_ok.permGroup, ⟨1, by decide⟩, fun g hg => ⟨2, exGroup_ok.arrows g hg⟩⟩

example : IsOpGroup ([2, 1] : List Nat).sum 2 exGroup ∧ Balanced exGroup := ⟨exGroup_ok, ⟨1, by decide⟩⟩

example : ArrowsLast [(-1, 2), (-1, 1), (1, 1)] := by unfold ArrowsLast; decide

example : ([1, 0, 2] : List Nat).Perm (List.range 3) ∧ ([1, 0] : List Nat).Perm (List.range 2) := by decide

example : List.Forall₂ (fun g g' : List Nat × List Nat => (∃ n, g.1.Perm (List.range n)) ∧ (∃ d, g.2.Perm (List.range d)) ∧
      (g'.1 = g.1 ∨ g'.1 = g.1.map (· + 1)) ∧ (g'.2 = g.2 ∨ g'.2 = g.2.map (· + 1)))
    [([0, 1], [0]), ([1, 0], [0])] [([1, 2], [0]), ([2, 1], [1])] :=
  .cons ⟨⟨2, by decide⟩, ⟨1, by decide⟩, by decide, by decide⟩
    (.cons ⟨⟨2, by decide⟩, ⟨1, by decide⟩, by decide, by decide⟩ .nil)

example : let ms : List Multinom := [⟨1, 2, [false, true], 1⟩, ⟨2, 3, [false, true], 2⟩]
    (∀ m ∈ ms, 1 ≤ m.power ∧ 1 ≤ m.exponent ∧ m.arrowings.length = 2) ∧
    ([2, 3] : List Nat).sum = (ms.map (fun m => m.power * m.exponent)).sum := by decide

example : productCoeff 1 [2, 3] [⟨1, 2, [false, true], 1⟩, ⟨2, 3, [false, true], 2⟩] = .ok 12 := by decide +kernel

end Phenum
