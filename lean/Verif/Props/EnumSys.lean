import Verif.Model.EnumSys
import Verif.Props.Sample
import Verif.Props.Decorate
import Verif.Props.Polya
import Verif.Props.Numerics
/-
C43: a request for structures (`enum_sys`).
-/
namespace Phenum
open Spec

theorem selectPositions_length {α : Type} {l : List ℕ} (L : List α) (hn : l.Nodup) (hl : ∀ i ∈ l, 1 ≤ i ∧ i ≤ L.length) :
    (selectPositions l L).length = l.length := by
  rw [← pick_select, pick_length]
  apply List.Perm.length_eq
  rw [List.perm_ext_iff_of_nodup (List.Nodup.filter _ (List.nodup_range' (step := 1))) hn]
  intro i
  simp only [List.mem_filter, List.mem_range'_1, decide_eq_true_eq]
  constructor
  · exact fun h => h.2
  · exact fun h => ⟨by have := hl i h; omega, h⟩

theorem selectPositions_sublist {α : Type} (l : List ℕ) (L : List α) : (selectPositions l L).Sublist L := by
  unfold selectPositions
  suffices h : ∀ c, ((L.zipIdx c).filterMap (fun p => if p.2 ∈ l then some p.1 else none)).Sublist L from h 1
  induction L with
  | nil => intro c; exact List.Sublist.slnil
  | cons z L ih =>
    intro c
    rw [List.zipIdx_cons, List.filterMap_cons]
    by_cases h : c ∈ l
    · simpa [h] using ih (c + 1)
    · simp only [h, if_false]
      exact (ih (c + 1)).cons z

/-- what `brancher` returns for a full enumeration `L` -/
def fromFull (s : Subset) (L : List Config) : List Config :=
  match s with
  | .list l => if l = [] then L else selectPositions l L
  | _ => L

theorem brancher_plain (a : BArgs) (h : StdCall a) (hG : IsPermGroup a.decor.length (a.group.map (·.1))) (hna : ∀ s ∈ a.decor, s.1 = -1) :
    ∃ L, brancher a = some (.ok (fromFull a.subset L)) ∧ L.Nodup ∧ (∀ z ∈ L, z.Perm a.decor) ∧
      ∀ z : Config, z.Perm a.decor → ∃! w, w ∈ L ∧ Equiv (a.group.map (·.1)) w z := by
  have full : useSubset a = false → ∃ L, brancher a = some (.ok L) ∧ L.Nodup ∧ (∀ z ∈ L, z.Perm a.decor) ∧
      ∀ z : Config, z.Perm a.decor → ∃! w, w ∈ L ∧ Equiv (a.group.map (·.1)) w z := by
    intro hu
    obtain ⟨X, hX, hb⟩ := brancher_full h.ne h.pos (h.grp hG) (by simp [h.supers]) (emOk_plain h.concs' hna) hu
    exact ⟨_, hb, plain_orbits h hG hX⟩
  cases hs : a.subset with
  | none => exact full (by unfold useSubset; rw [hs]; exact h.accept)
  | num k => exact full (by unfold useSubset; rw [hs]; exact h.accept)
  | list l =>
    by_cases hl : l = []
    · obtain ⟨L, h1⟩ := full (by unfold useSubset; rw [hs, hl]; rfl)
      exact ⟨L, by simpa [fromFull, hl] using h1⟩
    · obtain ⟨L, h1, h2⟩ := C09_subset_colours a h l hl hs hG hna
      obtain ⟨L', h1', h3⟩ := C06_one_per_orbit { a with subset := .none } ⟨h.nonempty, h.concs, h.supers, h.accept⟩ rfl hG hna
      rw [h1] at h1'
      have := Except.ok.inj (Option.some.inj h1')
      subst this
      exact ⟨L, by rw [h2, fromFull, if_neg hl], h3⟩

theorem brancher_arrows (a : BArgs) (h : StdCall a) (hdim : 1 ≤ a.dim)
    (hH : IsOpGroup a.decor.length a.dim a.group) (har : ∃ s ∈ a.decor, 0 ≤ s.1) (huni : UniformDecor a.decor) :
    ∃ L, brancher a = some (.ok (fromFull a.subset L)) ∧ brancher { a with subset := .none } = some (.ok L) := by
  have hn : 0 < nArr a.decor := by
    obtain ⟨s, hs, h0⟩ := har
    exact List.countP_pos_iff.mpr ⟨s, hs, by simpa using h0⟩
  have h' : StdCall { a with subset := .none } := ⟨h.nonempty, h.concs, h.supers, h.accept⟩
  obtain ⟨X', hX', hb'⟩ := brancher_full (a := { a with subset := .none }) h'.ne h'.pos (h'.grp hH.permGroup) (by simp [h.supers])
    (emOk_arrows h'.concs' hdim hH hn h'.supers h'.accept) (by unfold useSubset; exact h.accept)
  have full : useSubset a = false → ∃ L, brancher a = some (.ok L) ∧ brancher { a with subset := .none } = some (.ok L) := by
    intro hu
    obtain ⟨X, hX, hb⟩ := brancher_full h.ne h.pos (h.grp hH.permGroup) (by simp [h.supers])
      (emOk_arrows h.concs' hdim hH hn h.supers h.accept) hu
    have : X = X' := by
      apply List.Perm.eq_of_pairwise _ hX.sorted hX'.sorted
      · rw [List.perm_ext_iff_of_nodup hX.nodup hX'.nodup]
        intro x
        rw [hX.mem, hX'.mem]
      · intro x y _ _ h1 h2
        exact absurd (h1.trans h2) (fun h => h.irrefl)
    subst this
    exact ⟨_, hb, hb'⟩
  cases hs : a.subset with
  | none => exact full (by unfold useSubset; rw [hs]; exact h.accept)
  | num k => exact full (by unfold useSubset; rw [hs]; exact h.accept)
  | list l =>
    by_cases hl : l = []
    · obtain ⟨L, h1⟩ := full (by unfold useSubset; rw [hs, hl]; rfl)
      exact ⟨L, by simpa [fromFull, hl] using h1⟩
    · obtain ⟨L, h1, h2⟩ := C09_subset_arrows a h l hl hs hdim hH har
      exact ⟨L, by rw [h2, fromFull, if_neg hl], h1⟩

/-- The number of structures a request for `wanted` of `total` structures leads to. -/
def Spec.delivered (wanted total : ℕ) : ℕ := if 1 ≤ wanted ∧ wanted ≤ total ∧ total < 1000000 then wanted else total

theorem fromFull_choose {shuffle : List ℕ → List ℕ} (hsh : ∀ l, (shuffle l).Perm l) (wanted : ℕ) (L : List Config) :
    (fromFull (chooseSubset shuffle wanted (L.length : ℤ)) L).Sublist L ∧
    (fromFull (chooseSubset shuffle wanted (L.length : ℤ)) L).length = delivered wanted L.length := by
  unfold chooseSubset delivered
  by_cases h1 : (wanted : ℤ) < (L.length : ℤ)
  · rw [if_pos h1]
    by_cases h2 : (L.length : ℤ) < 1000000
    · rw [if_pos h2]
      have hp := hsh (List.range' 1 L.length)
      simp only [fromFull, Int.toNat_natCast]
      by_cases h0 : wanted = 0
      · subst h0
        rw [if_pos (by simp), if_neg (by omega)]
        exact ⟨List.Sublist.refl L, rfl⟩
      · have hlen : ((shuffle (List.range' 1 L.length)).take wanted).length = wanted := by
          rw [List.length_take, hp.length_eq, List.length_range']
          omega
        rw [if_neg (by intro e; rw [e] at hlen; simp at hlen; omega), if_pos (by omega)]
        refine ⟨selectPositions_sublist _ _, ?_⟩
        rw [selectPositions_length _ ((List.take_sublist _ _).nodup (hp.nodup_iff.mpr (List.nodup_range' (step := 1)))), hlen]
        intro i hi
        have := hp.mem_iff.mp (List.mem_of_mem_take hi)
        rw [List.mem_range'_1] at this
        omega
    · rw [if_neg h2, if_neg (by omega)]
      exact ⟨List.Sublist.refl L, rfl⟩
  · rw [if_neg h1]
    simp only [fromFull, if_true]
    refine ⟨List.Sublist.refl L, ?_⟩
    split <;> omega

/-- A configuration without arrows is a rearrangement of the decoration exactly if its labels have the composition
`concs`. -/
theorem perm_decor {concs : List ℕ} {aconcs : List ℚ} {d : Config} (hlen : concs.length ≤ aconcs.length) (hd : arrowConcs concs aconcs = .ok d)
    (hna : ∀ s ∈ d, s.1 = -1) (z : Config) : z.Perm d ↔ (∀ s ∈ z, s.1 = -1) ∧ IsLabelling concs (z.map (·.2)) := by
  obtain ⟨d', hd', h1, h2, -⟩ := C40_arrow_concs concs aconcs hlen
  rw [hd] at hd'
  have := Except.ok.inj hd'
  subst this
  have hc1 : ∀ i, d.count ((1 : ℤ), i) = 0 := by
    intro i
    rw [List.count_eq_zero]
    intro hc
    have := hna _ hc
    simp at this
  have hcount : ∀ (z : Config), (∀ s ∈ z, s.1 = -1) → ∀ i, (z.map (·.2)).count i = z.count (-1, i) := by
    intro z hz i
    induction z with
    | nil => rfl
    | cons s z ih =>
      rw [List.map_cons, List.count_cons, List.count_cons, ih (fun t ht => hz t (by simp [ht]))]
      congr 1
      have := hz s (by simp)
      obtain ⟨x, y⟩ := s
      simp only at this
      subst this
      by_cases h : y = i
      · subst h; simp
      · have : ¬ (((-1 : ℤ), y) = (-1, i)) := by simpa using h
        simp [h]
  constructor
  · intro hp
    have hz : ∀ s ∈ z, s.1 = -1 := fun s hs => hna s (hp.mem_iff.mp hs)
    refine ⟨hz, ?_, ?_⟩
    · intro v hv
      obtain ⟨s, hs, rfl⟩ := List.mem_map.mp hv
      exact (h1 s (hp.mem_iff.mp hs)).2
    · intro i hi
      rw [hcount z hz, hp.count_eq]
      have := (h2 i hi).2
      rw [hc1, Nat.zero_add] at this
      rw [this]
      simp [hi]
  · rintro ⟨hz, hl1, hl2⟩
    rw [List.perm_iff_count]
    rintro ⟨x, y⟩
    by_cases hx : x = -1
    · subst hx
      rw [← hcount z hz]
      by_cases hy : 1 ≤ y ∧ y ≤ concs.length
      · obtain ⟨i, rfl⟩ : ∃ i, y = i + 1 := ⟨y - 1, by omega⟩
        rw [hl2 i (by omega)]
        have := (h2 i (by omega)).2
        rw [hc1, Nat.zero_add] at this
        rw [this]
        simp [show i < concs.length by omega]
      · have e1 : (z.map (·.2)).count y = 0 := by
          rw [List.count_eq_zero]
          intro hc
          exact hy (hl1 y hc)
        have e2 : d.count (-1, y) = 0 := by
          rw [List.count_eq_zero]
          intro hc
          exact hy (h1 _ hc).2
        rw [e1, e2]
    · have e1 : z.count (x, y) = 0 := by
        rw [List.count_eq_zero]
        intro hc
        exact hx (hz _ hc)
      have e2 : d.count (x, y) = 0 := by
        rw [List.count_eq_zero]
        intro hc
        exact hx (hna _ hc)
      rw [e1, e2]

/-- The request is for a full or selected enumeration: the number of labellings is at most 100000 or more than 100
structures are wanted. -/
def Spec.Modest (concs : List ℕ) (wanted : ℕ) : Prop := concs.sum.factorial / (concs.map Nat.factorial).prod ≤ 100000 ∨ 100 < wanted

theorem multinomial_of_modest {concs : List ℕ} {wanted : ℕ} (hne : concs ≠ []) (h : Spec.Modest concs wanted) :
    ∃ v, multinomial (concs.map (fun c : ℕ => (c : ℤ))) = .ok v ∧ (decide (v > 100000) && decide ((wanted : ℤ) ≤ 100)) = false := by
  unfold Spec.Modest at h
  rcases h with h | h
  · refine ⟨_, multinomial_modest hne h, ?_⟩
    generalize concs.sum.factorial / (concs.map Nat.factorial).prod = q at h
    rw [decide_eq_false (show ¬ ((q : ℤ) > 100000) by omega)]
    rfl
  · obtain ⟨v, hv⟩ := multinomial_some hne
    refine ⟨v, hv, ?_⟩
    rw [decide_eq_false (show ¬ ((wanted : ℤ) ≤ 100) by omega), Bool.and_false]


theorem howMany_types_zero {d : Config} (hna : ∀ s ∈ d, s.1 = -1) : (howManyArrows d).2.1 = 0 := by
  rw [(C40_how_many_arrows d).2.1]
  have : d.filter (fun s => decide (0 ≤ s.1)) = [] := by
    rw [List.filter_eq_nil_iff]
    intro s hs
    have := hna s hs
    simp; omega
  rw [this]
  rfl

theorem howMany_types_pos {d : Config} (har : ∃ s ∈ d, 0 ≤ s.1) : (howManyArrows d).2.1 ≠ 0 := by
  rw [(C40_how_many_arrows d).2.1]
  obtain ⟨s, hs, h0⟩ := har
  apply Finset.card_ne_zero_of_mem (a := s.2)
  rw [List.mem_toFinset, List.mem_map]
  exact ⟨s, List.mem_filter.mpr ⟨hs, by simpa using h0⟩, rfl⟩

/-- C43, no arrows: for any group of permutations of the sites and at least two species, if superperiodic structures are
kept and no acceptance rate is given, the request returns structures of the right composition, pairwise inequivalent,
whatever the shuffle; `total` being the number of inequivalent structures, exactly `wanted` of them if `1 ≤ wanted ≤
total < 10^6`, and all `total` otherwise. -/
theorem C43_request (agroup : List Op) (concs : List ℕ) (aconcs : List ℚ) (wanted nB : ℕ) (rnd : EnumRandom)
    (h2 : 2 ≤ concs.length) (hlen : concs.length ≤ aconcs.length) (hn : 1 ≤ concs.sum)
    (hna : ∀ i, i < concs.length → arrowCount (concs.getD i 0) (aconcs.getD i 0) = 0)
    (hG : IsPermGroup concs.sum (agroup.map (·.1))) (hb : Balanced (agroup.map (·.1))) (hp2 : ∀ g ∈ agroup, ∃ d, g.2.Perm (List.range d))
    (hsh : ∀ l, (rnd.shuffle l).Perm l) (hmod : Modest concs wanted) :
    ∃ L full, enumSys agroup concs aconcs wanted nB true false rnd = some (.ok L) ∧
      (∀ z ∈ L, (∀ s ∈ z, s.1 = -1) ∧ IsLabelling concs (z.map (·.2))) ∧
      L.Pairwise (fun z w => ¬ Equiv (agroup.map (·.1)) z w) ∧
      IsTransversal (IsLabelling concs) (Equiv (agroup.map (·.1))) full ∧ L.length = delivered wanted full.length := by
  obtain ⟨d, hd, -, -, hdl, -⟩ := C40_arrow_concs concs aconcs hlen
  have hnad : ∀ s ∈ d, s.1 = -1 := (C40_decoration_usable concs aconcs d hd hlen).2.2.2.mpr hna
  have hiff := perm_decor hlen hd hnad
  have hGd : IsPermGroup d.length (agroup.map (·.1)) := by rw [hdl]; exact hG
  obtain ⟨v, hv, hv2⟩ := multinomial_of_modest (by intro e; rw [e] at h2; simp at h2) hmod
  have hlarge : largeSystem v (howManyArrows d).2.1 concs.sum wanted = false := by
    rw [howMany_types_zero hnad]
    unfold largeSystem
    rw [hv2]
    rfl
  -- the full enumeration
  let a : Subset → BArgs := fun s => ⟨(howManyArrows d).2.2, agroup, d, 6, true, concs.sum / nB, s, false, rnd.acceptDraw, rnd.acceptArrow⟩
  have hstd : ∀ s, StdCall (a s) := fun s => ⟨by intro e; have e : d = [] := e; rw [e] at hdl; simp at hdl; omega, rfl, rfl, rfl⟩
  have htrans : ∀ L : List Config, L.Nodup → (∀ z ∈ L, z.Perm d) → (∀ z : Config, z.Perm d → ∃! w, w ∈ L ∧ Equiv (agroup.map (·.1)) w z) →
      IsTransversal (IsLabelling concs) (Equiv (agroup.map (·.1))) (L.map (fun z => z.map (·.2))) := by
    intro L h1 h2 h3
    have hback : ∀ z ∈ L, noArrows (z.map (·.2)) = z := by
      intro z hz
      have := ((hiff z).mp (h2 z hz)).1
      unfold noArrows
      rw [List.map_map]
      conv_rhs => rw [← List.map_id z]
      apply List.map_congr_left
      intro s hs
      exact Prod.ext (this s hs).symm rfl
    refine ⟨?_, ?_, ?_⟩
    · apply List.Nodup.map_on _ h1
      intro z hz w hw e
      rw [← hback z hz, e, hback w hw]
    · intro x hx
      obtain ⟨z, hz, rfl⟩ := List.mem_map.mp hx
      exact ((hiff z).mp (h2 z hz)).2
    · intro x hx
      have hx' : (noArrows x).Perm d := (hiff _).mpr ⟨by simp [noArrows], by simpa [noArrows, List.map_map, Function.comp_def] using hx⟩
      obtain ⟨w, ⟨hw, σ, hσ, e⟩, hu⟩ := h3 _ hx'
      refine ⟨w.map (·.2), ⟨List.mem_map_of_mem hw, σ, hσ, ?_⟩, ?_⟩
      · rw [permute_map, e]
        simp [noArrows, List.map_map, Function.comp_def]
      · rintro y ⟨hy, τ, hτ, e'⟩
        obtain ⟨z, hz, rfl⟩ := List.mem_map.mp hy
        congr 1
        apply hu
        refine ⟨hz, τ, hτ, ?_⟩
        rw [← hback z hz]
        unfold noArrows
        rw [permute_map, e']
  have hpolya : ∀ L : List Config, L.Nodup → (∀ z ∈ L, z.Perm d) → (∀ z : Config, z.Perm d → ∃! w, w ∈ L ∧ Equiv (agroup.map (·.1)) w z) →
      polya concs agroup .none = some (.ok (L.length : ℤ)) := by
    intro L h1 h2 h3
    have := (C13_polya_counts_orbits concs agroup hn hG hb hp2).2 _ (htrans L h1 h2 h3)
    rw [this, List.length_map]
  obtain ⟨L0, -, hL1, hL2, hL3⟩ := brancher_plain (a .none) (hstd _) hGd hnad
  have hp0 := hpolya L0 hL1 hL2 hL3
  obtain ⟨L, hbr, hM1, hM2, hM3⟩ := brancher_plain (a (chooseSubset rnd.shuffle wanted (L0.length : ℤ))) (hstd _) hGd hnad
  have hlenL : L.length = L0.length := by
    have := hpolya L hM1 hM2 hM3
    rw [hp0] at this
    have := Except.ok.inj (Option.some.inj this)
    exact_mod_cast this.symm
  obtain ⟨hsub, hdel⟩ := fromFull_choose hsh wanted L
  rw [hlenL] at hsub hdel
  have hres : enumSys agroup concs aconcs wanted nB true false rnd = some (.ok (fromFull (chooseSubset rnd.shuffle wanted (L0.length : ℤ)) L)) := by
    unfold enumSys
    rw [hd]
    simp only [hv, hlarge]
    unfold enumTotal
    simp only [Bool.false_eq_true, if_false, howMany_types_zero hnad, ne_eq, not_true_eq_false, hp0]
    unfold enumCore
    rw [if_neg (by omega)]
    simp only [Bool.false_and, Bool.false_eq_true, if_false]
    have hbr' : brancher ⟨(howManyArrows d).2.2, agroup, d, 6, true, concs.sum / nB, chooseSubset rnd.shuffle wanted (L0.length : ℤ), false, rnd.acceptDraw, rnd.acceptArrow⟩ =
        some (.ok (fromFull (chooseSubset rnd.shuffle wanted (L0.length : ℤ)) L)) := hbr
    rw [hbr']
    simp [builtinSuper]
  refine ⟨_, L.map (fun z => z.map (·.2)), hres, ?_, ?_, htrans L hM1 hM2 hM3, ?_⟩
  · intro z hz
    exact (hiff z).mp (hM2 z (hsub.subset hz))
  · apply List.Pairwise.imp_of_mem _ (hsub.nodup hM1)
    intro z w hz hw hne he
    have hz' := hsub.subset hz
    have hw' := hsub.subset hw
    obtain ⟨u, -, hu⟩ := hM3 w (hM2 w hw')
    have e1 := hu z ⟨hz', he⟩
    have e2 := hu w ⟨hw', hGd.equiv_refl w ((hM2 w hw').length_eq)⟩
    exact hne (e1.trans e2.symm)
  · rw [hdel, List.length_map, hlenL]

/-- C43 fails, no arrows: a request for no structure, for more structures than there are, or for a proper part of a
million or more, returns all structures, without any error. -/
theorem C43_not_honoured (agroup : List Op) (concs : List ℕ) (aconcs : List ℚ) (wanted nB : ℕ) (rnd : EnumRandom)
    (h2 : 2 ≤ concs.length) (hlen : concs.length ≤ aconcs.length) (hn : 1 ≤ concs.sum)
    (hna : ∀ i, i < concs.length → arrowCount (concs.getD i 0) (aconcs.getD i 0) = 0)
    (hG : IsPermGroup concs.sum (agroup.map (·.1))) (hb : Balanced (agroup.map (·.1))) (hp2 : ∀ g ∈ agroup, ∃ d, g.2.Perm (List.range d))
    (hsh : ∀ l, (rnd.shuffle l).Perm l) (hmod : Modest concs wanted) (total : ℕ) (htot : polya concs agroup .none = some (.ok (total : ℤ)))
    (hbad : wanted = 0 ∨ total < wanted ∨ (wanted < total ∧ 1000000 ≤ total)) :
    ∃ L, enumSys agroup concs aconcs wanted nB true false rnd = some (.ok L) ∧ L.length = total := by
  obtain ⟨L, full, h1, -, -, h4, h5⟩ := C43_request agroup concs aconcs wanted nB rnd h2 hlen hn hna hG hb hp2 hsh hmod
  have := (C13_polya_counts_orbits concs agroup hn hG hb hp2).2 _ h4
  rw [htot] at this
  have e := Except.ok.inj (Option.some.inj this)
  have e : total = full.length := by exact_mod_cast e
  refine ⟨L, h1, ?_⟩
  rw [h5, e]
  unfold delivered
  rw [if_neg (by omega)]

/-! ### with arrows -/

/-- `z` has `concs[i]` sites of species `i+1`, and the number of those with an arrow is the integer part of the fraction
`aconcs[i]` of them; arrows are directions below `dim`. -/
structure Spec.Composed (concs : List ℕ) (aconcs : List ℚ) (dim : ℕ) (z : Config) : Prop where
  arrow : ∀ s ∈ z, s.1 = -1 ∨ (0 ≤ s.1 ∧ s.1 < dim)
  species : ∀ s ∈ z, 1 ≤ s.2 ∧ s.2 ≤ concs.length
  counts : ∀ i, i < concs.length → z.countP (fun s => decide (s.2 = i + 1)) = concs.getD i 0 ∧
    z.countP (fun s => decide (0 ≤ s.1 ∧ s.2 = i + 1)) = arrowCount (concs.getD i 0) (aconcs.getD i 0)

theorem erase_count_arrow (z : Config) (i : ℕ) : (erase z).count (0, i) = z.countP (fun s => decide (0 ≤ s.1 ∧ s.2 = i)) := by
  induction z with
  | nil => rfl
  | cons s z ih =>
    obtain ⟨x, y⟩ := s
    rw [erase_eq, List.map_cons, ← erase_eq, List.count_cons, ih, List.countP_cons]
    congr 1
    unfold erase1
    by_cases hx : x < 0
    · have : ¬ ((x, y) = ((0 : ℤ), i)) := by intro e; rw [Prod.mk.injEq] at e; omega
      have h2 : ¬ (0 ≤ x ∧ y = i) := by omega
      simp [hx, h2]
      intro e; omega
    · by_cases hy : y = i
      · subst hy; simp [hx, not_lt.mp hx]
      · simp [hx, hy]

theorem erase_count_neg (z : Config) (x : ℤ) (hx : x < 0) (i : ℕ) : (erase z).count (x, i) = z.count (x, i) := by
  induction z with
  | nil => rfl
  | cons s z ih =>
    obtain ⟨u, y⟩ := s
    rw [erase_eq, List.map_cons, ← erase_eq, List.count_cons, ih, List.count_cons]
    congr 1
    unfold erase1
    by_cases hu : u < 0
    · simp [hu]
    · have h1 : ¬ (((0 : ℤ), y) = (x, i)) := by intro e; rw [Prod.mk.injEq] at e; omega
      have h2 : ¬ ((u, y) = (x, i)) := by intro e; rw [Prod.mk.injEq] at e; omega
      simp [hu, h1, h2]

theorem erase_count_pos (z : Config) (x : ℤ) (hx : 0 < x) (i : ℕ) : (erase z).count (x, i) = 0 := by
  rw [List.count_eq_zero]
  intro hc
  rw [erase_eq] at hc
  obtain ⟨s, -, e⟩ := List.mem_map.mp hc
  unfold erase1 at e
  split at e
  · rename_i hs
    rw [e] at hs; exact absurd hs (by simp; omega)
  · rw [Prod.mk.injEq] at e; omega

theorem countP_split (z : Config) (h : ∀ s ∈ z, s.1 = -1 ∨ 0 ≤ s.1) (i : ℕ) :
    z.countP (fun s => decide (s.2 = i)) = z.countP (fun s => decide (0 ≤ s.1 ∧ s.2 = i)) + z.count (-1, i) := by
  induction z with
  | nil => rfl
  | cons s z ih =>
    obtain ⟨x, y⟩ := s
    rw [List.countP_cons, List.countP_cons, List.count_cons, ih (fun t ht => h t (by simp [ht]))]
    rcases h (x, y) (by simp) with hx | hx
    · simp only at hx
      subst hx
      by_cases hy : y = i <;> simp [hy] <;> omega
    · simp only at hx
      have : ¬ (x = -1) := by omega
      by_cases hy : y = i <;> simp [hy, hx, this] <;> omega

theorem composed_iff {concs : List ℕ} {aconcs : List ℚ} {d : Config} (hlen : concs.length ≤ aconcs.length) (hd : arrowConcs concs aconcs = .ok d)
    (dim : ℕ) (hdim : 1 ≤ dim) (z : Config) : ((erase z).Perm (erase d) ∧ ∀ s ∈ z, s.1 < dim) ↔ Composed concs aconcs dim z := by
  obtain ⟨d', hd', h1, h2, -⟩ := C40_arrow_concs concs aconcs hlen
  rw [hd] at hd'
  have := Except.ok.inj hd'
  subst this
  have hd1 : ∀ i, (erase d).count (0, i) = d.count (1, i) := by
    intro i
    rw [erase_count_arrow, List.count_eq_countP]
    apply List.countP_congr
    intro s hs
    have := (h1 s hs).1
    obtain ⟨x, y⟩ := s
    simp only at this
    rcases this with e | e <;> subst e <;> simp
  have hd0 : ∀ i, ¬ (1 ≤ i ∧ i ≤ concs.length) → ∀ x, d.count (x, i) = 0 := by
    intro i hi x
    rw [List.count_eq_zero]
    intro hc
    exact hi (h1 _ hc).2
  constructor
  · rintro ⟨hp, hlt⟩
    have hmem : ∀ s ∈ z, (s.1 = -1 ∨ 0 ≤ s.1) ∧ 1 ≤ s.2 ∧ s.2 ≤ concs.length := by
      intro s hs
      have hs' : erase1 s ∈ erase d := hp.mem_iff.mp (by rw [erase_eq]; exact List.mem_map_of_mem hs)
      rw [erase_eq] at hs'
      obtain ⟨t, ht, e⟩ := List.mem_map.mp hs'
      have ht1 := h1 t ht
      have e2 : s.2 = t.2 := by rw [← erase1_snd s, ← e, erase1_snd]
      refine ⟨?_, by rw [e2]; exact ht1.2⟩
      by_cases hneg : s.1 < 0
      · left
        have e1 : erase1 s = s := by unfold erase1; rw [if_pos hneg]
        rw [e1] at e
        have ht0 : t.1 < 0 := by
          rw [← erase1_neg, e]; exact hneg
        have e3 : erase1 t = t := by unfold erase1; rw [if_pos ht0]
        rw [← e, e3]
        rcases ht1.1 with h | h
        · omega
        · exact h
      · right; omega
    refine ⟨?_, fun s hs => (hmem s hs).2, ?_⟩
    · intro s hs
      rcases (hmem s hs).1 with h | h
      · exact Or.inl h
      · exact Or.inr ⟨h, hlt s hs⟩
    · intro i hi
      have ha : z.countP (fun s => decide (0 ≤ s.1 ∧ s.2 = i + 1)) = d.count (1, i + 1) := by
        rw [← erase_count_arrow, hp.count_eq, hd1]
      have hb : z.count (-1, i + 1) = d.count (-1, i + 1) := by
        rw [← erase_count_neg z (-1) (by decide), hp.count_eq, erase_count_neg d (-1) (by decide)]
      refine ⟨?_, by rw [ha]; exact (h2 i hi).1⟩
      rw [countP_split z (fun s hs => (hmem s hs).1), ha, hb]
      exact (h2 i hi).2
  · rintro ⟨ha, hs, hc⟩
    have ha' : ∀ s ∈ z, s.1 = -1 ∨ 0 ≤ s.1 := fun s h => (ha s h).imp id (fun h => h.1)
    refine ⟨?_, fun s h => by rcases ha s h with h | h <;> omega⟩
    rw [List.perm_iff_count]
    rintro ⟨x, y⟩
    by_cases hy : 1 ≤ y ∧ y ≤ concs.length
    · obtain ⟨i, rfl⟩ : ∃ i, y = i + 1 := ⟨y - 1, by omega⟩
      have hi : i < concs.length := by omega
      rcases lt_trichotomy x 0 with hx | hx | hx
      · rw [erase_count_neg _ _ hx, erase_count_neg _ _ hx]
        by_cases hx1 : x = -1
        · subst hx1
          have e1 := countP_split z ha' (i + 1)
          rw [(hc i hi).1, (hc i hi).2] at e1
          have e2 := (h2 i hi).2
          rw [(h2 i hi).1] at e2
          omega
        · have e1 : z.count (x, i + 1) = 0 := by
            rw [List.count_eq_zero]
            intro hm
            rcases ha' _ hm with h | h
            · exact hx1 h
            · simp at h; omega
          have e2 : d.count (x, i + 1) = 0 := by
            rw [List.count_eq_zero]
            intro hm
            rcases (h1 _ hm).1 with h | h
            · simp at h; omega
            · exact hx1 h
          rw [e1, e2]
      · subst hx
        rw [erase_count_arrow, hd1, (hc i hi).2, (h2 i hi).1]
      · rw [erase_count_pos _ _ hx, erase_count_pos _ _ hx]
    · rcases lt_trichotomy x 0 with hx | hx | hx
      · rw [erase_count_neg _ _ hx, erase_count_neg _ _ hx, hd0 y hy, List.count_eq_zero]
        intro hm
        exact hy (hs _ hm)
      · subst hx
        rw [hd1, hd0 y hy, erase_count_arrow, List.countP_eq_zero]
        intro s hm
        simp only [decide_eq_true_eq]
        rintro ⟨-, rfl⟩
        exact hy (hs _ hm)
      · rw [erase_count_pos _ _ hx, erase_count_pos _ _ hx]

/-- C43 with arrows: the same for a group of paired operations on the sites and the six directions. -/
theorem C43_request_arrows (agroup : List Op) (concs : List ℕ) (aconcs : List ℚ) (wanted nB : ℕ) (rnd : EnumRandom)
    (h2 : 2 ≤ concs.length) (hlen : concs.length ≤ aconcs.length)
    (har : ∃ i, i < concs.length ∧ 0 < arrowCount (concs.getD i 0) (aconcs.getD i 0))
    (hG : IsOpGroup concs.sum 6 agroup) (hb : Balanced agroup)
    (hsh : ∀ l, (rnd.shuffle l).Perm l) (hmod : Modest concs wanted) (hmod2 : concs.sum < 12 ∨ 100 < wanted) :
    ∃ L full, enumSys agroup concs aconcs wanted nB true false rnd = some (.ok L) ∧
      (∀ z ∈ L, Composed concs aconcs 6 z) ∧ L.Pairwise (fun z w => ¬ OpEquiv agroup z w) ∧
      IsTransversal (Composed concs aconcs 6) (OpEquiv agroup) full ∧ L.length = delivered wanted full.length := by
  obtain ⟨d, hd, -, -, hdl, -⟩ := C40_arrow_concs concs aconcs hlen
  obtain ⟨huni, hlast, har', -⟩ := C40_decoration_usable concs aconcs d hd hlen
  have hard := har'.mpr har
  have hiff := composed_iff hlen hd 6 (by decide)
  have hGd : IsOpGroup d.length 6 agroup := by rw [hdl]; exact hG
  have hty := howMany_types_pos hard
  obtain ⟨v, hv, hv2⟩ := multinomial_of_modest (by intro e; rw [e] at h2; simp at h2) hmod
  have hlarge : largeSystem v (howManyArrows d).2.1 concs.sum wanted = false := by
    unfold largeSystem
    have e2 : (decide (((howManyArrows d).2.1 : ℤ) ≠ 0) && decide ((concs.sum : ℤ) ≥ 12) && decide ((wanted : ℤ) ≤ 100)) = false := by
      rcases hmod2 with h | h
      · rw [decide_eq_false (show ¬ ((concs.sum : ℤ) ≥ 12) by omega), Bool.and_false, Bool.false_and]
      · rw [decide_eq_false (show ¬ ((wanted : ℤ) ≤ 100) by omega), Bool.and_false]
    rw [hv2, e2]; rfl
  let a : Subset → BArgs := fun s => ⟨(howManyArrows d).2.2, agroup, d, 6, true, concs.sum / nB, s, false, rnd.acceptDraw, rnd.acceptArrow⟩
  have hne : d ≠ [] := by
    obtain ⟨s, hs, -⟩ := hard
    exact List.ne_nil_of_mem hs
  have hstd : ∀ s, StdCall (a s) := fun s => ⟨hne, rfl, rfl, rfl⟩
  obtain ⟨L0, hL0, hp0⟩ := C15_count_arrows (a .none) (hstd _) rfl (show 1 ≤ 6 by decide) hGd hb hard huni hlast
  obtain ⟨L', hL', hM1, hM2, hM3⟩ := C12_one_per_orbit (a .none) (hstd _) rfl (show 1 ≤ 6 by decide) hGd hard huni
  have e := Except.ok.inj (Option.some.inj (hL0.symm.trans hL'))
  subst e
  obtain ⟨L, hbr, hbr2⟩ := brancher_arrows (a (chooseSubset rnd.shuffle wanted (L0.length : ℤ))) (hstd _) (show 1 ≤ 6 by decide) hGd hard huni
  have e := Except.ok.inj (Option.some.inj (hbr2.symm.trans hL0))
  subst e
  obtain ⟨hsub, hdel⟩ := fromFull_choose hsh wanted L
  have hlenz : ∀ z ∈ L, z.length = d.length := by
    intro z hz
    have := (hM2 z hz).1.length_eq
    rw [erase_eq, erase_eq, List.length_map, List.length_map] at this
    exact this
  have hres : enumSys agroup concs aconcs wanted nB true false rnd = some (.ok (fromFull (chooseSubset rnd.shuffle wanted (L.length : ℤ)) L)) := by
    unfold enumSys
    rw [hd]
    simp only [hv, hlarge]
    unfold enumTotal
    have hp0' : polya (howManyArrows d).2.2 agroup (.num (howManyArrows d).2.1) = some (.ok (L.length : ℤ)) := hp0
    simp only [Bool.false_eq_true, if_false, hty, ne_eq, not_false_eq_true, if_true, hp0']
    unfold enumCore
    rw [if_neg (by omega)]
    simp only [Bool.false_and, Bool.false_eq_true, if_false]
    have hbr' : brancher ⟨(howManyArrows d).2.2, agroup, d, 6, true, concs.sum / nB, chooseSubset rnd.shuffle wanted (L.length : ℤ), false, rnd.acceptDraw, rnd.acceptArrow⟩ =
        some (.ok (fromFull (chooseSubset rnd.shuffle wanted (L.length : ℤ)) L)) := hbr
    rw [hbr']
    simp [builtinSuper]
  refine ⟨_, L, hres, ?_, ?_, ⟨hM1, ?_, ?_⟩, hdel⟩
  · intro z hz
    exact (hiff z).mp (hM2 z (hsub.subset hz))
  · apply List.Pairwise.imp_of_mem _ (hsub.nodup hM1)
    intro z w hz hw hne he
    have hz' := hsub.subset hz
    have hw' := hsub.subset hw
    obtain ⟨u, -, hu⟩ := hM3 w (hM2 w hw').1 (hM2 w hw').2
    have e1 := hu z ⟨hz', he⟩
    have e2 := hu w ⟨hw', hGd.opEquiv_refl (hlenz w hw') (hM2 w hw').2⟩
    exact hne (e1.trans e2.symm)
  · exact fun z hz => (hiff z).mp (hM2 z hz)
  · intro z hz
    have := (hiff z).mpr hz
    exact hM3 z this.1 this.2

end Phenum
