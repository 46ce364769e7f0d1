import Verif.Props.ProgramRanges
import Verif.Props.ArrowSuper
/-
C89: the default call of the program when whole species are displaced.
-/
namespace Phenum
open Spec

/-- Each species is displaced as a whole or not at all: the arrow fractions are 0 or 1. -/
def Spec.WholeSpecies (aconcs : List ℚ) : Prop := ∀ x ∈ aconcs, x = 0 ∨ x = 1

/-- `C48_one_per_orbit` for every call that does not select from the branches -/
theorem one_per_orbit_nosub (a : BArgs) (h : ArrowSuperCall a) (hsub : useSubset a = false) (hby : ArrowsBySpecies a.decor) :
    ∃ L, brancher a = some (.ok L) ∧ L.Nodup ∧
      (∀ z ∈ L, (erase z).Perm (erase a.decor) ∧ (∀ s ∈ z, s.1 < a.dim) ∧ ¬ ArrowSuper (a.group.take a.cellsize) z) ∧
      ∀ z : Config, (erase z).Perm (erase a.decor) → (∀ s ∈ z, s.1 < a.dim) → ¬ ArrowSuper (a.group.take a.cellsize) z →
        ∃! w, w ∈ L ∧ OpEquiv a.group w z := by
  obtain ⟨X, hX, hb⟩ := brancher_full h.ne h.pos (group_sum h.concs' h.grp) h.hs h.emOk hsub
  obtain ⟨h1, h2, h3⟩ := flat_orbits h.concs' h.dim h.grp h.uniform.inj hX
  have hL : X.flatMap (keptEms a) = (X.flatMap (arrEms a)).filter (fun z => decide (∀ t ∈ a.group.take a.cellsize, ¬ codeSuper1 z t)) := by
    show X.flatMap (fun x => (arrEms a x).filter _) = _
    rw [List.filter_flatMap]
  refine ⟨_, hb, ?_, ?_, ?_⟩
  · rw [hL]; exact h1.filter _
  · intro z hz
    rw [hL, List.mem_filter, decide_eq_true_eq] at hz
    refine ⟨(h2 z hz.1).1, (h2 z hz.1).2, fun hs => ?_⟩
    obtain ⟨t, ht, hc⟩ := h.code_of_super (h2 z hz.1).1 hs
    exact hz.2 t ht hc
  · intro z hz hlt hsup
    obtain ⟨w, ⟨hw, hwz⟩, hwu⟩ := h3 z hz hlt
    refine ⟨w, ⟨?_, hwz⟩, ?_⟩
    · rw [hL, List.mem_filter, decide_eq_true_eq]
      refine ⟨hw, ?_⟩
      intro t ht hc
      exact hsup (h.super_invariant (h2 w hw).1 (h2 w hw).2 hwz (h.super_of_code hby (h2 w hw).1 ⟨t, ht, hc⟩))
    · rintro v ⟨hv, hvz⟩
      rw [hL] at hv
      exact hwu v ⟨(List.mem_filter.mp hv).1, hvz⟩

/-- operations that do not turn arrows only permute the sites -/
theorem act_trans {t : Op} (ht : t.2 = List.range 6) {z : Config} (hz : ∀ s ∈ z, s.1 < (6 : ℕ)) (hp : t.1.Perm (List.range z.length)) : act t z = permute t.1 z := by
  unfold act
  conv_rhs => rw [← List.map_id (permute t.1 z)]
  apply List.map_congr_left
  intro s hs
  have h6 := hz s ((permute_perm t.1 z hp).mem_iff.mp hs)
  unfold turn
  split
  · rfl
  · next hn =>
    rw [ht]
    refine Prod.ext ?_ rfl
    have : s.1.toNat < 6 := by omega
    simp [List.getD_eq_getElem?_getD, List.getElem?_range this]
    omega

theorem getD_whole {aconcs : List ℚ} (hw : WholeSpecies aconcs) (i : ℕ) : aconcs.getD i 0 = 0 ∨ aconcs.getD i 0 = 1 := by
  by_cases hi : i < aconcs.length
  · rw [getD_lt hi]; exact hw _ (List.getElem_mem hi)
  · left; rw [List.getD_eq_getElem?_getD, List.getElem?_eq_none (by omega)]; rfl

/-- the decoration built for whole species -/
theorem whole_decor {c : List ℕ} {aconcs : List ℚ} (hw : WholeSpecies aconcs) (hlen : c.length ≤ aconcs.length) {d : Config} (hd : arrowConcs c aconcs = .ok d) :
    ArrowsBySpecies d := by
  obtain ⟨d', hd', hm, hcnt, -⟩ := C40_arrow_concs c aconcs hlen
  rw [hd] at hd'
  cases hd'
  have key : ∀ s ∈ d, (s.1 < 0 ↔ aconcs.getD (s.2 - 1) 0 = 0) := by
    rintro ⟨x, y⟩ hs
    obtain ⟨h1, h2, h3⟩ := hm _ hs
    simp only at h1 h2 h3
    obtain ⟨i, rfl⟩ : ∃ i, y = i + 1 := ⟨y - 1, by omega⟩
    obtain ⟨e1, e2⟩ := hcnt i (by omega)
    have hpos := List.count_pos_iff.mpr hs
    simp only [Nat.add_sub_cancel]
    rcases getD_whole hw i with h0 | h0
    · rw [h0, arrowCount_zero] at e1
      rcases h1 with rfl | rfl
      · omega
      · exact ⟨fun _ => h0, fun _ => by decide⟩
    · rw [h0, arrowCount_one] at e1
      rcases h1 with rfl | rfl
      · rw [h0]; exact ⟨fun h => absurd h (by decide), fun h => absurd h one_ne_zero⟩
      · omega
  intro s hs t ht e
  rw [key s hs, key t ht, e]

/-- a request for all structures with displaced species, without the superperiodic ones -/
theorem whole_request {G : List Op} {c : List ℕ} {aconcs : List ℚ} {total nB : ℕ} (rnd : EnumRandom)
    (h2 : 2 ≤ c.length) (hlen : c.length ≤ aconcs.length) (hw : WholeSpecies aconcs)
    (har : ∃ i, i < c.length ∧ 0 < arrowCount (c.getD i 0) (aconcs.getD i 0))
    (hG : IsOpGroup c.sum 6 G) (hb : Balanced G) (ht : HasTranslations c.sum G (c.sum / nB)) (hturn : ∀ t ∈ G.take (c.sum / nB), t.2 = List.range 6)
    (hcount : polyaCount G aconcs c = (pure total : Run ℕ)) (hmod : Modest c total) (hmod2 : c.sum < 12 ∨ 100 < total) :
    ∃ T, enumSys G c aconcs total nB false false rnd = some (.ok T) ∧
      IsTransversal (fun z => Composed c aconcs 6 z ∧ ¬ Superperiodic ((G.take (c.sum / nB)).map (·.1)) z) (OpEquiv G) T := by
  obtain ⟨d, hd, hdm, -, hdl, -⟩ := C40_arrow_concs c aconcs hlen
  obtain ⟨huni, hlast, har', -⟩ := C40_decoration_usable c aconcs d hd hlen
  have hard := har'.mpr har
  have hiff := composed_iff hlen hd 6 (by decide)
  have hGd : IsOpGroup d.length 6 G := by rw [hdl]; exact hG
  have hty := howMany_types_pos hard
  obtain ⟨v, hv, hv2⟩ := multinomial_of_modest (by intro e; rw [e] at h2; simp at h2) hmod
  have hlarge : largeSystem v (howManyArrows d).2.1 c.sum total = false := by
    unfold largeSystem
    have e2 : (decide (((howManyArrows d).2.1 : ℤ) ≠ 0) && decide ((c.sum : ℤ) ≥ 12) && decide ((total : ℤ) ≤ 100)) = false := by
      rcases hmod2 with h | h
      · rw [decide_eq_false (show ¬ ((c.sum : ℤ) ≥ 12) by omega), Bool.and_false, Bool.false_and]
      · rw [decide_eq_false (show ¬ ((total : ℤ) ≤ 100) by omega), Bool.and_false]
    rw [hv2, e2]; rfl
  have hne : d ≠ [] := by
    obtain ⟨s, hs, -⟩ := hard
    exact List.ne_nil_of_mem hs
  -- the count
  have hstd : StdCall ⟨(howManyArrows d).2.2, G, d, 6, true, 0, .none, false, fun _ => true, fun _ _ => true⟩ := ⟨hne, rfl, rfl, rfl⟩
  obtain ⟨L0, hL0, hp0⟩ := C15_count_arrows _ hstd rfl (show 1 ≤ 6 by decide) hGd hb hard huni hlast
  have hp0' : polya (howManyArrows d).2.2 G (.num (howManyArrows d).2.1) = some (.ok (L0.length : ℤ)) := hp0
  have htot : total = L0.length := by
    unfold polyaCount at hcount
    rw [hd, runPy_ok, pure_bind] at hcount
    simp only [hty, ne_eq, not_false_eq_true, true_or, if_true, hp0'] at hcount
    rw [runO_ok, pure_bind] at hcount
    have := run_pure_inj hcount
    simp only [Int.toNat_natCast] at this
    exact this.symm
  subst htot
  have hcs := chooseSubset_all (shuffle := rnd.shuffle) (wanted := L0.length) (total := L0.length) (Or.inr (Or.inl le_rfl))
  let a : BArgs := ⟨(howManyArrows d).2.2, G, d, 6, false, c.sum / nB, chooseSubset rnd.shuffle L0.length (L0.length : ℤ), false, rnd.acceptDraw, rnd.acceptArrow⟩
  have hcall : ArrowSuperCall a :=
    { nonempty := hne
      concs := rfl
      supers := rfl
      accept := rfl
      dim := show 1 ≤ 6 by decide
      grp := hGd
      hasArrow := hard
      uniform := huni
      none := fun s hs hn => by
        rcases (hdm s hs).1 with h | h
        · omega
        · exact h
      trans := hturn
      normal := fun g hg t ht' => by
        obtain ⟨τ, hτ, e⟩ := ht.normal g.1 (List.mem_map_of_mem hg) t.1 (List.mem_map_of_mem ht')
        obtain ⟨t', h', rfl⟩ := List.mem_map.mp hτ
        exact ⟨t', h', e⟩ }
  have hsub : useSubset a = false := by
    unfold useSubset
    rcases hcs with h | h | ⟨k, h⟩ <;> (show (match chooseSubset rnd.shuffle L0.length (L0.length : ℤ) with | .list l => !l.isEmpty | _ => false) = false) <;> rw [h] <;> rfl
  obtain ⟨T, hT, t1, t2, t3⟩ := one_per_orbit_nosub a hcall hsub (whole_decor hw hlen hd)
  have hsup : ∀ z : Config, (erase z).Perm (erase d) → (∀ s ∈ z, s.1 < (6 : ℕ)) →
      (ArrowSuper (G.take (c.sum / nB)) z ↔ Superperiodic ((G.take (c.sum / nB)).map (·.1)) z) := by
    intro z hz hlt
    have hl := erase_len hz
    constructor
    · rintro ⟨t, h1, h2, h3⟩
      refine ⟨t.1, List.mem_map_of_mem h1, h2, ?_⟩
      rwa [act_trans (hturn t h1) hlt (by rw [hl]; exact hGd.sites t (List.mem_of_mem_take h1))] at h3
    · rintro ⟨τ, h0, h2, h3⟩
      obtain ⟨t, h1, rfl⟩ := List.mem_map.mp h0
      refine ⟨t, h1, h2, ?_⟩
      rwa [act_trans (hturn t h1) hlt (by rw [hl]; exact hGd.sites t (List.mem_of_mem_take h1))]
  refine ⟨T, ?_, t1, ?_, ?_⟩
  · unfold enumSys
    rw [hd]
    simp only [hv, hlarge]
    unfold enumTotal
    simp only [Bool.false_eq_true, if_false, hty, ne_eq, not_false_eq_true, if_true, hp0']
    unfold enumCore
    rw [if_neg (by omega)]
    simp only [Bool.false_and, Bool.false_eq_true, if_false]
    have hT' : brancher ⟨(howManyArrows d).2.2, G, d, 6, false, c.sum / nB, chooseSubset rnd.shuffle L0.length (L0.length : ℤ), false, rnd.acceptDraw, rnd.acceptArrow⟩ =
        some (.ok T) := hT
    rw [hT']
    simp [builtinSuper]
  · intro z hz
    obtain ⟨z1, z2, z3⟩ := t2 z hz
    exact ⟨(hiff z).mp ⟨z1, z2⟩, fun h => z3 ((hsup z z1 z2).mpr h)⟩
  · rintro z ⟨z1, z2⟩
    obtain ⟨z3, z4⟩ := (hiff z).mpr z1
    exact t3 z z3 z4 (fun h => z2 ((hsup z z3 z4).mp h))

/-- the count of one system, and the delivery of the structures without a smaller period when whole species are displaced (at most three species) -/
theorem cell_count_whole {c : List ℕ} (h2 : 2 ≤ c.length) (h3 : c.length ≤ 3) (hpos : 1 ≤ c.sum) (aconcs : List ℚ) (hlen : c.length ≤ aconcs.length)
    (hw : WholeSpecies aconcs)
    {G G' : List Op} (hG : IsOpGroup c.sum 6 G) (hnd : G.Nodup) (hG' : IsOpGroup c.sum 6 G') (hnd' : G'.Nodup)
    (hmem : ∀ σ, σ ∈ G.map (·.1) ↔ σ ∈ G'.map (·.1)) (hflag : G' = G ∨ NoArrows aconcs c) {nB n : ℕ} (hn : c.sum / nB = n) (ht : HasTranslations c.sum G' n)
    (hturn : ∀ t ∈ G'.take n, t.2 = List.range 6) :
    ∃ total : ℕ, 1 ≤ total ∧ polyaCount G aconcs c = (pure total : Run ℕ) ∧
      (∃ L, IsTransversal (Composed c aconcs 6) (OpEquiv G) L ∧ L.length = total) ∧
      ∀ (rnd : EnumRandom), Deliverable aconcs c total →
        ∃ T, enumSys G' c aconcs total nB false false rnd = some (.ok T) ∧
          IsTransversal (fun z => Composed c aconcs 6 z ∧ ¬ Superperiodic ((G'.take n).map (·.1)) z) (OpEquiv G') T := by
  by_cases hna : NoArrows aconcs c
  · obtain ⟨total, a1, a2, a3, a4⟩ := cell_count_primitive h2 h3 hpos aconcs hlen hG hnd hG' hnd' hmem hna hn ht
    exact ⟨total, a1, a2, a3, fun rnd hdel => a4 rnd hdel.1⟩
  · have e := hflag.resolve_right hna
    subst e
    obtain ⟨total, a1, a2, a3, -⟩ := cell_count h2 hpos aconcs hlen hG hnd hG' hnd' hmem (Or.inl rfl)
    refine ⟨total, a1, a2, a3, fun rnd hdel => ?_⟩
    have har : ∃ i, i < c.length ∧ 0 < arrowCount (c.getD i 0) (aconcs.getD i 0) := by
      by_contra hne
      apply hna
      intro i hi
      by_contra h0
      exact hne ⟨i, hi, Nat.pos_of_ne_zero h0⟩
    subst hn
    exact whole_request rnd h2 hlen hw har hG' (balanced_of_nodup hnd) ht hturn a2 hdel.1 (hdel.2.resolve_left hna)

end Phenum
