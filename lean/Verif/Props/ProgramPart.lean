import Verif.Props.ProgramArrows
/-
C90: the default call of the program when a part of the atoms of a species is displaced.
-/
namespace Phenum
open Spec

/-- what the default enumeration returns: the structures of a complete list that pass the test of the code -/
theorem part_per_orbit (a : BArgs) (h : ArrowSuperCall a) (hsub : useSubset a = false) :
    ∃ T full, brancher a = some (.ok T) ∧ T.Sublist full ∧ full.Nodup ∧
      (∀ z ∈ full, (erase z).Perm (erase a.decor) ∧ (∀ s ∈ z, s.1 < a.dim) ∧ ¬ ArrowSuper (a.group.take a.cellsize) z) ∧
      (∀ z : Config, (erase z).Perm (erase a.decor) → (∀ s ∈ z, s.1 < a.dim) → ¬ ArrowSuper (a.group.take a.cellsize) z →
        ∃! w, w ∈ full ∧ OpEquiv a.group w z) ∧
      ∀ z ∈ full, z ∈ T ↔ ∀ t ∈ a.group.take a.cellsize, ¬ codeSuper1 z t := by
  classical
  obtain ⟨X, hX, hb⟩ := brancher_full h.ne h.pos (group_sum h.concs' h.grp) h.hs h.emOk hsub
  obtain ⟨h1, h2, h3⟩ := flat_orbits h.concs' h.dim h.grp h.uniform.inj hX
  have hL : X.flatMap (keptEms a) = (X.flatMap (arrEms a)).filter (fun z => decide (∀ t ∈ a.group.take a.cellsize, ¬ codeSuper1 z t)) := by
    show X.flatMap (fun x => (arrEms a x).filter _) = _
    rw [List.filter_flatMap]
  set L0 := X.flatMap (arrEms a) with hL0
  have hmem : ∀ z ∈ L0, (∀ t ∈ a.group.take a.cellsize, ¬ codeSuper1 z t) → ¬ ArrowSuper (a.group.take a.cellsize) z := by
    intro z hz hc hs
    obtain ⟨t, ht, h'⟩ := h.code_of_super (h2 z hz).1 hs
    exact hc t ht h'
  refine ⟨_, L0.filter (fun z => decide (¬ ArrowSuper (a.group.take a.cellsize) z)), hb, ?_, h1.filter _, ?_, ?_, ?_⟩
  · have e : L0.filter (fun z => decide (∀ t ∈ a.group.take a.cellsize, ¬ codeSuper1 z t)) =
        (L0.filter (fun z => decide (¬ ArrowSuper (a.group.take a.cellsize) z))).filter (fun z => decide (∀ t ∈ a.group.take a.cellsize, ¬ codeSuper1 z t)) := by
      rw [List.filter_filter]
      apply List.filter_congr
      intro z hz
      have := hmem z hz
      by_cases hc : ∀ t ∈ a.group.take a.cellsize, ¬ codeSuper1 z t
      · rw [decide_eq_true hc, decide_eq_true (this hc)]; rfl
      · rw [decide_eq_false hc]; rfl
    rw [hL, e]
    exact List.filter_sublist
  · intro z hz
    rw [List.mem_filter, decide_eq_true_eq] at hz
    exact ⟨(h2 z hz.1).1, (h2 z hz.1).2, hz.2⟩
  · intro z hz hlt hsup
    obtain ⟨w, ⟨hw, hwz⟩, hwu⟩ := h3 z hz hlt
    refine ⟨w, ⟨?_, hwz⟩, ?_⟩
    · rw [List.mem_filter, decide_eq_true_eq]
      exact ⟨hw, fun hs => hsup (h.super_invariant (h2 w hw).1 (h2 w hw).2 hwz hs)⟩
    · rintro v ⟨hv, hvz⟩
      exact hwu v ⟨(List.mem_filter.mp hv).1, hvz⟩
  · intro z hz
    rw [List.mem_filter] at hz
    rw [hL, List.mem_filter, decide_eq_true_eq]
    exact ⟨fun h => h.2, fun h => ⟨hz.1, h⟩⟩

/-- a request for all structures with displaced atoms, without the superperiodic ones: a part of the structures is delivered -/
theorem part_request {G : List Op} {c : List ℕ} {aconcs : List ℚ} {total nB : ℕ} (rnd : EnumRandom)
    (h2 : 2 ≤ c.length) (hlen : c.length ≤ aconcs.length)
    (har : ∃ i, i < c.length ∧ 0 < arrowCount (c.getD i 0) (aconcs.getD i 0))
    (hG : IsOpGroup c.sum 6 G) (hb : Balanced G) (ht : HasTranslations c.sum G (c.sum / nB)) (hturn : ∀ t ∈ G.take (c.sum / nB), t.2 = List.range 6)
    (hcount : polyaCount G aconcs c = (pure total : Run ℕ)) (hmod : Modest c total) (hmod2 : c.sum < 12 ∨ 100 < total) :
    ∃ T full : List Config, enumSys G c aconcs total nB false false rnd = some (.ok T) ∧ T.Sublist full ∧
      IsTransversal (fun z => Composed c aconcs 6 z ∧ ¬ Superperiodic ((G.take (c.sum / nB)).map (·.1)) z) (OpEquiv G) full ∧
      ∀ z ∈ full, z ∈ T ↔ ∀ t ∈ G.take (c.sum / nB), ¬ codeSuper1 z t := by
  obtain ⟨d, hd, hdm, -, hdl, -⟩ := C40_arrow_concs c aconcs hlen
  obtain ⟨huni, hlast, har', -⟩ := C40_decoration_usable c aconcs d hd hlen
  have hard := har'.mpr har
  have hiff := composed_iff hlen hd 6 (by decide)
  have hGd : IsOpGroup d.length 6 G := by rw [hdl]; exact hG
  have hty := howMany_types_pos hard
  obtain ⟨v, hv, hv2⟩ := multinomial_of_modest (by intro e; rw [e] at h2; simp at h2) hmod
  have hlarge : largeSystem v (howManyArrows d).2.1 c.sum total = false := by
    unfold largeSystem
    have e2 : (decide (((howManyArrows d).2.1 : ℤ) ≠ 0) && decide ((c.sum : ℤ) ≥ 12) && decide ((total : ℤ) ≤ 100)) = false := by
      rcases hmod2 with h | h
      · rw [decide_eq_false (show ¬ ((c.sum : ℤ) ≥ 12) by omega), Bool.and_false, Bool.false_and]
      · rw [decide_eq_false (show ¬ ((total : ℤ) ≤ 100) by omega), Bool.and_false]
    rw [hv2, e2]; rfl
  have hne : d ≠ [] := by
    obtain ⟨s, hs, -⟩ := hard
    exact List.ne_nil_of_mem hs
  -- the count
  have hstd : StdCall ⟨(howManyArrows d).2.2, G, d, 6, true, 0, .none, false, fun _ => true, fun _ _ => true⟩ := ⟨hne, rfl, rfl, rfl⟩
  obtain ⟨L0, hL0, hp0⟩ := C15_count_arrows _ hstd rfl (show 1 ≤ 6 by decide) hGd hb hard huni hlast
  have hp0' : polya (howManyArrows d).2.2 G (.num (howManyArrows d).2.1) = some (.ok (L0.length : ℤ)) := hp0
  have htot : total = L0.length := by
    unfold polyaCount at hcount
    rw [hd, runPy_ok, pure_bind] at hcount
    simp only [hty, ne_eq, not_false_eq_true, true_or, if_true, hp0'] at hcount
    rw [runO_ok, pure_bind] at hcount
    have := run_pure_inj hcount
    simp only [Int.toNat_natCast] at this
    exact this.symm
  subst htot
  have hcs := chooseSubset_all (shuffle := rnd.shuffle) (wanted := L0.length) (total := L0.length) (Or.inr (Or.inl le_rfl))
  let a : BArgs := ⟨(howManyArrows d).2.2, G, d, 6, false, c.sum / nB, chooseSubset rnd.shuffle L0.length (L0.length : ℤ), false, rnd.acceptDraw, rnd.acceptArrow⟩
  have hcall : ArrowSuperCall a :=
    { nonempty := hne
      concs := rfl
      supers := rfl
      accept := rfl
      dim := show 1 ≤ 6 by decide
      grp := hGd
      hasArrow := hard
      uniform := huni
      none := fun s hs hn => by
        rcases (hdm s hs).1 with h | h
        · omega
        · exact h
      trans := hturn
      normal := fun g hg t ht' => by
        obtain ⟨τ, hτ, e⟩ := ht.normal g.1 (List.mem_map_of_mem hg) t.1 (List.mem_map_of_mem ht')
        obtain ⟨t', h', rfl⟩ := List.mem_map.mp hτ
        exact ⟨t', h', e⟩ }
  have hsub : useSubset a = false := by
    unfold useSubset
    rcases hcs with h | h | ⟨k, h⟩ <;> (show (match chooseSubset rnd.shuffle L0.length (L0.length : ℤ) with | .list l => !l.isEmpty | _ => false) = false) <;> rw [h] <;> rfl
  obtain ⟨T, full, hT, t0, t1, t2, t3, t4⟩ := part_per_orbit a hcall hsub
  have hsup : ∀ z : Config, (erase z).Perm (erase d) → (∀ s ∈ z, s.1 < (6 : ℕ)) →
      (ArrowSuper (G.take (c.sum / nB)) z ↔ Superperiodic ((G.take (c.sum / nB)).map (·.1)) z) := by
    intro z hz hlt
    have hl := erase_len hz
    constructor
    · rintro ⟨t, h1, h2, h3⟩
      refine ⟨t.1, List.mem_map_of_mem h1, h2, ?_⟩
      rwa [act_trans (hturn t h1) hlt (by rw [hl]; exact hGd.sites t (List.mem_of_mem_take h1))] at h3
    · rintro ⟨τ, h0, h2, h3⟩
      obtain ⟨t, h1, rfl⟩ := List.mem_map.mp h0
      refine ⟨t, h1, h2, ?_⟩
      rwa [act_trans (hturn t h1) hlt (by rw [hl]; exact hGd.sites t (List.mem_of_mem_take h1))]
  refine ⟨T, full, ?_, t0, ⟨t1, ?_, ?_⟩, t4⟩
  · unfold enumSys
    rw [hd]
    simp only [hv, hlarge]
    unfold enumTotal
    simp only [Bool.false_eq_true, if_false, hty, ne_eq, not_false_eq_true, if_true, hp0']
    unfold enumCore
    rw [if_neg (by omega)]
    simp only [Bool.false_and, Bool.false_eq_true, if_false]
    have hT' : brancher ⟨(howManyArrows d).2.2, G, d, 6, false, c.sum / nB, chooseSubset rnd.shuffle L0.length (L0.length : ℤ), false, rnd.acceptDraw, rnd.acceptArrow⟩ =
        some (.ok T) := hT
    rw [hT']
    simp [builtinSuper]
  · intro z hz
    obtain ⟨z1, z2, z3⟩ := t2 z hz
    exact ⟨(hiff z).mp ⟨z1, z2⟩, fun h => z3 ((hsup z z1 z2).mpr h)⟩
  · rintro z ⟨z1, z2⟩
    obtain ⟨z3, z4⟩ := (hiff z).mpr z1
    exact t3 z z3 z4 (fun h => z2 ((hsup z z3 z4).mp h))

/-- the count of one system, and the delivery of a part of the structures without a smaller period (at most three species) -/
theorem cell_count_part {c : List ℕ} (h2 : 2 ≤ c.length) (h3 : c.length ≤ 3) (hpos : 1 ≤ c.sum) (aconcs : List ℚ) (hlen : c.length ≤ aconcs.length)
    {G G' : List Op} (hG : IsOpGroup c.sum 6 G) (hnd : G.Nodup) (hG' : IsOpGroup c.sum 6 G') (hnd' : G'.Nodup)
    (hmem : ∀ σ, σ ∈ G.map (·.1) ↔ σ ∈ G'.map (·.1)) (hflag : G' = G ∨ NoArrows aconcs c) {nB n : ℕ} (hn : c.sum / nB = n) (ht : HasTranslations c.sum G' n)
    (hturn : ∀ t ∈ G'.take n, t.2 = List.range 6) :
    ∃ total : ℕ, 1 ≤ total ∧ polyaCount G aconcs c = (pure total : Run ℕ) ∧
      (∃ L, IsTransversal (Composed c aconcs 6) (OpEquiv G) L ∧ L.length = total) ∧
      ∀ (rnd : EnumRandom), Deliverable aconcs c total →
        ∃ T full : List Config, enumSys G' c aconcs total nB false false rnd = some (.ok T) ∧ T.Sublist full ∧
          IsTransversal (fun z => Composed c aconcs 6 z ∧ ¬ Superperiodic ((G'.take n).map (·.1)) z) (OpEquiv G') full ∧
          (∀ z ∈ full, (∀ t ∈ G'.take n, ¬ codeSuper1 z t) → z ∈ T) ∧ (NoArrows aconcs c ∨ ∀ z ∈ T, ∀ t ∈ G'.take n, ¬ codeSuper1 z t) := by
  by_cases hna : NoArrows aconcs c
  · obtain ⟨total, a1, a2, a3, a4⟩ := cell_count_primitive h2 h3 hpos aconcs hlen hG hnd hG' hnd' hmem hna hn ht
    refine ⟨total, a1, a2, a3, fun rnd hdel => ?_⟩
    obtain ⟨T, t1, t2⟩ := a4 rnd hdel.1
    exact ⟨T, T, t1, List.Sublist.refl _, t2, fun z hz _ => hz, Or.inl hna⟩
  · have e := hflag.resolve_right hna
    subst e
    obtain ⟨total, a1, a2, a3, -⟩ := cell_count h2 hpos aconcs hlen hG hnd hG' hnd' hmem (Or.inl rfl)
    refine ⟨total, a1, a2, a3, fun rnd hdel => ?_⟩
    have har : ∃ i, i < c.length ∧ 0 < arrowCount (c.getD i 0) (aconcs.getD i 0) := by
      by_contra hne
      apply hna
      intro i hi
      by_contra h0
      exact hne ⟨i, hi, Nat.pos_of_ne_zero h0⟩
    subst hn
    obtain ⟨T, full, t1, t2, t3, t4⟩ := part_request rnd h2 hlen har hG' (balanced_of_nodup hnd) ht hturn a2 hdel.1 (hdel.2.resolve_left hna)
    exact ⟨T, full, t1, t2, t3, fun z hz hc => (t4 z hz).mpr hc, Or.inr (fun z hz => (t4 z (t2.subset hz)).mp hz)⟩

/-! ## rows -/

/-- the species of a structure, without the displacements -/
def Spec.speciesOnly (χ : Decoration) : Decoration := fun x => ((χ x).1, 0)

/-- all displaced atoms are displaced in the same direction -/
def Spec.OneDirection (S : Set (Fin 3 → ℝ)) (χ : Decoration) : Prop := ∃ v, ∀ x ∈ S, (χ x).2 = 0 ∨ (χ x).2 = v

theorem speciesOnly_draws {S L : Set V3} {N : ℕ} {pos : ℕ → V3} {z : Config} {ψ : Decoration} (hd : Draws S L N pos z ψ) :
    Draws S L N pos (z.map (fun s => (-1, s.2))) (speciesOnly ψ) := by
  refine ⟨by rw [List.length_map]; exact hd.1, fun x hx k hk hm => ?_⟩
  obtain ⟨p, h1, h2⟩ := hd.2 x hx k hk hm
  refine ⟨(-1, p.2), by rw [List.getElem?_map, h1]; rfl, ?_⟩
  unfold speciesOnly
  rw [h2]
  rfl

theorem speciesOnly_same {Λ : Set V3} {bas : List V3} {L L' : Set V3} {χ ψ : Decoration} (h : SameStructure Λ bas L χ L' ψ) :
    SameStructure Λ bas L (speciesOnly χ) L' (speciesOnly ψ) := by
  obtain ⟨R, s, hs, hRL, hx⟩ := h
  refine ⟨R, s, hs, hRL, fun x hxs => ?_⟩
  unfold speciesOnly
  rw [hx x hxs, Matrix.mulVec_zero]

theorem noFurther_of_species {Λ S L : Set V3} {χ : Decoration} (h : NoFurtherPeriod Λ S L (speciesOnly χ)) : NoFurtherPeriod Λ S L χ := by
  intro t ht hper
  refine h t ht (fun x hx => ?_)
  unfold speciesOnly
  rw [hper x hx]

theorem oneDirection_same {Λ : Set V3} {bas : List V3} {L L' : Set V3} {χ ψ : Decoration} (h : SameStructure Λ bas L χ L' ψ)
    (h1 : OneDirection (CrystalSites Λ bas) χ) : OneDirection (CrystalSites Λ bas) ψ := by
  obtain ⟨R, s, hs, hRL, hx⟩ := h
  obtain ⟨v, hv⟩ := h1
  refine ⟨R.mulVec v, fun y hy => ?_⟩
  have e := hx _ (sites_unmove hs hy)
  rw [move_unmove hs.orth] at e
  rw [e]
  rcases hv _ (sites_unmove hs hy) with h0 | h0
  · left; simp only [h0, Matrix.mulVec_zero]
  · right; simp only [h0]

theorem permute_species (σ : List ℕ) (z : Config) : permute σ (z.map (·.2)) = z.map (·.2) ↔
    permute σ (z.map (fun s => ((-1 : ℤ), s.2))) = z.map (fun s => ((-1 : ℤ), s.2)) := by
  have e : z.map (fun s => ((-1 : ℤ), s.2)) = (z.map (·.2)).map (fun m => ((-1 : ℤ), m)) := by rw [List.map_map]; rfl
  rw [e]
  generalize z.map (·.2) = l
  rw [permute_map]
  constructor
  · intro h; rw [h]
  · intro h
    have := congrArg (List.map (fun p : ℤ × ℕ => p.2)) h
    simpa [List.map_map, Function.comp_def] using this

/-- translations only permute the sites: what the code tests when nothing is turned -/
theorem codeSuper_trans {t : Op} (ht : t.2 = List.range 6) {z : Config} (hz : ∀ s ∈ z, s.1 < (6 : ℕ)) (hp : t.1.Perm (List.range z.length)) :
    codeSuper1 z t ↔ t.1 ≠ List.range z.length ∧ permute t.1 (z.map (fun s => ((-1 : ℤ), s.2))) = z.map (fun s => ((-1 : ℤ), s.2)) ∧ arr (permute t.1 z) = arr z := by
  unfold codeSuper1
  rw [act_trans ht hz hp, permute_species, ht, List.length_range, hp.length_eq, List.length_range]
  simp

/-- the arrows of a labelling that displaces all atoms in one direction -/
theorem arr_one {S L : Set V3} (hL : IsSub L) {N : ℕ} {pos : ℕ → V3} (hp : IsNumbering S L N pos) {z : Config} (hz : ∀ p ∈ z, WfEntry true p) {ψ : Decoration}
    (hd : Draws S L N pos z ψ) (h1 : OneDirection S ψ) : ∃ k, ∀ m ∈ arr z, m = k := by
  obtain ⟨v, hv⟩ := h1
  have key : ∀ p ∈ z, 0 ≤ p.1 → arrowDir p.1.toNat = v ∧ p.1 < 6 := by
    intro p hpm h0
    obtain ⟨k, hk, rfl⟩ := List.getElem_of_mem hpm
    rw [hd.1] at hk
    obtain ⟨q, e1, e2⟩ := hd.2 _ (hp.site k hk) k hk (by rw [sub_self]; exact hL.zero)
    rw [List.getElem?_eq_getElem (by rw [hd.1]; exact hk), Option.some.injEq] at e1
    subst e1
    have h6 : z[k].1 < 6 := by
      rcases hz _ hpm with h | h
      · omega
      · exact h.2.2
    refine ⟨?_, h6⟩
    have := hv _ (hp.site k hk)
    rw [e2] at this
    unfold siteValue at this
    simp only [if_neg (not_lt.mpr h0)] at this
    exact this.resolve_left (arrowDir_ne_zero (by omega))
  by_cases hne : ∃ p ∈ z, 0 ≤ p.1
  · obtain ⟨p, hp1, hp2⟩ := hne
    refine ⟨p.1.toNat, fun m hm => ?_⟩
    obtain ⟨q, hq, e⟩ := List.mem_filterMap.mp hm
    split at e
    · exact absurd e (by simp)
    · next h0 =>
      rw [Option.some.injEq] at e
      subst e
      obtain ⟨a1, a2⟩ := key p hp1 hp2
      obtain ⟨b1, b2⟩ := key q hq (by omega)
      exact arrowVec_inj (by omega) (by omega) (b1.trans a1.symm)
  · refine ⟨0, fun m hm => ?_⟩
    obtain ⟨q, hq, e⟩ := List.mem_filterMap.mp hm
    split at e
    · exact absurd e (by simp)
    · next h0 => exact absurd ⟨q, hq, by omega⟩ hne

theorem arr_permute_one {σ : List ℕ} {z : Config} (hp : σ.Perm (List.range z.length)) {k : ℕ} (h : ∀ m ∈ arr z, m = k) : arr (permute σ z) = arr z := by
  have hperm : (arr (permute σ z)).Perm (arr z) := (permute_perm σ z hp).filterMap _
  have e1 : arr z = List.replicate (arr z).length k := List.eq_replicate_iff.mpr ⟨rfl, h⟩
  have e2 : arr (permute σ z) = List.replicate (arr (permute σ z)).length k := List.eq_replicate_iff.mpr ⟨rfl, fun m hm => h m (hperm.mem_iff.mp hm)⟩
  rw [e2, hperm.length_eq, ← e1]

/-- The rows written when the test of the code leaves out structures: every structure whose species have no further period is described by exactly one
row, no structure by two, and a structure whose species have a further period and whose displaced atoms move in one direction by none. -/
theorem rows_part {P : M3 ℝ} {bas : List V3} {flag : Bool} (hu : Usable P bas bas flag) {lo hi k : ℕ} (hlo : 1 ≤ lo) (hk : k ≤ 10) {aconcs : List ℚ}
    (hka : k ≤ aconcs.length) {eps : ℝ} (U : ℕ → List (M3 ℤ)) (C : ℕ → List Conc) (G G' : ℕ → M3 ℤ → List Op) (snf : ℕ → M3 ℤ → SnfState)
    (hU : ∀ n, lo ≤ n → n ≤ hi → (U n).Nodup ∧ (∀ u ∈ U n, u ∈ findAllHNFs n) ∧
      ∀ M : M3 ℤ, M.det = n ∨ M.det = -n → ∃! u, u ∈ U n ∧ ∃ R s, PSym (ColLattice P.transpose) bas R s ∧ R.mulVec '' SupLat P M = SupLat P u)
    (hG : ∀ n, lo ≤ n → n ≤ hi → ∀ u ∈ U n, CellData P bas n eps flag u (G n u) (G' n u) (snf n u))
    (hC : ∀ n, lo ≤ n → n ≤ hi → (C n).Nodup ∧ ∀ c ∈ C n, c.length = k ∧ c.sum = bas.length * n ∧
      (flag = true ∨ ∀ i, i < c.length → arrowCount (c.getD i 0) (aconcs.getD i 0) = 0))
    (K : List (ℕ × M3 ℤ × Conc)) (hK : K.Nodup) (hKm : ∀ n u c, (n, u, c) ∈ K ↔ lo ≤ n ∧ n ≤ hi ∧ u ∈ U n ∧ c ∈ C n)
    (T full : ℕ × M3 ℤ × Conc → List Config)
    (hsubl : ∀ n u c, (n, u, c) ∈ K → (T (n, u, c)).Sublist (full (n, u, c)))
    (hfull : ∀ n u c, (n, u, c) ∈ K → IsTransversal (fun z => Composed c aconcs 6 z ∧ ¬ Superperiodic (((G' n u).take n).map (·.1)) z) (OpEquiv (G' n u)) (full (n, u, c)))
    (hin : ∀ n u c, (n, u, c) ∈ K → ∀ z ∈ full (n, u, c), (∀ t ∈ (G' n u).take n, ¬ codeSuper1 z t) → z ∈ T (n, u, c))
    (hout : ∀ n u c, (n, u, c) ∈ K → NoArrows aconcs c ∨ ∀ z ∈ T (n, u, c), ∀ t ∈ (G' n u).take n, ¬ codeSuper1 z t) :
    (K.flatMap (fun x => (T x).map (enumEntry (hnfNumbers x.2.1) (snf x.1 x.2.1)))).Nodup ∧
    (∀ row ∈ K.flatMap (fun x => (T x).map (enumEntry (hnfNumbers x.2.1) (snf x.1 x.2.1))), ∃ n, lo ≤ n ∧ n ≤ hi ∧ row.size = n ∧ ∃ c ∈ C n,
      ∃ ψ, RowDescribes P bas row ψ ∧ PeriodicOn (CrystalSites (ColLattice P.transpose) bas) (rowLattice P row) ψ ∧
        HasContents (CrystalSites (ColLattice P.transpose) bas) (rowLattice P row) (bas.length * n) (Composed c aconcs 6) ψ ∧
        NoFurtherPeriod (ColLattice P.transpose) (CrystalSites (ColLattice P.transpose) bas) (rowLattice P row) ψ) ∧
    (∀ (n : ℕ) (M : M3 ℤ), lo ≤ n → n ≤ hi → M.det = n ∨ M.det = -n → ∀ χ, ∀ c ∈ C n,
      HasContents (CrystalSites (ColLattice P.transpose) bas) (SupLat P M) (bas.length * n) (Composed c aconcs 6) χ →
      NoFurtherPeriod (ColLattice P.transpose) (CrystalSites (ColLattice P.transpose) bas) (SupLat P M) (speciesOnly χ) →
      ∃! row, row ∈ K.flatMap (fun x => (T x).map (enumEntry (hnfNumbers x.2.1) (snf x.1 x.2.1))) ∧
        ∃ ψ, RowDescribes P bas row ψ ∧ SameStructure (ColLattice P.transpose) bas (SupLat P M) χ (rowLattice P row) ψ) ∧
    (∀ (n : ℕ) (M : M3 ℤ), lo ≤ n → n ≤ hi → M.det = n ∨ M.det = -n → ∀ χ, ∀ c ∈ C n,
      HasContents (CrystalSites (ColLattice P.transpose) bas) (SupLat P M) (bas.length * n) (Composed c aconcs 6) χ →
      NoFurtherPeriod (ColLattice P.transpose) (CrystalSites (ColLattice P.transpose) bas) (SupLat P M) χ →
      ∀ row ∈ K.flatMap (fun x => (T x).map (enumEntry (hnfNumbers x.2.1) (snf x.1 x.2.1))), ∀ row' ∈ K.flatMap (fun x => (T x).map (enumEntry (hnfNumbers x.2.1) (snf x.1 x.2.1))),
        (∃ ψ, RowDescribes P bas row ψ ∧ SameStructure (ColLattice P.transpose) bas (SupLat P M) χ (rowLattice P row) ψ) →
        (∃ ψ, RowDescribes P bas row' ψ ∧ SameStructure (ColLattice P.transpose) bas (SupLat P M) χ (rowLattice P row') ψ) → row = row') ∧
    ∀ (M : M3 ℤ) χ, NoFurtherPeriod (ColLattice P.transpose) (CrystalSites (ColLattice P.transpose) bas) (SupLat P M) χ →
      OneDirection (CrystalSites (ColLattice P.transpose) bas) χ →
      ¬ NoFurtherPeriod (ColLattice P.transpose) (CrystalSites (ColLattice P.transpose) bas) (SupLat P M) (speciesOnly χ) →
      ∀ row ∈ K.flatMap (fun x => (T x).map (enumEntry (hnfNumbers x.2.1) (snf x.1 x.2.1))),
        ¬ ∃ ψ, RowDescribes P bas row ψ ∧ SameStructure (ColLattice P.transpose) bas (SupLat P M) χ (rowLattice P row) ψ := by
  classical
  have hΛ := colLat_isSub P.transpose
  have hbas : 0 < bas.length := List.length_pos_iff.mpr hu.nonempty
  set pos : ℕ → M3 ℤ → ℕ → V3 := fun n u => sitePos (castM (snf n u).A * P.transpose⁻¹)⁻¹ (fun i => (snf n u).M i i) bas n with hpos
  have hwf : ∀ n u c, (n, u, c) ∈ K → ∀ z, Composed c aconcs 6 z → (∀ p ∈ z, WfEntry true p) ∧ z.length = bas.length * n ∧ (∀ p ∈ z, Writable p) := by
    intro n u c hm z hz
    obtain ⟨h1, h2, h3, h4⟩ := (hKm n u c).mp hm
    obtain ⟨c1, c2, c3⟩ := (hC n h1 h2).2 c h4
    have hcc := composed_contents' (aconcs := aconcs) (by omega) c3
    refine ⟨fun p hp => WfEntry.mono (hcc.entries z hz p hp), ?_, composed_writable (by omega) hz⟩
    rw [hcc.length z hz, c2]
  -- what the code's test says about the structure
  have htest : ∀ n u c, (n, u, c) ∈ K → ∀ z, Composed c aconcs 6 z → ∀ t ∈ (G' n u).take n,
      (codeSuper1 z t ↔ t.1 ≠ List.range z.length ∧ permute t.1 (z.map (fun s => ((-1 : ℤ), s.2))) = z.map (fun s => ((-1 : ℤ), s.2)) ∧ arr (permute t.1 z) = arr z) ∧
      t.1.Perm (List.range z.length) := by
    intro n u c hm z hz t ht
    obtain ⟨h1, h2, h3, h4⟩ := (hKm n u c).mp hm
    have hd := hG n h1 h2 u h3
    have hp : t.1.Perm (List.range z.length) := by
      rw [(hwf n u c hm z hz).2.1]
      exact hd.isGroup'.sites t (List.mem_of_mem_take ht)
    exact ⟨codeSuper_trans ((hd.trans' t).mp ht).1 (composed_lt hz) hp, hp⟩
  have hspec : ∀ n u c, (n, u, c) ∈ K → ∀ z, Composed c aconcs 6 z → ∀ ψ, Draws (CrystalSites (ColLattice P.transpose) bas) (SupLat P u) (bas.length * n) (pos n u) z ψ →
      (NoFurtherPeriod (ColLattice P.transpose) (CrystalSites (ColLattice P.transpose) bas) (SupLat P u) (speciesOnly ψ) ↔
        ¬ Superperiodic (((G' n u).take n).map (·.1)) (z.map (fun s => ((-1 : ℤ), s.2)))) := by
    intro n u c hm z hz ψ hd
    obtain ⟨h1, h2, h3, h4⟩ := (hKm n u c).mp hm
    have hcd := hG n h1 h2 u h3
    refine primitive_iff hΛ (colLat_isSub _) (Nat.mul_pos hbas (by omega)) hcd.number ?_ (speciesOnly_draws hd) _ ?_
    · intro p hp
      obtain ⟨s, -, rfl⟩ := List.mem_map.mp hp
      exact Or.inl rfl
    · intro σ
      constructor
      · intro h
        obtain ⟨t, ht, rfl⟩ := List.mem_map.mp h
        exact ((hcd.trans' t).mp ht).2
      · intro h
        exact List.mem_map.mpr ⟨(σ, List.range 6), (hcd.trans' _).mpr ⟨rfl, h⟩, rfl⟩
  have hponce : ∀ n, lo ≤ n → n ≤ hi → ∀ c ∈ C n, _ := fun n h1 h2 c hc =>
    primitive_once hu (n := n) (by omega) (U := U n) (G := G' n) (pos := fun u => sitePos (castM (snf n u).A * P.transpose⁻¹)⁻¹ (fun i => (snf n u).M i i) bas n) (latDim := 3) (eps := eps)
        (Rest := fun _ => True) (hU n h1 h2).2.2 (fun u hm => ⟨(hG n h1 h2 u hm).group', (hG n h1 h2 u hm).number, (hG n h1 h2 u hm).mem',
          (hG n h1 h2 u hm).isGroup', (hG n h1 h2 u hm).trans', trivial⟩)
        (Q := Composed c aconcs 6) (by
          obtain ⟨c1, c2, c3⟩ := (hC n h1 h2).2 c hc
          rw [← c2]; exact composed_contents' (by omega) c3)
        (T := fun u => full (n, u, c)) (fun u hm => hfull n u c ((hKm n u c).mpr ⟨h1, h2, hm, hc⟩))
  obtain ⟨r1, r2, r3⟩ := rows_once_gen hu hlo hk hka (eps := eps) U C G G' snf hU hG hC K hK hKm T
    (fun L ψ => NoFurtherPeriod (ColLattice P.transpose) (CrystalSites (ColLattice P.transpose) bas) L ψ)
    (fun n M χ => NoFurtherPeriod (ColLattice P.transpose) (CrystalSites (ColLattice P.transpose) bas) (SupLat P M) (speciesOnly χ))
    (fun n u c hx => ⟨(hsubl n u c hx).nodup (hfull n u c hx).nodup, fun z hz => ⟨((hfull n u c hx).mem z ((hsubl n u c hx).subset hz)).1, fun ψ hd => by
      obtain ⟨h1, h2, hm, hc⟩ := (hKm n u c).mp hx
      exact (hponce n h1 h2 c hc).1 u hm z ((hsubl n u c hx).subset hz) ψ hd⟩⟩)
    (fun n M h1 h2 hM χ hD c hc hcχ => by
      obtain ⟨⟨u, z⟩, ⟨hm, hz, ψ, hper, hd, hs⟩, hun⟩ := (hponce n h1 h2 c hc).2 M hM χ (noFurther_of_species hD) hcχ
      simp only at hm hz hper hd hs
      have hx : (n, u, c) ∈ K := (hKm n u c).mpr ⟨h1, h2, hm, hc⟩
      refine ⟨(u, z), ⟨hm, ?_, ψ, hper, hd, hs⟩, ?_⟩
      · apply hin n u c hx z hz
        intro t ht hc'
        have hzc := ((hfull n u c hx).mem z hz).1
        obtain ⟨e1, e2, -⟩ := (htest n u c hx z hzc t ht).1.mp hc'
        have hns := (hspec n u c hx z hzc ψ hd).mp (same_primitive (speciesOnly_same hs) hΛ hD)
        exact hns ⟨t.1, List.mem_map_of_mem ht, by rw [List.length_map]; exact e1, e2⟩
      · rintro ⟨u', z'⟩ ⟨hm', hz', h'⟩
        exact hun (u', z') ⟨hm', (hsubl n u' c ((hKm n u' c).mpr ⟨h1, h2, hm', hc⟩)).subset hz', h'⟩)
  obtain ⟨-, -, p3⟩ := rows_primitive hu hlo hk hka (eps := eps) U C G G' snf hU hG hC K hK hKm full hfull
  have hrsub : ∀ row ∈ K.flatMap (fun x => (T x).map (enumEntry (hnfNumbers x.2.1) (snf x.1 x.2.1))),
      row ∈ K.flatMap (fun x => (full x).map (enumEntry (hnfNumbers x.2.1) (snf x.1 x.2.1))) := by
    intro row hrow
    obtain ⟨⟨n, u, c⟩, hx, hr⟩ := List.mem_flatMap.mp hrow
    obtain ⟨z, hz, rfl⟩ := List.mem_map.mp hr
    exact List.mem_flatMap.mpr ⟨(n, u, c), hx, List.mem_map_of_mem ((hsubl n u c hx).subset hz)⟩
  refine ⟨r1, r2, fun n M h1 h2 hM χ c hc hcχ hD => r3 n M h1 h2 hM χ hD c hc hcχ, ?_, ?_⟩
  · intro n M h1 h2 hM χ c hc hcχ hp row hrow row' hrow' hψ hψ'
    exact (p3 n M h1 h2 hM χ hp c hc hcχ).unique ⟨hrsub row hrow, hψ⟩ ⟨hrsub row' hrow', hψ'⟩
  · rintro M χ hp hone hsp row hrow ⟨ψ, hdesc, hs⟩
    obtain ⟨⟨n, u, c⟩, hx, hr⟩ := List.mem_flatMap.mp hrow
    obtain ⟨z, hz, rfl⟩ := List.mem_map.mp hr
    simp only at hdesc hs
    obtain ⟨h1, h2, h3, h4⟩ := (hKm n u c).mp hx
    have hcd := hG n h1 h2 u h3
    have hun : u ∈ findAllHNFs n := (hU n h1 h2).2.1 u h3
    have hzf := (hsubl n u c hx).subset hz
    obtain ⟨hzc, hzs⟩ := (hfull n u c hx).mem z hzf
    obtain ⟨w1, w2, w3⟩ := hwf n u c hx z hzc
    rw [rowLattice_entry (by omega) hun P _ z] at hs
    have hd := (row_describes hu.det (findAll_det (by omega) hun) hcd.smith hcd.number w2 w3 _ ψ).mp hdesc
    have hsup : Superperiodic (((G' n u).take n).map (·.1)) (z.map (fun s => ((-1 : ℤ), s.2))) := by
      by_contra hns
      exact hsp (same_primitive (same_symm (speciesOnly_same hs)) hΛ ((hspec n u c hx z hzc ψ hd).mpr hns))
    obtain ⟨σ, hσ, hne, hfix⟩ := hsup
    obtain ⟨t, ht, rfl⟩ := List.mem_map.mp hσ
    rw [List.length_map] at hne
    rcases hout n u c hx with hna | hno
    · -- no arrows: the species are the structure
      have e : z.map (fun s => ((-1 : ℤ), s.2)) = z := by
        conv_rhs => rw [← List.map_id z]
        apply List.map_congr_left
        intro s hs'
        obtain ⟨s1, s2⟩ := hzc.species s hs'
        have hcnt := (hzc.counts (s.2 - 1) (by omega)).2
        rw [hna (s.2 - 1) (by omega), List.countP_eq_zero] at hcnt
        have := hcnt s hs'
        simp only [decide_eq_true_eq, not_and] at this
        rcases hzc.arrow s hs' with h | h
        · exact Prod.ext h.symm rfl
        · exact absurd (show s.2 = s.2 - 1 + 1 by omega) (this h.1)
      rw [e] at hfix
      exact hzs ⟨t.1, hσ, hne, hfix⟩
    · obtain ⟨k', hk'⟩ := arr_one (colLat_isSub _) hcd.number w1 hd (oneDirection_same hs hone)
      obtain ⟨hiff, hperm⟩ := htest n u c hx z hzc t ht
      exact hno z hz t ht (hiff.mpr ⟨hne, hfix, arr_permute_one hperm hk'⟩)

/-! ## the program -/

/-- What enum.out lists when a part of the atoms of a species may be displaced. `Asked n c`: the composition `c` of the `n` cells satisfies the restrictions. -/
structure Spec.ListsPart (P : M3 ℝ) (bas : List V3) (lo hi : ℕ) (Asked : ℕ → Conc → Prop) (aconcs : List ℚ) (rows : List EnumEntry) : Prop where
  /-- the rows are different -/
  nodup : rows.Nodup
  /-- each row describes a structure that was asked for and has no smaller period -/
  valid : ∀ row ∈ rows, ∃ n, lo ≤ n ∧ n ≤ hi ∧ row.size = n ∧ ∃ c, Asked n c ∧ ∃ ψ, RowDescribes P bas row ψ ∧
    PeriodicOn (CrystalSites (ColLattice P.transpose) bas) (rowLattice P row) ψ ∧
    HasContents (CrystalSites (ColLattice P.transpose) bas) (rowLattice P row) (bas.length * n) (Composed c aconcs 6) ψ ∧
    NoFurtherPeriod (ColLattice P.transpose) (CrystalSites (ColLattice P.transpose) bas) (rowLattice P row) ψ
  /-- no structure is described twice -/
  unique : ∀ (n : ℕ) (M : M3 ℤ), lo ≤ n → n ≤ hi → M.det = n ∨ M.det = -n → ∀ χ,
    NoFurtherPeriod (ColLattice P.transpose) (CrystalSites (ColLattice P.transpose) bas) (SupLat P M) χ → ∀ c, Asked n c →
    HasContents (CrystalSites (ColLattice P.transpose) bas) (SupLat P M) (bas.length * n) (Composed c aconcs 6) χ →
    ∀ row ∈ rows, ∀ row' ∈ rows,
      (∃ ψ, RowDescribes P bas row ψ ∧ SameStructure (ColLattice P.transpose) bas (SupLat P M) χ (rowLattice P row) ψ) →
      (∃ ψ, RowDescribes P bas row' ψ ∧ SameStructure (ColLattice P.transpose) bas (SupLat P M) χ (rowLattice P row') ψ) → row = row'
  /-- a structure that was asked for is described by exactly one row if its species alone have no smaller period -/
  listed : ∀ (n : ℕ) (M : M3 ℤ), lo ≤ n → n ≤ hi → M.det = n ∨ M.det = -n → ∀ χ,
    NoFurtherPeriod (ColLattice P.transpose) (CrystalSites (ColLattice P.transpose) bas) (SupLat P M) (speciesOnly χ) → ∀ c, Asked n c →
    HasContents (CrystalSites (ColLattice P.transpose) bas) (SupLat P M) (bas.length * n) (Composed c aconcs 6) χ →
    ∃! row, row ∈ rows ∧ ∃ ψ, RowDescribes P bas row ψ ∧ SameStructure (ColLattice P.transpose) bas (SupLat P M) χ (rowLattice P row) ψ
  /-- a structure without a smaller period is described by no row if its species alone have a smaller period and its displaced atoms all move in the same direction -/
  missing : ∀ (M : M3 ℤ) χ, NoFurtherPeriod (ColLattice P.transpose) (CrystalSites (ColLattice P.transpose) bas) (SupLat P M) χ →
    OneDirection (CrystalSites (ColLattice P.transpose) bas) χ →
    ¬ NoFurtherPeriod (ColLattice P.transpose) (CrystalSites (ColLattice P.transpose) bas) (SupLat P M) (speciesOnly χ) →
    ∀ row ∈ rows, ¬ ∃ ψ, RowDescribes P bas row ψ ∧ SameStructure (ColLattice P.transpose) bas (SupLat P M) χ (rowLattice P row) ψ

/-- `enumeration.py -enum` (without `-super`) in a directory with the file lattice.in and no results of earlier runs finishes, whatever the order of the
directory listing and the random numbers; enum.out lists structures without a smaller period as described by `ListsPart`; polya.out.`n` holds the table of the counts (which
include the structures with a smaller period); no other files are changed. -/
def Spec.RunListsPart (tol : Tol) (text : Str) (lat : LatticeIn) (P0 : Matrix (Fin 3) (Fin 3) ℚ) (b0 : List (Fin 3 → ℚ)) (lo hi : ℕ) (C : ℕ → List Conc)
    (U : ℕ → List (M3 ℤ)) (cnt : ℕ → M3 ℤ → Conc → ℕ) : Prop :=
  ∀ (w : World) (a : Args) (lattice : Str) (d : Dir), (∀ l, (w.listdir l).Perm l) →
      PlainCall a lattice false → FreshDir lattice text d →
    ∃ (rows : List EnumEntry) (d' : Dir), scriptEnum w tol a d = (pure d' : Run Dir) ∧
      dictGet d' "enum.out".toList = some (enumOutFile (lat.enumParams (P0, b0)) w.now rows) ∧
      ListsPart (realMat P0) (realVecs b0) lo hi (fun n c => c ∈ C n) lat.arrowFractions rows ∧
      (∀ row ∈ rows, RowOfArrowCell b0.length lo hi C lat.arrowFractions row) ∧
      (∀ n, lo ≤ n → n ≤ hi → dictGet d' ("polya.out.".toList ++ natStr n) = some (writePolya (countTable n (U n) (C n) (cnt n)))) ∧
      ∀ f, f ≠ "enum.out".toList → f ≠ "enum.in".toList → (∀ n, lo ≤ n → n ≤ hi → f ≠ "polya.out.".toList ++ natStr n) → dictGet d' f = dictGet d f

/-- auxiliary: at tolerances at which the searches are exact -/
theorem every_part_structure_at {text : Str} {lat : LatticeIn} {P0 : Matrix (Fin 3) (Fin 3) ℚ} {b0 : List (Fin 3 → ℚ)} {lo hi k : ℕ} {T : Set ℚ}
    {C : ℕ → List Conc} (h : EnumInput text lat P0 b0 lo hi k T C) (hk3 : k ≤ 3) {tol : Tol} (ht : ExactTol P0 b0 hi tol) :
    tol.conc ∈ T →
      ∃ (U : ℕ → List (M3 ℤ)) (cnt : ℕ → M3 ℤ → Conc → ℕ),
        CountsAll tol lat P0 b0 lo hi C U cnt ∧
        ((∀ n, lo ≤ n → n ≤ hi → (countTable n (U n) (C n) (cnt n)).Fits) →
         (∀ n u c, lo ≤ n → n ≤ hi → u ∈ U n → c ∈ C n → Deliverable lat.arrowFractions c (cnt n u c)) →
         RunListsPart tol text lat P0 b0 lo hi C U cnt) := by
  classical
  intro t5
  set P := realMat P0 with hPdef
  set bas := realVecs b0 with hbdef
  have hbl : bas.length = b0.length := realVecs_length b0
  set aconcs := lat.arrowFractions with hadef
  set flag : Bool := decide (aconcs.sum ≠ 0) with hflag
  have hnoarr : flag = true ∨ ∀ c : Conc, NoArrows aconcs c := by
    by_cases h0 : aconcs.sum = 0
    · exact Or.inr (no_arrows h.fractions.2 h0)
    · left; rw [hflag]; simpa using h0
  have horig : flag = true ∨ bas.getD 0 0 = 0 := by
    rcases h.origin with h0 | h0
    · left; rw [hflag]; simpa using h0
    · exact Or.inr h0
  have hsm : ∀ x : ℝ, 0 < x → x * hi < 1 → ∀ n, n ≤ hi → x * n < 1 := by
    intro x hx hlt n hn
    have : (n : ℝ) ≤ hi := by exact_mod_cast hn
    nlinarith
  have key1 : ∀ n, ∃ U : List (M3 ℤ), lo ≤ n → n ≤ hi → getHNFs n P bas 3 tol.hnf = some (.ok U) ∧ U.Nodup ∧ (∀ u ∈ U, u ∈ findAllHNFs n) ∧
      (∀ M : M3 ℤ, M.det = n ∨ M.det = -n → ∃! u, u ∈ U ∧ ∃ R s, PSym (ColLattice P.transpose) bas R s ∧
        R.mulVec '' SupLat P M = SupLat P u) := by
    intro n
    by_cases hn : lo ≤ n ∧ n ≤ hi
    · obtain ⟨U, hU⟩ := hnf_calls_at h.cell n (le_trans h.lo_pos hn.1) 3 (by norm_num) ht.hnf (hsm _ ht.hnf.pos ht.hnf_small n hn.2)
      exact ⟨U, fun _ _ => hU⟩
    · exact ⟨[], fun a b => absurd ⟨a, b⟩ hn⟩
  choose U hU using key1
  have key2 : ∀ n u, ∃ G G' snf, lo ≤ n → n ≤ hi → u ∈ U n → CellData P bas n tol.sym flag u G G' snf := by
    intro n u
    by_cases hn : (lo ≤ n ∧ n ≤ hi) ∧ u ∈ U n
    · obtain ⟨G, G', snf, hd⟩ := cell_data_at h.cell h.primitive (flag := flag) horig n (le_trans h.lo_pos hn.1.1) (lt_of_le_of_lt hn.1.2 h.hi_lt)
        ht.sym (hsm _ ht.sym.pos ht.sym_small n hn.1.2) u ((hU n hn.1.1 hn.1.2).2.2.1 u hn.2)
      exact ⟨G, G', snf, fun _ _ _ => hd⟩
    · exact ⟨[], [], ⟨0, 0, 0⟩, fun a b c => absurd ⟨⟨a, b⟩, c⟩ hn⟩
  choose G G' snf hG using key2
  have hbpos : 0 < bas.length := List.length_pos_iff.mpr h.cell.nonempty
  have hcs : ∀ n, lo ≤ n → n ≤ hi → ∀ c ∈ C n, c.length = k ∧ c.sum = bas.length * n ∧ 1 ≤ c.sum := by
    intro n a b c hc
    obtain ⟨c1, c2⟩ := (h.concs n a b).2.2 c hc
    rw [← hbl] at c2
    refine ⟨c1, c2, ?_⟩
    rw [c2]
    exact Nat.mul_pos hbpos (by have := h.lo_pos; omega)
  have key3 : ∀ n u c, ∃ total : ℕ, lo ≤ n → n ≤ hi → u ∈ U n → c ∈ C n → 1 ≤ total ∧ polyaCount (G n u) aconcs c = (pure total : Run ℕ) ∧
      (∃ L, IsTransversal (Composed c aconcs 6) (OpEquiv (G n u)) L ∧ L.length = total) ∧
      ∀ (rnd : EnumRandom), Deliverable aconcs c total →
        ∃ T full : List Config, enumSys (G' n u) c aconcs total bas.length false false rnd = some (.ok T) ∧ T.Sublist full ∧
          IsTransversal (fun z => Composed c aconcs 6 z ∧ ¬ Superperiodic (((G' n u).take n).map (·.1)) z) (OpEquiv (G' n u)) full ∧
          (∀ z ∈ full, (∀ t ∈ (G' n u).take n, ¬ codeSuper1 z t) → z ∈ T) ∧ (NoArrows aconcs c ∨ ∀ z ∈ T, ∀ t ∈ (G' n u).take n, ¬ codeSuper1 z t) := by
    intro n u c
    by_cases hn : lo ≤ n ∧ n ≤ hi ∧ u ∈ U n ∧ c ∈ C n
    · obtain ⟨a1, a2, a3, a4⟩ := hn
      have hd := hG n u a1 a2 a3
      obtain ⟨c1, c2, c3⟩ := hcs n a1 a2 c a4
      obtain ⟨total, h⟩ := cell_count_part (c := c) (by have := h.species.1; omega) (by omega) c3 aconcs (by rw [c1]; exact h.fractions.1)
        (by rw [c2]; exact hd.isGroup) hd.nodup (by rw [c2]; exact hd.isGroup') hd.nodup' hd.sites (hnoarr.imp hd.same (fun h => h c)) (nB := bas.length) (n := n)
        (by rw [c2]; exact Nat.mul_div_cancel_left n hbpos) (by rw [c2]; exact hd.hasTrans) (fun t ht => ((hd.trans' t).mp ht).1)
      exact ⟨total, fun _ _ _ _ => h⟩
    · exact ⟨0, fun a b c d => absurd ⟨a, b, c, d⟩ hn⟩
  choose cnt hcnt using key3
  refine ⟨U, cnt, ?_, ?_⟩
  · intro n a b
    obtain ⟨u1, u2, u3, u4⟩ := hU n a b
    refine ⟨u1, u2, u3, fun u hu => ?_⟩
    have hd := hG n u a b hu
    refine ⟨G n u, hd.group, by rw [← hbl]; exact hd.isGroup, hd.nodup, by rw [← hbl]; exact hd.order, fun c hc => ⟨(hcnt n u c a b hu hc).1, (hcnt n u c a b hu hc).2.1, (hcnt n u c a b hu hc).2.2.1⟩⟩
  intro hfits hdel w a lattice d hw ha hd
  obtain ⟨rest, hsz⟩ := h.sizes
  obtain ⟨n0, hn0, hn0', hne0⟩ := h.nonempty
  -- some supercell exists
  have hU0 : ∃ u, u ∈ U n0 := by
    obtain ⟨u, ⟨hu, -⟩, -⟩ := (hU n0 hn0 hn0').2.2.2 (Matrix.diagonal ![(n0 : ℤ), 1, 1]) (Or.inl (by simp [Matrix.det_diagonal, Fin.prod_univ_three]))
    exact ⟨u, hu⟩
  have hrun := program_ok hw ha hd h.read h.geometry h.lo_pos h.lo_hi hsz U C G cnt
    (fun n a b => ⟨(hU n a b).1, (hU n a b).2.1, (hU n a b).2.2.1, (h.concs n a b).1 _ t5, (h.concs n a b).2.1,
      fun u hu => (hG n u a b hu).group, fun u hu c hc => (hcnt n u c a b hu hc).2.1⟩) hfits k (fun n a b c hc => ((h.concs n a b).2.2 c hc).1)
    (by
      obtain ⟨u, hu⟩ := hU0
      obtain ⟨c, hc⟩ := List.exists_mem_of_ne_nil _ hne0
      exact ⟨n0, u, c, hn0, hn0', hu, hc, (hcnt n0 u c hn0 hn0' hu hc).1⟩)
    (fun x E => ∃ T full : List Config, E = T.map (enumEntry (hnfNumbers x.2.1) (snf x.1 x.2.1)) ∧ T.Sublist full ∧
      IsTransversal (fun z => Composed x.2.2 aconcs 6 z ∧ ¬ Superperiodic (((G' x.1 x.2.1).take x.1).map (·.1)) z) (OpEquiv (G' x.1 x.2.1)) full ∧
      (∀ z ∈ full, (∀ t ∈ (G' x.1 x.2.1).take x.1, ¬ codeSuper1 z t) → z ∈ T) ∧ (NoArrows aconcs x.2.2 ∨ ∀ z ∈ T, ∀ t ∈ (G' x.1 x.2.1).take x.1, ¬ codeSuper1 z t))
    (by
      intro n u c a1 a2 a3 a4 _ i
      obtain ⟨-, -, -, c3⟩ := hcnt n u c a1 a2 a3 a4
      obtain ⟨T, full, r1, r3⟩ := c3 (w.rnd i) (hdel n u c a1 a2 a3 a4)
      refine ⟨T.map (enumEntry (hnfNumbers u) (snf n u)), ?_, T, full, rfl, r3⟩
      have hd := hG n u a1 a2 a3
      obtain ⟨hfull, h6⟩ := hnf_numbers_full (by have := h.lo_pos; omega) ((hU n a1 a2).2.2.1 u a3)
      obtain ⟨dd, hdd, -⟩ := C40_arrow_concs c aconcs (by rw [(hcs n a1 a2 c a4).1]; exact h.fractions.1)
      unfold enumSystem
      simp only [h6, lt_self_iff_false, if_false, h.geometry, runPy_ok, pure_bind, hfull, hd.smith, runO_ok, map_toNat, Int.toNat_natCast]
      rw [← hadef, hdd, runPy_ok, pure_bind, ← hflag, hd.group', pure_bind, r1, runO_ok, pure_bind])
  obtain ⟨K, Es, d', r1, r2, r3, r4, r5, r6, -, r8⟩ := hrun
  obtain ⟨F, hF, hFQ⟩ := forall₂_fun r2 r4 ⟨[], trivial⟩
  have hKm : ∀ n u c, (n, u, c) ∈ K ↔ lo ≤ n ∧ n ≤ hi ∧ u ∈ U n ∧ c ∈ C n := by
    intro n u c
    rw [r3]
    constructor
    · rintro ⟨a1, a2, a3, a4, -⟩; exact ⟨a1, a2, a3, a4⟩
    · rintro ⟨a1, a2, a3, a4⟩; exact ⟨a1, a2, a3, a4, (hcnt n u c a1 a2 a3 a4).1⟩
  have key4 : ∀ x, ∃ T full : List Config, x ∈ K → F x = T.map (enumEntry (hnfNumbers x.2.1) (snf x.1 x.2.1)) ∧ T.Sublist full ∧
      IsTransversal (fun z => Composed x.2.2 aconcs 6 z ∧ ¬ Superperiodic (((G' x.1 x.2.1).take x.1).map (·.1)) z) (OpEquiv (G' x.1 x.2.1)) full ∧
      (∀ z ∈ full, (∀ t ∈ (G' x.1 x.2.1).take x.1, ¬ codeSuper1 z t) → z ∈ T) ∧ (NoArrows aconcs x.2.2 ∨ ∀ z ∈ T, ∀ t ∈ (G' x.1 x.2.1).take x.1, ¬ codeSuper1 z t) := by
    intro x
    by_cases hx : x ∈ K
    · obtain ⟨T, full, hT⟩ := hFQ x hx
      exact ⟨T, full, fun _ => hT⟩
    · exact ⟨[], [], fun hx' => absurd hx' hx⟩
  choose TT FF hT using key4
  have hrows : Es.flatten = K.flatMap (fun x => (TT x).map (enumEntry (hnfNumbers x.2.1) (snf x.1 x.2.1))) := by
    rw [hF, List.flatMap, List.map_congr_left (fun x hx => (hT x hx).1)]
  obtain ⟨s1, s2, s3, s4, s5⟩ := rows_part (usable_false h.cell flag) h.lo_pos h.species.2 h.fractions.1 U C G G' snf
    (fun n a b => ⟨(hU n a b).2.1, (hU n a b).2.2.1, (hU n a b).2.2.2⟩) (fun n a b u hu => hG n u a b hu)
    (fun n a b => ⟨(h.concs n a b).2.1, fun c hc => ⟨(hcs n a b c hc).1, (hcs n a b c hc).2.1, hnoarr.imp id (fun h => h c)⟩⟩)
    K r2 hKm TT FF (fun n u c hx => (hT (n, u, c) hx).2.1) (fun n u c hx => (hT (n, u, c) hx).2.2.1) (fun n u c hx => (hT (n, u, c) hx).2.2.2.1)
    (fun n u c hx => (hT (n, u, c) hx).2.2.2.2)
  have hname : ∀ n : ℕ, polyaName n = "polya.out.".toList ++ natStr n := fun n => by
    unfold polyaName
    rw [show "polya.out.".toList = "polya.out".toList ++ ['.'] from by decide, List.append_assoc]
    rfl
  refine ⟨Es.flatten, d', r1, r5, ⟨?_, ?_, ?_, ?_, ?_⟩, ?_, ?_, ?_⟩
  · rw [hrows]; exact s1
  · rw [hrows]; exact s2
  · intro n M a b hM χ hp c hc hχ
    rw [hrows]
    exact s4 n M a b hM χ c hc hχ hp
  · intro n M a b hM χ hp c hc hχ
    rw [hrows]
    exact s3 n M a b hM χ c hc hχ hp
  · rw [hrows]; exact s5
  · rw [hrows]
    intro row hrow
    obtain ⟨⟨n, u, c⟩, hx, hrow⟩ := List.mem_flatMap.mp hrow
    obtain ⟨z, hz, rfl⟩ := List.mem_map.mp hrow
    obtain ⟨a1, a2, a3, a4⟩ := (hKm n u c).mp hx
    have hco := ((hT _ hx).2.2.1.mem z ((hT _ hx).2.1.subset hz)).1
    refine ⟨n, u, snf n u, z, a1, a2, (hU n a1 a2).2.2.1 u a3, (hG n u a1 a2 a3).smith, rfl, ?_, c, a4, hco⟩
    have hc := composed_contents c aconcs (by rw [(hcs n a1 a2 c a4).1]; exact h.fractions.1)
    rw [hc.length z hco, (hcs n a1 a2 c a4).2.1, hbl]
  · intro n a b
    rw [← hname]
    exact r6 n a b
  · intro f f1 f2 f3
    apply r8 f f1 f2
    intro n a b
    rw [hname]
    exact f3 n a b

section
variable {fl : ℚ → ℚ} {δ : ℝ} {text : Str} {lat : LatticeIn} {P0 : Matrix (Fin 3) (Fin 3) ℚ} {b0 : List (Fin 3 → ℚ)} {lo hi k : ℕ} {ranges : List ConcRange} {d : ℤ}

/-- auxiliary: with tolerances at which the searches are exact -/
theorem part_at (h : CrystalInput text lat P0 b0 lo hi k) (hr : RangesInput lat k ranges d) (hk3 : k ≤ 3)
    (hsize : b0.length * hi < 12) (hne : ∃ n c, lo ≤ n ∧ n ≤ hi ∧ InConcRanges ranges (b0.length * n) c) {tol : Tol} (ht : ExactTol P0 b0 hi tol)
    (htc : 0 ≤ tol.conc) (htc' : tol.conc * 20 * d < 1) :
    ∀ (w : World) (a : Args) (lattice : Str) (dir : Dir), (∀ l, (w.listdir l).Perm l) →
        PlainCall a lattice false → FreshDir lattice text dir →
      ∃ (rows : List EnumEntry) (dir' : Dir), scriptEnum w tol a dir = (pure dir' : Run Dir) ∧
        dictGet dir' "enum.out".toList = some (enumOutFile (lat.enumParams (P0, b0)) w.now rows) ∧
        ListsPart (realMat P0) (realVecs b0) lo hi (fun n c => InConcRanges ranges (b0.length * n) c) lat.arrowFractions rows := by
  intro w a lattice dir hw ha hd
  obtain ⟨C, hC, hin⟩ := ranges_enum h hr (by omega) hne htc htc'
  obtain ⟨U, cnt, hcnt, hrun⟩ := every_part_structure_at hin hk3 ht (Set.mem_singleton_iff.mpr rfl)
  obtain ⟨f1, f2⟩ := small_ok hin (by omega) (Or.inr hsize) hcnt
  obtain ⟨rows, dir', r1, r2, r3, -⟩ := hrun f1 f2 w a lattice dir hw ha hd
  refine ⟨rows, dir', r1, r2, r3.nodup, ?_, ?_, ?_, r3.missing⟩
  · intro row hrow
    obtain ⟨n, q1, q2, q3, c, hc, q4⟩ := r3.valid row hrow
    exact ⟨n, q1, q2, q3, c, ((hC n q1 q2).2 c).mp hc, q4⟩
  · intro n M h1 h2 hM χ hp c hc hχ
    exact r3.unique n M h1 h2 hM χ hp c (((hC n h1 h2).2 c).mpr hc) hχ
  · intro n M h1 h2 hM χ hp c hc hχ
    exact r3.listed n M h1 h2 hM χ hp c (((hC n h1 h2).2 c).mpr hc) hχ

/-- C90. The default call `enumeration.py -enum` (without `-super`) with any fractions of displaced atoms, two or three species and fewer than 12 sites: the rows of
enum.out are all different and describe structures that were asked for and have no smaller period, none of them twice; every such structure whose species alone
have no smaller period is described by a row; and a structure whose species alone have a smaller period and whose displaced atoms all move in the same direction is
described by none. -/
theorem C90_part_displaced (h : CrystalInput text lat P0 b0 lo hi k) (hr : RangesInput lat k ranges d) (hk3 : k ≤ 3)
    (hsize : b0.length * hi < 12) (hne : ∃ n c, lo ≤ n ∧ n ≤ hi ∧ InConcRanges ranges (b0.length * n) c) :
    ∃ e > 0, ∀ tol : Tol, 0 < tol.hnf → tol.hnf < e → 0 < tol.sym → tol.sym < e → 0 ≤ tol.conc → tol.conc * 20 * d < 1 →
      ∀ (w : World) (a : Args) (lattice : Str) (dir : Dir), (∀ l, (w.listdir l).Perm l) →
        PlainCall a lattice false → FreshDir lattice text dir →
      ∃ (rows : List EnumEntry) (dir' : Dir), scriptEnum w tol a dir = (pure dir' : Run Dir) ∧
        dictGet dir' "enum.out".toList = some (enumOutFile (lat.enumParams (P0, b0)) w.now rows) ∧
        ListsPart (realMat P0) (realVecs b0) lo hi (fun n c => InConcRanges ranges (b0.length * n) c) lat.arrowFractions rows :=
  small_tol h.cell.det h.cell.nonempty hi (fun _ ht t1 t2 => part_at h hr hk3 hsize hne ht t1 t2)

/-- C90. The same with the tolerances of the code. -/
theorem C90_shipped (h : CrystalInput text lat P0 b0 lo hi k) (hr : RangesInput lat k ranges d) (hk3 : k ≤ 3)
    (hsize : b0.length * hi < 12) (hne : ∃ n c, lo ≤ n ∧ n ≤ hi ∧ InConcRanges ranges (b0.length * n) c) (hd : d ≤ 10 ^ 8)
    {K K' : ℝ} {g D : ℕ} (hc : Coarse (realMat P0) (realVecs b0) K K' g D (1 / 10 ^ 7)) :
    ∀ (w : World) (a : Args) (lattice : Str) (dir : Dir), (∀ l, (w.listdir l).Perm l) →
        PlainCall a lattice false → FreshDir lattice text dir →
      ∃ (rows : List EnumEntry) (dir' : Dir), scriptEnum w shippedTol a dir = (pure dir' : Run Dir) ∧
        dictGet dir' "enum.out".toList = some (enumOutFile (lat.enumParams (P0, b0)) w.now rows) ∧
        ListsPart (realMat P0) (realVecs b0) lo hi (fun n c => InConcRanges ranges (b0.length * n) c) lat.arrowFractions rows := by
  have hd' : (d : ℚ) ≤ 10 ^ 8 := by exact_mod_cast hd
  exact part_at h hr hk3 hsize hne (coarse_exact h.cell.det hc (size_hi h (by omega)))
    (show (0 : ℚ) ≤ 1 / 10 ^ 10 by norm_num) (show (1 / 10 ^ 10 : ℚ) * 20 * d < 1 by linarith)

/-- C90. The same with rounding errors, if the numbers of displaced atoms survive the rounding and the numbers of decorations are small enough to be exactly
representable: every run ends with these files. -/
theorem C90_noise (h : CrystalInput text lat P0 b0 lo hi k) (hr : RangesInput lat k ranges d) (hk3 : k ≤ 3)
    (hle : ∀ r ∈ ranges, max r.1 r.2.1 ≤ d) (hsize : b0.length * hi < 12) (hkept : ArrowsKept fl lat (b0.length * hi)) (hfit : NumbersFit lat (b0.length * hi) k)
    (hne : ∃ n c, lo ≤ n ∧ n ≤ hi ∧ InConcRanges ranges (b0.length * n) c) (hd : d ≤ 10 ^ 8)
    {K K' : ℝ} {g D : ℕ} (h0 : 0 ≤ δ) (hlt : δ < 1 / 10 ^ 10) (hc : Coarse (realMat P0) (realVecs b0) K K' g D (1 / 10 ^ 7 + δ)) (hfl : RoundsToNearest fl) :
    ∀ (w : World) (a : Args) (lattice : Str) (dir : Dir), (∀ l, (w.listdir l).Perm l) →
        PlainCall a lattice false → FreshDir lattice text dir →
      ∃ (rows : List EnumEntry) (dir' : Dir), AlwaysReturns (scriptEnumN fl δ w shippedTol a dir) dir' ∧
        dictGet dir' "enum.out".toList = some (enumOutFile (lat.enumParams (P0, b0)) w.now rows) ∧
        ListsPart (realMat P0) (realVecs b0) lo hi (fun n c => InConcRanges ranges (b0.length * n) c) lat.arrowFractions rows := by
  intro w a lattice dir hw ha hdir
  obtain ⟨rows, dir', r1, r2⟩ := C90_shipped h hr hk3 hsize hne hd (coarse_mono hc (by norm_num) (by linarith)) w a lattice dir hw ha hdir
  exact ⟨rows, dir', C74_same_files_ranges h hr hle hd (by omega) (Or.inr hsize) hne h0 hlt hc hfl hkept hfit w a lattice false dir dir' hw ha hdir r1, r2⟩

end

/-- a simple cubic lattice, one or two cells, two species in any concentrations; half of the atoms of the first species are displaced -/
def scpText : Str := ofLines ["# sizes", "1 2", "bulk", "1 0 0", "0 1 0", "0 0 1", "# species", "2", "# atoms", "1", "0 0 0", "T", "T", "0 4 4 0.5", "0 4 4 0"]

/-- what `read_lattice` returns for it -/
def scpLat : LatticeIn where
  bulk := true
  sizes := [1, 2]
  latVecs := [[1, 0, 0], [0, 1, 0], [0, 0, 1]]
  nspecies := 2
  basisVecs := [[0, 0, 0]]
  restricted := true
  arrows := true
  concs := [[0, 4, 4, 1/2], [0, 4, 4, 0]]

theorem scp_read' : (match readLattice scpText with | .ok l => decide (l = scpLat) | .error _ => false) = true := by decide +kernel

theorem scp_fractions : scpLat.arrowFractions = [1/2, 0] := by decide +kernel

theorem scp_crystal : CrystalInput scpText scpLat (Matrix.of ![![1, 0, 0], ![0, 1, 0], ![0, 0, 1]]) [![0, 0, 0]] 1 2 2 := by
  obtain ⟨hu, hp⟩ := cubic_usable (P := 1) (by simp) sc_cubic (d := 0) (colLat_isSub _).zero true
  refine ⟨read_of_match scp_read', rfl, ⟨[], rfl⟩, by norm_num, by norm_num, ?_, ?_, Or.inr ?_, rfl, by norm_num, by norm_num⟩
  · rw [realVecs_zero, realMat_sc]; exact hu
  · rw [realVecs_zero, realMat_sc]; exact hp
  · rw [realVecs_zero]; rfl

theorem scp_ranges : RangesInput scpLat 2 [(0, 4, 4), (0, 4, 4)] 4 := by
  refine ⟨rfl, by decide +kernel, rfl, ⟨by norm_num, by simp⟩, by simp, ?_⟩
  rw [scp_fractions]
  simp

/-- all atoms are of the first species; every second layer is displaced -/
noncomputable def ripple : Decoration := fun x => (1, if (layers x).1 = 1 then 0 else arrowDir 0)

theorem layers_two (x : V3) : layers x = (1, 0) ∨ layers x = (2, 0) := by
  unfold layers
  split <;> simp

theorem ripple_eq {x y : V3} (h : ripple x = ripple y) : layers x = layers y := by
  unfold ripple at h
  have h2 := congrArg Prod.snd h
  simp only at h2
  rcases layers_two x with h1 | h1 <;> rcases layers_two y with h3 | h3 <;> rw [h1, h3] at h2 ⊢
  · rw [if_pos rfl, if_neg (by decide)] at h2
    exact absurd h2.symm (arrowDir_ne_zero (by decide))
  · rw [if_neg (by decide), if_pos rfl] at h2
    exact absurd h2 (arrowDir_ne_zero (by decide))

/-- the crystal with every second layer displaced is asked for, has no smaller period, and its species alone have -/
theorem ripple_structure :
    NoFurtherPeriod (ColLattice (1 : M3 ℝ).transpose) (CrystalSites (ColLattice (1 : M3 ℝ).transpose) [0]) (SupLat 1 !![2, 0, 0; 0, 1, 0; 0, 0, 1]) ripple ∧
    HasContents (CrystalSites (ColLattice (1 : M3 ℝ).transpose) [0]) (SupLat 1 !![2, 0, 0; 0, 1, 0; 0, 0, 1]) (1 * 2) (Composed [2, 0] [1/2, 0] 6) ripple ∧
    OneDirection (CrystalSites (ColLattice (1 : M3 ℝ).transpose) [0]) ripple ∧
    ¬ NoFurtherPeriod (ColLattice (1 : M3 ℝ).transpose) (CrystalSites (ColLattice (1 : M3 ℝ).transpose) [0]) (SupLat 1 !![2, 0, 0; 0, 1, 0; 0, 0, 1]) (speciesOnly ripple) := by
  obtain ⟨-, l2, pos, z, hp, hd, hc1, hc2⟩ := layers_structure
  refine ⟨fun t ht hper => l2 t ht (fun x hx => ripple_eq (hper x hx)), ⟨pos, z.map (fun s => if s.2 = 1 then (-1, 1) else (0, 1)), hp, ⟨?_, ?_⟩, ?_⟩, ⟨arrowDir 0, ?_⟩, ?_⟩
  · rw [List.length_map]; exact hd.1
  · intro x hx k hk hm
    obtain ⟨p, h1, h2⟩ := hd.2 x hx k hk hm
    refine ⟨if p.2 = 1 then (-1, 1) else (0, 1), by rw [List.getElem?_map, h1]; rfl, ?_⟩
    unfold ripple
    rw [h2]
    unfold siteValue
    simp only
    split <;> simp
  · have hl : z.length = 2 := hd.1
    obtain ⟨p, q, rfl⟩ := List.length_eq_two.mp hl
    have h1 := hc2.2 0 (by decide)
    have h2 := hc2.2 1 (by decide)
    have hp1 := hc2.1 p.2 (by simp)
    have hq1 := hc2.1 q.2 (by simp)
    simp only [List.length_cons, List.length_nil] at hp1 hq1
    simp only [List.map_cons, List.map_nil, List.count_cons, List.count_nil, beq_iff_eq, List.getElem_cons_zero] at h1
    have key : ∀ z : Config, z = [(-1, 1), (0, 1)] ∨ z = [(0, 1), (-1, 1)] → Composed [2, 0] [1/2, 0] 6 z := by
      rintro z (rfl | rfl)
      · refine ⟨by decide, by decide, fun i hi => ?_⟩
        simp only [List.length_cons, List.length_nil] at hi
        interval_cases i <;> decide +kernel
      · refine ⟨by decide, by decide, fun i hi => ?_⟩
        simp only [List.length_cons, List.length_nil] at hi
        interval_cases i <;> decide +kernel
    apply key
    simp only [List.map_cons, List.map_nil]
    by_cases a1 : p.2 = 1 <;> by_cases a2 : q.2 = 1
    · rw [if_pos (by omega), if_pos (by omega)] at h1; omega
    · rw [if_pos a1, if_neg a2]; exact Or.inl rfl
    · rw [if_neg a1, if_pos a2]; exact Or.inr rfl
    · rw [if_neg (by omega), if_neg (by omega)] at h1; omega
  · intro x hx
    unfold ripple
    simp only
    split <;> simp
  · intro h
    have hone : (Pi.single 0 1 : V3) ∈ SupLat 1 !![2, 0, 0; 0, 1, 0; 0, 0, 1] := by
      refine h _ ?_ (fun x hx => rfl)
      refine ⟨Pi.single 0 1, ?_⟩
      rw [Matrix.transpose_one, Matrix.one_mulVec]
      funext i
      fin_cases i <;> simp
    obtain ⟨w, hw⟩ := hone
    have := congrFun hw 0
    simp [Matrix.mulVec, dotProduct, Fin.sum_univ_three] at this
    have h1 : ((2 * w 0 : ℤ) : ℝ) = ((1 : ℤ) : ℝ) := by push_cast; exact this
    have h2 : 2 * w 0 = (1 : ℤ) := Int.cast_injective h1
    omega

/-- C90 for that file in double precision: in every run the default call lists the alternating layers of two species exactly once; the crystal with every second layer
displaced, which was asked for and has no smaller period, is not listed. -/
theorem C90_ripple_missing {δ : ℝ} (h0 : 0 ≤ δ) (hlt : δ < 1 / 10 ^ 10) (w : World) (hw : ∀ l, (w.listdir l).Perm l) :
    ∃ (rows : List EnumEntry) (d' : Dir),
      AlwaysReturns (scriptEnumN fl53 δ w shippedTol ⟨false, true, "lattice.in".toList, none, none, none, none, false, none, false, none⟩
        [("notes.txt".toList, []), ("lattice.in".toList, scpText)]) d' ∧
      dictGet d' "enum.out".toList = some (enumOutFile (scpLat.enumParams (Matrix.of ![![1, 0, 0], ![0, 1, 0], ![0, 0, 1]], [![0, 0, 0]])) w.now rows) ∧ rows.Nodup ∧
      (∃! row, row ∈ rows ∧ ∃ ψ, RowDescribes 1 [0] row ψ ∧
        SameStructure (ColLattice (1 : M3 ℝ).transpose) [0] (SupLat 1 !![2, 0, 0; 0, 1, 0; 0, 0, 1]) layers (rowLattice 1 row) ψ) ∧
      ∀ row ∈ rows, ¬ ∃ ψ, RowDescribes 1 [0] row ψ ∧
        SameStructure (ColLattice (1 : M3 ℝ).transpose) [0] (SupLat 1 !![2, 0, 0; 0, 1, 0; 0, 0, 1]) ripple (rowLattice 1 row) ψ := by
  obtain ⟨K, K', g, hc⟩ := C74_decimals sc_decimal h0 (show δ ≤ 1 / 10 ^ 8 by
    have : (1 / 10 ^ 10 : ℝ) ≤ 1 / 10 ^ 8 := by norm_num
    linarith)
  obtain ⟨rows, d', r1, r2, r3⟩ := C90_noise scp_crystal scp_ranges (by norm_num) (by simp) (by simp)
    (C74_arrows_decimal 1 (by norm_num) (by
      rw [scp_fractions]
      intro a ha
      simp only [List.mem_cons, List.not_mem_nil, or_false] at ha
      rcases ha with rfl | rfl
      · exact ⟨5, by norm_num, by norm_num⟩
      · exact ⟨0, by norm_num, by norm_num⟩) (by simp)) (by
      unfold NumbersFit
      rw [scp_fractions, if_neg (by norm_num)]
      simp)
    ⟨2, [1, 1], by norm_num, le_refl _, sca_some⟩ (by norm_num) h0 hlt hc fl53_nearest w
    ⟨false, true, "lattice.in".toList, none, none, none, none, false, none, false, none⟩ "lattice.in".toList [("notes.txt".toList, []), ("lattice.in".toList, scpText)] hw
    (by constructor <;> rfl) (by
      refine ⟨by decide +kernel, ?_, by decide +kernel⟩
      have : ∀ f ∈ ["notes.txt".toList, "lattice.in".toList], ¬ f.head? = some 'p' := by decide +kernel
      exact fun f hf h => this f hf h.2)
  rw [realVecs_zero, realMat_sc, scp_fractions] at r3
  have hdet : (!![2, 0, 0; 0, 1, 0; 0, 0, 1] : M3 ℤ).det = 2 := by rw [Matrix.det_fin_three]; simp
  obtain ⟨p1, p2, p3, p4⟩ := ripple_structure
  refine ⟨rows, d', r1, r2, r3.nodup, ?_, r3.missing _ _ p1 p3 p4⟩
  obtain ⟨-, l2, pos, z, hp, hd, hc'⟩ := layers_structure
  refine r3.listed 2 _ (by norm_num) (by norm_num) (Or.inl (by rw [hdet]; rfl)) layers ?_ [1, 1] sca_some ⟨pos, z, hp, hd, ?_⟩
  · intro t ht hper
    refine l2 t ht (fun x hx => ?_)
    have := hper x hx
    unfold speciesOnly at this
    rcases layers_two (x + t) with h1 | h1 <;> rcases layers_two x with h3 | h3 <;> rw [h1, h3] at this ⊢ <;> simp at this
  · exact (plain_iff_composed (aconcs := [1/2, 0]) (by
      intro i hi
      simp only [List.length_cons, List.length_nil] at hi
      interval_cases i <;> decide +kernel) z).mp hc'

end Phenum
