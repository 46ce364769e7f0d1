import Verif.Props.Super
import Verif.Proof.ArrowSuper
/-
C48: removing superperiodic structures from an enumeration with arrows.
-/
namespace Phenum
open Spec

/-- The configuration is unchanged, arrows included, by an operation of `T` that moves some site. -/
def Spec.ArrowSuper (T : List (List Nat × List Nat)) (z : Config) : Prop :=
  ∃ t ∈ T, t.1 ≠ List.range z.length ∧ act t z = z

/-- The arguments of an enumeration with arrows that removes superperiodic structures: a group of operations on sites and
arrows whose first `cellsize` elements are translations (they do not turn arrows, and conjugating one by an operation gives
another one), and a decoration with arrows as built by `arrow_concs` (`-1` marks a site without arrow, and the arrow sites
of a species are marked alike). -/
structure ArrowSuperCall (a : BArgs) : Prop where
  nonempty : a.decor ≠ []
  concs : a.concs = (howManyArrows a.decor).2.2
  supers : a.supers = false
  accept : a.accept = false
  dim : 1 ≤ a.dim
  grp : IsOpGroup a.decor.length a.dim a.group
  hasArrow : ∃ s ∈ a.decor, 0 ≤ s.1
  uniform : UniformDecor a.decor
  none : ∀ s ∈ a.decor, s.1 < 0 → s.1 = -1
  trans : ∀ t ∈ a.group.take a.cellsize, t.2 = List.range a.dim
  normal : ∀ g ∈ a.group, ∀ t ∈ a.group.take a.cellsize, ∃ t' ∈ a.group.take a.cellsize, permute t'.1 g.1 = permute g.1 t.1

/-- Whether an atom carries an arrow depends on its species only. -/
def Spec.ArrowsBySpecies (d : Config) : Prop := ∀ s ∈ d, ∀ t ∈ d, s.2 = t.2 → (s.1 < 0 ↔ t.1 < 0)

section
variable {a : BArgs} (h : ArrowSuperCall a)
include h

theorem ArrowSuperCall.concs' : a.concs = findConcentrations a.decor := h.concs
theorem ArrowSuperCall.ne : a.concs ≠ [] := by
  intro hc
  have h2 := findConcentrations_sum a.decor
  rw [← h.concs', hc] at h2
  exact h.nonempty (List.length_eq_zero_iff.mp h2.symm)
theorem ArrowSuperCall.pos : ∀ c ∈ a.concs, 1 ≤ c := by rw [h.concs']; exact findConcentrations_pos _
theorem ArrowSuperCall.nArr_pos : 0 < nArr a.decor := by
  obtain ⟨s, hs, h0⟩ := h.hasArrow
  exact List.countP_pos_iff.mpr ⟨s, hs, by simpa using h0⟩
theorem ArrowSuperCall.narrows : a.narrows > 0 := by
  unfold BArgs.narrows; rw [howManyArrows_fst]; exact h.nArr_pos
theorem ArrowSuperCall.hs : (!a.supers && decide (a.narrows = 0)) = false := by
  have := h.narrows
  rw [h.supers, decide_eq_false (by omega)]; rfl

/-- what is emitted for a canonical labelling -/
def keptEms (a : BArgs) (x : List Nat) : List Config :=
  (arrEms a x).filter (fun z => decide (∀ t ∈ a.group.take a.cellsize, ¬ codeSuper1 z t))

theorem ArrowSuperCall.emOk : EmOk a (keptEms a) := by
  intro x hx _ subset count surv
  have hx' := labx h.concs' hx
  unfold emit
  rw [if_pos h.narrows, invhash_dec h.concs' hx]
  simp only [bind, Except.bind]
  unfold BArgs.colors
  rw [decorate_eq hx']
  simp only [h.accept, h.supers]
  rw [if_neg (by simp), addArrows_super h.dim _ (by
    rw [paint_length hx']
    intro g hg
    exact h.grp.opsOk g (List.mem_of_mem_filter hg)) _ (by
    rw [paint_length hx']
    intro g hg
    exact h.grp.opsOk g (List.mem_of_mem_take hg))]
  rfl

theorem ArrowSuperCall.result (hnone : a.subset = .none) : ∃ L0 : List Config, L0.Nodup ∧
    (∀ w ∈ L0, (erase w).Perm (erase a.decor) ∧ ∀ s ∈ w, s.1 < a.dim) ∧
    (∀ z : Config, (erase z).Perm (erase a.decor) → (∀ s ∈ z, s.1 < a.dim) → ∃! w, w ∈ L0 ∧ OpEquiv a.group w z) ∧
    brancher a = some (.ok (L0.filter (fun z => decide (∀ t ∈ a.group.take a.cellsize, ¬ codeSuper1 z t)))) := by
  obtain ⟨X, hX, hb⟩ := brancher_full h.ne h.pos (group_sum h.concs' h.grp) h.hs h.emOk (by unfold useSubset; rw [hnone, h.accept])
  obtain ⟨h1, h2, h3⟩ := flat_orbits h.concs' h.dim h.grp h.uniform.inj hX
  refine ⟨_, h1, h2, h3, ?_⟩
  rw [hb]
  congr 2
  show X.flatMap (fun x => (arrEms a x).filter _) = _
  rw [List.filter_flatMap]

omit h in
theorem erase_len {d z : Config} (hz : (erase z).Perm (erase d)) : z.length = d.length := by
  have := hz.length_eq; simpa [erase_eq] using this

theorem ArrowSuperCall.code_of_super {z : Config} (hz : (erase z).Perm (erase a.decor))
    (hs : ArrowSuper (a.group.take a.cellsize) z) : ∃ t ∈ a.group.take a.cellsize, codeSuper1 z t := by
  obtain ⟨t, ht, h1, h2⟩ := hs
  refine ⟨t, ht, codeSuper_of_fixed ?_ h2⟩
  rw [perm_range_length (h.grp.sites t (List.mem_of_mem_take ht)), ← erase_len hz]
  exact h1

theorem ArrowSuperCall.super_of_code (hby : ArrowsBySpecies a.decor) {z : Config} (hz : (erase z).Perm (erase a.decor))
    (hc : ∃ t ∈ a.group.take a.cellsize, codeSuper1 z t) : ArrowSuper (a.group.take a.cellsize) z := by
  obtain ⟨t, ht, h0, h1, h2⟩ := hc
  have htg := List.mem_of_mem_take ht
  have hl := erase_len hz
  have hperm := h.grp.sites t htg
  have hmem : ∀ s ∈ z, ∃ d ∈ a.decor, erase1 d = erase1 s := by
    intro s hs
    have : erase1 s ∈ erase a.decor := hz.mem_iff.mp (by rw [erase_eq]; exact List.mem_map_of_mem hs)
    rw [erase_eq] at this
    exact List.mem_map.mp this
  have hneg : ∀ s ∈ z, s.1 < 0 → s.1 = -1 := by
    intro s hs hn
    obtain ⟨d, hd, e⟩ := hmem s hs
    have hdn : d.1 < 0 := by rw [← erase1_neg d, e, erase1_neg]; exact hn
    have : d = s := by
      unfold erase1 at e
      rwa [if_pos hdn, if_pos hn] at e
    rw [← this]; exact h.none d hd hdn
  have hcol : ∀ s ∈ z, ∀ s' ∈ z, s.2 = s'.2 → (s.1 < 0 ↔ s'.1 < 0) := by
    intro s hs s' hs' e
    obtain ⟨d, hd, e1⟩ := hmem s hs
    obtain ⟨d', hd', e2⟩ := hmem s' hs'
    have := hby d hd d' hd' (by rw [← erase1_snd d, e1, erase1_snd, e, ← erase1_snd s', ← e2, erase1_snd])
    rw [← erase1_neg s, ← e1, erase1_neg, this, ← erase1_neg d', e2, erase1_neg]
  refine ⟨t, ht, ?_, ?_⟩
  · have hr := h.trans t ht
    rcases h0 with h0 | h0
    · rw [perm_range_length hperm, ← hl] at h0; exact h0
    · exact absurd (by rw [hr, List.length_range]) h0
  · -- colours agree, hence the places of the arrows, hence everything
    have hact : ∀ s ∈ act t z, ∃ s' ∈ z, s.2 = s'.2 ∧ (s.1 < 0 ↔ s'.1 < 0) ∧ (s.1 < 0 → s.1 = s'.1) := by
      intro s hs
      obtain ⟨s', hs', rfl⟩ := List.mem_map.mp hs
      refine ⟨s', (permute_perm t.1 z (by rw [hl]; exact hperm)).mem_iff.mp hs', ?_⟩
      unfold turn
      split
      · next hn => exact ⟨rfl, Iff.rfl, fun _ => rfl⟩
      · next hn =>
        refine ⟨rfl, ⟨fun hc => absurd hc ?_, fun hc => absurd hc hn⟩, fun hc => absurd hc ?_⟩ <;> simp
    apply eq_of_arr
    · show ((permute t.1 z).map (turn t.2)).map (·.2) = _
      rw [List.map_map]
      have e : (fun s : Site => s.2) ∘ turn t.2 = fun s => s.2 := by
        funext s; simp only [Function.comp, turn]; split <;> rfl
      rw [show ((fun x : Int × Nat => x.2) ∘ turn t.2) = fun s => s.2 from e, ← permute_map]
      exact h1
    · exact h2
    · apply List.ext_getElem
      · have := h.grp.sites t htg
        simp [act, permute_length t.1 z (by rw [hl]; exact perm_range_lt hperm), perm_range_length this, hl]
      · intro i hi1 hi2
        rw [List.getElem_map, List.getElem_map, decide_eq_decide]
        have hi1' : i < (act t z).length := by simpa using hi1
        have hi2' : i < z.length := by simpa using hi2
        obtain ⟨s', hs', e1, e2, -⟩ := hact _ (List.getElem_mem hi1')
        rw [e2]
        apply hcol s' hs' _ (List.getElem_mem hi2')
        rw [← e1]
        have := congrArg (fun l => l[i]?) h1
        simp only [List.getElem?_map] at this
        have e3 : ((act t z).map (·.2))[i]? = (z.map (·.2))[i]? := by
          rw [show (act t z).map (·.2) = permute t.1 (z.map (·.2)) by
            show ((permute t.1 z).map (turn t.2)).map (·.2) = _
            rw [List.map_map]
            have e : (fun s : Site => s.2) ∘ turn t.2 = fun s => s.2 := by
              funext s; simp only [Function.comp, turn]; split <;> rfl
            rw [show ((fun x : Int × Nat => x.2) ∘ turn t.2) = fun s => s.2 from e, ← permute_map], h1]
        simpa [hi1', hi2'] using e3
    · intro s hs hn
      obtain ⟨s', hs', -, e2, e3⟩ := hact s hs
      rw [e3 hn]; exact hneg s' hs' (e2.mp hn)
    · exact hneg

theorem ArrowSuperCall.super_invariant {z w : Config} (hz : (erase z).Perm (erase a.decor)) (hlt : ∀ s ∈ z, s.1 < a.dim)
    (he : OpEquiv a.group z w) (hs : ArrowSuper (a.group.take a.cellsize) z) : ArrowSuper (a.group.take a.cellsize) w := by
  obtain ⟨g, hg, rfl⟩ := he
  obtain ⟨t, ht, h1, h2⟩ := hs
  obtain ⟨t', ht', e⟩ := h.normal g hg t ht
  have hl := erase_len hz
  have hpg := h.grp.permGroup
  have hwl : (act g z).length = a.decor.length := by
    simp [act, permute_length g.1 z (by rw [hl]; exact perm_range_lt (h.grp.sites g hg)), perm_range_length (h.grp.sites g hg)]
  have htg := List.mem_of_mem_take ht
  have htg' := List.mem_of_mem_take ht'
  refine ⟨t', ht', ?_, ?_⟩
  · rw [hwl]
    intro e'
    apply h1
    have hgm : g.1 ∈ a.group.map (·.1) := List.mem_map.mpr ⟨g, hg, rfl⟩
    have h3 : permute t'.1 g.1 = g.1 := by
      have := permute_range g.1
      rwa [hpg.len hgm, ← e'] at this
    rw [h3] at e
    obtain ⟨ρ, hρ, hinv⟩ := hpg.exists_inv hgm
    have h4 := hinv t.1 (hpg.len (List.mem_map.mpr ⟨t, htg, rfl⟩))
    rw [← e] at h4
    have h5 := hinv (List.range a.decor.length) (by simp)
    have h6 : permute g.1 (List.range a.decor.length) = g.1 := by
      apply List.ext_getElem?
      intro i
      rw [permute_getElem? _ _ (by rw [List.length_range]; exact hpg.lt hgm)]
      cases hi : g.1[i]? with
      | none => rfl
      | some j =>
        have := hpg.lt hgm j (List.mem_of_getElem? hi)
        simp [this]
    rw [h6] at h5
    rw [← h4, h5, hl]
  · have hr := h.trans t ht
    have hr' := h.trans t' ht'
    have hgl : g.2.length = a.dim := perm_range_length (h.grp.arrows g hg)
    have h7 : permute (List.range a.dim) g.2 = g.2 := by
      have := permute_range g.2
      rwa [hgl] at this
    have h8 : permute g.2 (List.range a.dim) = g.2 := by
      apply List.ext_getElem?
      intro i
      rw [permute_getElem? _ _ (by rw [List.length_range]; exact perm_range_lt (h.grp.arrows g hg))]
      cases hi : g.2[i]? with
      | none => rfl
      | some j =>
        have := perm_range_lt (h.grp.arrows g hg) j (List.mem_of_getElem? hi)
        simp [this]
    rw [h.grp.act_mul hg htg' hl hlt, e, hr', h8]
    have h9 := h.grp.act_mul htg hg hl hlt
    rw [hr, h7] at h9
    rw [← h9, h2]

end

/-- C48, for every decoration: what is returned is not superperiodic, has the right composition, and no two returned
structures are equivalent. -/
theorem C48_sound (a : BArgs) (h : ArrowSuperCall a) (hnone : a.subset = .none) :
    ∃ L, brancher a = some (.ok L) ∧ L.Nodup ∧
      (∀ z ∈ L, (erase z).Perm (erase a.decor) ∧ (∀ s ∈ z, s.1 < a.dim) ∧ ¬ ArrowSuper (a.group.take a.cellsize) z) ∧
      ∀ z ∈ L, ∀ w ∈ L, OpEquiv a.group z w → z = w := by
  obtain ⟨L0, h1, h2, h3, hb⟩ := h.result hnone
  refine ⟨_, hb, h1.filter _, ?_, ?_⟩
  · intro z hz
    rw [List.mem_filter, decide_eq_true_eq] at hz
    refine ⟨(h2 z hz.1).1, (h2 z hz.1).2, fun hs => ?_⟩
    obtain ⟨t, ht, hc⟩ := h.code_of_super (h2 z hz.1).1 hs
    exact hz.2 t ht hc
  · intro z hz w hw he
    have hz0 := (List.mem_filter.mp hz).1
    have hw0 := (List.mem_filter.mp hw).1
    obtain ⟨v, -, hv⟩ := h3 w (h2 w hw0).1 (h2 w hw0).2
    rw [hv z ⟨hz0, he⟩, hv w ⟨hw0, h.grp.opEquiv_refl (erase_len (h2 w hw0).1) (h2 w hw0).2⟩]

/-- C48 when the atoms of a species either all carry arrows or none does: the enumeration returns exactly one structure of
every orbit that is not superperiodic - for any number of species. When only a part of the atoms of a species carries
arrows this is false (`C48_counterexample`); see `C48_species_aperiodic`. -/
theorem C48_one_per_orbit (a : BArgs) (h : ArrowSuperCall a) (hnone : a.subset = .none) (hby : ArrowsBySpecies a.decor) :
    ∃ L, brancher a = some (.ok L) ∧ L.Nodup ∧
      (∀ z ∈ L, (erase z).Perm (erase a.decor) ∧ (∀ s ∈ z, s.1 < a.dim) ∧ ¬ ArrowSuper (a.group.take a.cellsize) z) ∧
      ∀ z : Config, (erase z).Perm (erase a.decor) → (∀ s ∈ z, s.1 < a.dim) → ¬ ArrowSuper (a.group.take a.cellsize) z →
        ∃! w, w ∈ L ∧ OpEquiv a.group w z := by
  obtain ⟨L, hL, hn, hs, hu⟩ := C48_sound a h hnone
  obtain ⟨L0, h1, h2, h3, hb⟩ := h.result hnone
  rw [hL] at hb
  have hLX : L = L0.filter (fun z => decide (∀ t ∈ a.group.take a.cellsize, ¬ codeSuper1 z t)) := by cases hb; rfl
  refine ⟨L, hL, hn, hs, ?_⟩
  intro z hz hlt hsup
  obtain ⟨w, ⟨hw, hwz⟩, hwu⟩ := h3 z hz hlt
  refine ⟨w, ⟨?_, hwz⟩, ?_⟩
  · rw [hLX, List.mem_filter, decide_eq_true_eq]
    refine ⟨hw, ?_⟩
    intro t ht hc
    exact hsup (h.super_invariant (h2 w hw).1 (h2 w hw).2 hwz (h.super_of_code hby (h2 w hw).1 ⟨t, ht, hc⟩))
  · rintro v ⟨hv, hvz⟩
    rw [hLX] at hv
    exact hwu v ⟨(List.mem_filter.mp hv).1, hvz⟩

/-- conjugates of translations that fix `x` fix the image of `x` -/
theorem normal_fix {α : Type} {n : ℕ} {G T : List (List ℕ)} (hG : IsPermGroup n G) (hT : ∀ τ ∈ T, τ ∈ G)
    (hn : ∀ σ ∈ G, ∀ τ ∈ T, ∃ τ' ∈ T, permute τ' σ = permute σ τ) {σ : List ℕ} (hσ : σ ∈ G) {x : List α} (hx : x.length = n)
    (h : ∃ τ ∈ T, τ ≠ List.range n ∧ permute τ x = x) : ∃ τ ∈ T, τ ≠ List.range n ∧ permute τ (permute σ x) = permute σ x := by
  obtain ⟨τ, hτ, h1, h2⟩ := h
  obtain ⟨τ', hτ', e⟩ := hn σ hσ τ hτ
  refine ⟨τ', hτ', ?_, ?_⟩
  · intro e'
    apply h1
    have h3 : permute τ' σ = σ := by
      have := permute_range σ
      rwa [hG.len hσ, ← e'] at this
    rw [h3] at e
    obtain ⟨ρ, hρ, hinv⟩ := hG.exists_inv hσ
    have h4 := hinv τ (hG.len (hT τ hτ))
    rw [← e] at h4
    have h5 := hinv (List.range n) (by simp)
    have h6 : permute σ (List.range n) = σ := by
      apply List.ext_getElem?
      intro i
      rw [permute_getElem? _ _ (by rw [List.length_range]; exact hG.lt hσ)]
      cases hi : σ[i]? with
      | none => rfl
      | some j =>
        have := hG.lt hσ j (List.mem_of_getElem? hi)
        simp [this]
    rw [h6] at h5
    rw [← h4, h5]
  · rw [hG.permute_mul hσ (hT τ' hτ') x hx, e, ← hG.permute_mul (hT τ hτ) hσ x hx, h2]

/-- C48 for every decoration: an orbit whose species alone are changed by every non-trivial translation is represented by
exactly one of the structures returned. -/
theorem C48_species_aperiodic (a : BArgs) (h : ArrowSuperCall a) (hnone : a.subset = .none) :
    ∃ L, brancher a = some (.ok L) ∧
      ∀ z : Config, (erase z).Perm (erase a.decor) → (∀ s ∈ z, s.1 < a.dim) →
        (∀ t ∈ a.group.take a.cellsize, t.1 ≠ List.range z.length → permute t.1 (z.map (·.2)) ≠ z.map (·.2)) →
        ∃! w, w ∈ L ∧ OpEquiv a.group w z := by
  obtain ⟨L, hL, -⟩ := C48_sound a h hnone
  obtain ⟨L0, h1, h2, h3, hb⟩ := h.result hnone
  rw [hL] at hb
  have hLX : L = L0.filter (fun z => decide (∀ t ∈ a.group.take a.cellsize, ¬ codeSuper1 z t)) := by cases hb; rfl
  refine ⟨L, hL, ?_⟩
  intro z hz hlt hap
  obtain ⟨w, ⟨hw, hwz⟩, hwu⟩ := h3 z hz hlt
  refine ⟨w, ⟨?_, hwz⟩, ?_⟩
  · rw [hLX, List.mem_filter, decide_eq_true_eq]
    refine ⟨hw, ?_⟩
    intro t ht hc
    obtain ⟨g, hg, e⟩ := hwz
    have hlw := erase_len (h2 w hw).1
    have hlz := erase_len hz
    have hzs : z.map (·.2) = permute g.1 (w.map (·.2)) := by
      rw [← e, act, List.map_map]
      have e : (fun s : Site => s.2) ∘ turn g.2 = fun s => s.2 := by
        funext s; simp only [Function.comp, turn]; split <;> rfl
      rw [show ((fun x : Int × Nat => x.2) ∘ turn g.2) = fun s => s.2 from e, ← permute_map]
    have hpg := h.grp.permGroup
    have hT : ∀ τ ∈ (a.group.take a.cellsize).map (·.1), τ ∈ a.group.map (·.1) := by
      intro τ hτ
      obtain ⟨q, hq, rfl⟩ := List.mem_map.mp hτ
      exact List.mem_map_of_mem (List.mem_of_mem_take hq)
    have htl : t.1.length = a.decor.length := hpg.len (hT _ (List.mem_map_of_mem ht))
    have hne : t.1 ≠ List.range a.decor.length := by
      rcases hc.1 with h | h'
      · rwa [htl] at h
      · rw [h.trans t ht, List.length_range] at h'
        exact absurd rfl h'
    obtain ⟨τ, hτ, e1, e2⟩ := normal_fix (T := (a.group.take a.cellsize).map (·.1)) hpg hT (by
        intro σ hσ τ hτ
        obtain ⟨q, hq, rfl⟩ := List.mem_map.mp hσ
        obtain ⟨r, hr, rfl⟩ := List.mem_map.mp hτ
        obtain ⟨t', ht', e'⟩ := h.normal q hq r hr
        exact ⟨t'.1, List.mem_map_of_mem ht', e'⟩)
      (List.mem_map_of_mem hg) (x := w.map (·.2)) (by rw [List.length_map, hlw]) ⟨t.1, List.mem_map_of_mem ht, hne, hc.2.1⟩
    obtain ⟨q, hq, rfl⟩ := List.mem_map.mp hτ
    exact hap q hq (by rw [hlz]; exact e1) (by rw [hzs]; exact e2)
  · rintro v ⟨hv, hvz⟩
    rw [hLX] at hv
    exact hwu v ⟨(List.mem_filter.mp hv).1, hvz⟩

/-- C09 for an enumeration with arrows that removes superperiodic structures: a list of ordinals selects exactly these
positions of the full list. -/
theorem C09_subset_arrows_super (a : BArgs) (h : ArrowSuperCall a) (l : List Nat) (hl : l ≠ []) (hsub : a.subset = .list l) :
    ∃ L, brancher { a with subset := .none } = some (.ok L) ∧ brancher a = some (.ok (selectPositions l L)) := by
  have h' : ArrowSuperCall { a with subset := .none } :=
    ⟨h.nonempty, h.concs, h.supers, h.accept, h.dim, h.grp, h.hasArrow, h.uniform, h.none, h.trans, h.normal⟩
  obtain ⟨X, hX, hb⟩ := brancher_full (a := { a with subset := .none }) h'.ne h'.pos (group_sum h'.concs' h'.grp) h'.hs h'.emOk
    (by unfold useSubset; exact h.accept)
  exact ⟨_, hb, brancher_subset h.ne h.pos (group_sum h.concs' h.grp) h.hs h.emOk hl hsub ⟨hX.sorted, hX.mem⟩⟩

/-- The cell with two sites exchanged by a translation; `d` is the decoration. -/
def pairCall (d : Config) : BArgs :=
  { concs := findConcentrations d, group := [([0, 1], List.range 6), ([1, 0], List.range 6)], decor := d, dim := 6, supers := false, cellsize := 2,
    subset := .none, accept := false, acceptDraw := fun _ => false, acceptArrow := fun _ _ => false }

theorem pairGroup_ok : IsOpGroup 2 6 [([0, 1], List.range 6), ([1, 0], List.range 6)] where
  sites := by decide
  arrows := by decide
  one := by decide
  mul := by decide
  inv := by decide

theorem pairCall_ok (d : Config) (hl : d.length = 2) (ha : ∃ s ∈ d, 0 ≤ s.1) (hu : UniformDecor d) (hn : ∀ s ∈ d, s.1 < 0 → s.1 = -1) :
    ArrowSuperCall (pairCall d) where
  nonempty := by intro e; rw [show (pairCall d).decor = d from rfl] at e; rw [e] at hl; simp at hl
  concs := rfl
  supers := rfl
  accept := rfl
  dim := by show 1 ≤ 6; decide
  grp := by show IsOpGroup d.length 6 _; rw [hl]; exact pairGroup_ok
  hasArrow := ha
  uniform := hu
  none := hn
  trans := by show ∀ t ∈ [([0, 1], List.range 6), ([1, 0], List.range 6)], t.2 = List.range 6; decide
  normal := by
    show ∀ g ∈ [([0, 1], List.range 6), ([1, 0], List.range 6)], ∀ t ∈ [([0, 1], List.range 6), ([1, 0], List.range 6)],
      ∃ t' ∈ [([0, 1], List.range 6), ([1, 0], List.range 6)], permute t'.1 g.1 = permute g.1 t.1
    decide

example : ArrowSuperCall (pairCall [(1, 1), (1, 1)]) ∧ ArrowsBySpecies [(1, 1), (1, 1)] ∧
    ¬ ArrowSuper [([0, 1], List.range 6), ([1, 0], List.range 6)] [(0, 1), (3, 1)] ∧
    ArrowSuper [([0, 1], List.range 6), ([1, 0], List.range 6)] [(3, 1), (3, 1)] :=
  ⟨pairCall_ok _ rfl ⟨(1, 1), by simp, by decide⟩ (by unfold UniformDecor; decide) (by decide), by unfold ArrowsBySpecies; decide,
    by unfold ArrowSuper; decide, by unfold ArrowSuper; decide⟩

/-- the hypotheses of `C48_species_aperiodic` -/
example : ArrowSuperCall (pairCall [(1, 1), (-1, 2)]) ∧
    ∀ t ∈ [([0, 1], List.range 6), ([1, 0], List.range 6)], t.1 ≠ List.range 2 → permute t.1 [1, 2] ≠ [1, 2] :=
  ⟨pairCall_ok _ rfl ⟨(1, 1), by simp, by decide⟩ (by unfold UniformDecor; decide) (by decide), by decide⟩

/-- C48 is false when only some atoms of a species carry an arrow. Two atoms of one species, one of them with an arrow: no
structure is superperiodic (the translation moves the arrow to the other atom), but the enumeration returns nothing,
because the test compares the species and the list of arrows without the places where they are attached. -/
theorem C48_counterexample : ∃ a : BArgs, ArrowSuperCall a ∧ a.subset = .none ∧ brancher a = some (.ok []) ∧
    ∃ z : Config, (erase z).Perm (erase a.decor) ∧ (∀ s ∈ z, s.1 < a.dim) ∧ ¬ ArrowSuper (a.group.take a.cellsize) z := by
  have h := pairCall_ok [(-1, 1), (1, 1)] rfl ⟨(1, 1), by simp, by decide⟩ (by unfold UniformDecor; decide) (by decide)
  refine ⟨_, h, rfl, ?_, [(-1, 1), (0, 1)], by decide, by decide, by unfold ArrowSuper; decide⟩
  obtain ⟨L0, h1, h2, h3, hb⟩ := h.result rfl
  rw [hb]
  congr 2
  rw [List.filter_eq_nil_iff]
  intro z hz
  rw [decide_eq_true_eq]
  intro hc
  have hp := (h2 z hz).1
  apply hc ([1, 0], List.range 6) (by decide)
  have hz6 := (h2 z hz).2
  -- z has two sites of colour 1, one with an arrow
  have hl := erase_len hp
  obtain ⟨s, t, rfl⟩ : ∃ s t, z = [s, t] := by
    match z, hl with
    | [s, t], _ => exact ⟨s, t, rfl⟩
  have hp' : (erase [s, t]).Perm [(-1, 1), (0, 1)] := hp
  have hs2 : s.2 = 1 ∧ t.2 = 1 := by
    have h1 : ∀ e ∈ erase [s, t], e.2 = 1 := fun e he => by
      have := hp'.mem_iff.mp he
      simp at this
      rcases this with rfl | rfl <;> rfl
    have a1 := h1 (erase1 s) (by rw [erase_eq]; simp)
    have a2 := h1 (erase1 t) (by rw [erase_eq]; simp)
    rw [erase1_snd] at a1 a2
    exact ⟨a1, a2⟩
  have hone : (s.1 < 0 ∧ 0 ≤ t.1) ∨ (0 ≤ s.1 ∧ t.1 < 0) := by
    have hc := hp'.countP_eq (fun e => decide (e.1 < 0))
    rw [erase_eq] at hc
    have e1 := erase1_neg s
    have e2 := erase1_neg t
    by_cases hs : s.1 < 0 <;> by_cases ht : t.1 < 0
    · simp [List.countP_cons, e1, e2, hs, ht] at hc
    · left; exact ⟨hs, by omega⟩
    · right; exact ⟨by omega, ht⟩
    · simp [List.countP_cons, e1, e2, hs, ht] at hc
  refine ⟨Or.inl (by decide), ?_, ?_⟩
  · simp [hs2.1, hs2.2, permute]
  · have hturn : ∀ v : Site, 0 ≤ v.1 → v.1 < 6 → turn (List.range 6) v = v := by
      intro v h0 h6
      unfold turn
      rw [if_neg (by omega)]
      have : v.1.toNat < 6 := by omega
      rw [List.getD_eq_getElem?_getD, List.getElem?_range this]
      simp [h0]
    have hturn' : ∀ v : Site, v.1 < 0 → turn (List.range 6) v = v := by
      intro v h0; unfold turn; rw [if_pos h0]
    have h6s := hz6 s (by simp)
    have h6t := hz6 t (by simp)
    have hd6 : ((pairCall [(-1, 1), (1, 1)]).dim : Int) = 6 := rfl
    rw [hd6] at h6s h6t
    have hact : act ([1, 0], List.range 6) [s, t] = [turn (List.range 6) t, turn (List.range 6) s] := by
      simp [act, permute]
    rw [hact]
    rcases hone with ⟨h1, h2⟩ | ⟨h1, h2⟩
    · rw [hturn t h2 h6t, hturn' s h1]
      simp [arr, h1, Int.not_lt.mpr h2]
    · rw [hturn s h1 h6s, hturn' t h2]
      simp [arr, h2, Int.not_lt.mpr h1]

end Phenum
