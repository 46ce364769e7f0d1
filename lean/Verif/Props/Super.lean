import Verif.Props.Search
import Verif.Proof.Super
/-
C07: termination of every call of the tree search; C08: superperiodic filtering.
-/
namespace Phenum
open Spec

/-- C07. On a group of permutations of the sites (with arrow permutations of the `dim` directions if the
decoration has arrows) the search terminates without any exception: with or without superperiodic filtering,
with no subset, with any list of ordinals, and - for a list of ordinals - with any acceptance rate and any
outcome of its random draws. -/
theorem C07_terminates (a : BArgs) (hne : a.decor ≠ []) (hc : a.concs = (howManyArrows a.decor).2.2)
    (hG : IsPermGroup a.decor.length (a.group.map (·.1)))
    (hna : (∀ s ∈ a.decor, s.1 = -1) ∨ (1 ≤ a.dim ∧ ∀ g ∈ a.group, g.2.Perm (List.range a.dim)))
    (hcs : a.supers = false → a.cellsize ≤ a.group.length)
    (hsub : a.accept = false ∨ ∃ l, a.subset = .list l) :
    ∃ L, brancher a = some (.ok L) := by
  have hd : a.concs = findConcentrations a.decor := hc
  have hne' : a.concs ≠ [] := by
    intro h
    have h2 := findConcentrations_sum a.decor
    rw [← hd, h] at h2
    exact hne (List.length_eq_zero_iff.mp h2.symm)
  have hpos : ∀ c ∈ a.concs, 1 ≤ c := by rw [hd]; exact findConcentrations_pos _
  have hG' : IsPermGroup a.concs.sum a.G := by rw [hd, findConcentrations_sum]; exact hG
  have hrec : RecOk a (fun x => a.supers = false ∧ a.narrows = 0 ∧ SuperX a x)
      (fun E => useSubset a = true → ∃ l, E.2.1 = .list l) :=
    ⟨fun x E hx _ hE => recd_total hd hG' hna hcs hx E hE⟩
  obtain ⟨s, X, h1, -⟩ := run_ok hne' hpos hG' hrec (by
    intro hu
    rcases hsub with h | h
    · unfold useSubset at hu
      cases hs : a.subset with
      | list l => exact ⟨l, rfl⟩
      | none => rw [hs] at hu; simp [h] at hu
      | num k => rw [hs] at hu; simp [h] at hu
    · exact h)
  exact ⟨s.survivors, by unfold brancher; rw [if_neg hne', h1]⟩

/-- The configuration is unchanged by a non-trivial element of `T`. -/
def Spec.Superperiodic (T : List (List Nat)) (z : Config) : Prop :=
  ∃ τ ∈ T, τ ≠ List.range z.length ∧ permute τ z = z

/-- The arguments of an enumeration that removes superperiodic structures: the first `cellsize` operations of
the group are the distinct lattice translations, the identity first, and conjugating a translation by any
operation gives a translation. -/
structure SuperCall (a : BArgs) : Prop where
  nonempty : a.decor ≠ []
  concs : a.concs = (howManyArrows a.decor).2.2
  supers : a.supers = false
  accept : a.accept = false
  nosub : a.subset = .none ∨ a.subset = .list [] ∨ ∃ k, a.subset = .num k
  noarrow : ∀ s ∈ a.decor, s.1 = -1
  grp : IsPermGroup a.decor.length (a.group.map (·.1))
  enough : a.cellsize ≤ a.group.length
  first : (a.group[0]?).map (·.1) = some (List.range a.decor.length)
  distinct : ((a.group.take a.cellsize).map (·.1)).Nodup
  normal : ∀ σ ∈ a.group.map (·.1), ∀ τ ∈ (a.group.take a.cellsize).map (·.1),
    ∃ τ' ∈ (a.group.take a.cellsize).map (·.1), permute τ' σ = permute σ τ

section
variable {a : BArgs} (h : SuperCall a)
include h

theorem SuperCall.concs' : a.concs = findConcentrations a.decor := h.concs
theorem SuperCall.ne : a.concs ≠ [] := by
  intro hc
  have h2 := findConcentrations_sum a.decor
  rw [← h.concs', hc] at h2
  exact h.nonempty (List.length_eq_zero_iff.mp h2.symm)
theorem SuperCall.pos : ∀ c ∈ a.concs, 1 ≤ c := by rw [h.concs']; exact findConcentrations_pos _
theorem SuperCall.grp' : IsPermGroup a.concs.sum a.G := by
  rw [h.concs', findConcentrations_sum]; exact h.grp
theorem SuperCall.narrows : a.narrows = 0 := by
  unfold BArgs.narrows; rw [howManyArrows_fst, nArr_zero h.noarrow]

theorem SuperCall.trans_mem {τ : List Nat} (hτ : τ ∈ (a.group.take a.cellsize).map (·.1)) :
    τ ∈ a.group.map (·.1) := by
  obtain ⟨g, hg, rfl⟩ := List.mem_map.mp hτ
  exact List.mem_map.mpr ⟨g, List.mem_of_mem_take hg, rfl⟩

theorem SuperCall.superX_iff {x : List Nat} (hx : IsLabelling a.concs x) :
    SuperX a x ↔ Superperiodic ((a.group.take a.cellsize).map (·.1)) (paint a.decor x) := by
  have hx' := labx h.concs' hx
  have hfix : ∀ σ ∈ a.group.map (·.1), (permute σ x = x ↔ permute σ (paint a.decor x) = paint a.decor x) := by
    intro σ hσ
    rw [permute_paint hx' (h.grp.perm σ hσ)]
    constructor
    · intro e; rw [e]
    · intro e
      exact paint_inj (labx h.concs' (lab_permute h.grp' hx hσ)) hx' e
  unfold SuperX Superperiodic
  rw [paint_length hx']
  constructor
  · rintro ⟨t, h1, h2, g, hg, h3, h4⟩
    have hgt : (a.group.take a.cellsize)[t]? = some g := by rw [List.getElem?_take, if_pos h2, hg]
    have hm : g.1 ∈ (a.group.take a.cellsize).map (·.1) := List.mem_map.mpr ⟨g, List.mem_of_getElem? hgt, rfl⟩
    refine ⟨g.1, hm, ?_, (hfix _ (h.trans_mem hm)).mp h3⟩
    intro e
    have h0 := h.first
    cases hg0 : a.group[0]? with
    | none => rw [hg0] at h0; simp at h0
    | some g0 =>
      rw [hg0] at h0
      simp only [Option.map_some, Option.some.injEq] at h0
      have hdis := h.distinct
      rw [List.nodup_iff_getElem?_ne_getElem?] at hdis
      apply hdis 0 t (by omega) (by
        have := (List.getElem?_eq_some_iff.mp hgt).1
        simpa using this)
      rw [List.getElem?_map, List.getElem?_map, hgt, List.getElem?_take, if_pos (by omega), hg0]
      simp [h0, e]
  · rintro ⟨τ, hτ, h1, h2⟩
    obtain ⟨g, hg, rfl⟩ := List.mem_map.mp hτ
    obtain ⟨t, ht, hgt⟩ := List.mem_iff_getElem.mp hg
    have hgt' : (a.group.take a.cellsize)[t]? = some g := by rw [List.getElem?_eq_getElem ht, hgt]
    have htc : t < a.cellsize := by
      rw [List.length_take] at ht; omega
    rw [List.getElem?_take, if_pos htc] at hgt'
    refine ⟨t, ?_, htc, g, hgt', (hfix _ (h.trans_mem hτ)).mpr h2, ?_⟩
    · by_contra hc
      have : t = 0 := by omega
      subst this
      have h0 := h.first
      rw [hgt'] at h0
      exact h1 (by simpa using h0)
    · intro e
      have hl := perm_range_length (h.grp.perm _ (h.trans_mem hτ))
      rw [e, List.length_range] at hl
      rw [hl] at e
      exact h1 e

theorem SuperCall.super_invariant {z w : Config} (hz : z.length = a.decor.length)
    (he : Equiv (a.group.map (·.1)) z w) :
    Superperiodic ((a.group.take a.cellsize).map (·.1)) z → Superperiodic ((a.group.take a.cellsize).map (·.1)) w := by
  rintro ⟨τ, hτ, h1, h2⟩
  obtain ⟨σ, hσ, rfl⟩ := he
  obtain ⟨τ', hτ', e⟩ := h.normal σ hσ τ hτ
  have hwl := h.grp.permute_length' hσ z hz
  refine ⟨τ', hτ', ?_, ?_⟩
  · rw [hwl]
    intro e'
    apply h1
    -- permute σ τ = σ, so τ is the identity
    have h3 : permute τ' σ = σ := by
      have := permute_range σ
      rwa [h.grp.len hσ, ← e'] at this
    rw [h3] at e
    obtain ⟨ρ, hρ, hinv⟩ := h.grp.exists_inv hσ
    have h4 := hinv τ (h.grp.len (h.trans_mem hτ))
    rw [← e] at h4
    obtain ⟨ρ', hρ', hinv'⟩ := h.grp.inv σ hσ
    -- permute ρ σ = identity
    have h5 := hinv (List.range a.decor.length) (by simp)
    have h6 : permute σ (List.range a.decor.length) = σ := by
      apply List.ext_getElem?
      intro i
      rw [permute_getElem? _ _ (by rw [List.length_range]; exact h.grp.lt hσ)]
      cases hi : σ[i]? with
      | none => rfl
      | some j =>
        have := h.grp.lt hσ j (List.mem_of_getElem? hi)
        simp [this]
    rw [h6] at h5
    rw [← h4, h5, hz]
  · rw [h.grp.permute_mul hσ (h.trans_mem hτ') z hz, e, ← h.grp.permute_mul (h.trans_mem hτ) hσ z hz, h2]

theorem SuperCall.result : ∃ X : List (List Nat), X.Nodup ∧
    (∀ x, x ∈ X ↔ Good a (SuperX a) x ∧ ¬ SuperX a x) ∧ brancher a = some (.ok (X.map (paint a.decor))) := by
  obtain ⟨X, h1, h2, h3⟩ := brancher_super h.concs' h.grp' h.enough h.ne h.pos h.supers h.narrows
    (by unfold useSubset; rcases h.nosub with e | e | ⟨k, e⟩ <;> simp [e, h.accept]) (emOk_plain h.concs' h.noarrow)
  refine ⟨X, h1.imp (fun {x y} hxy e => by subst e; exact hxy.irrefl), h2, ?_⟩
  rw [h3, show X.flatMap (fun x => [paint a.decor x]) = X.map (paint a.decor) from List.map_eq_flatMap.symm]

end

/-- C08, one half, for any number of species: whatever is returned is not superperiodic, and no two returned
structures are equivalent. -/
theorem C08_sound (a : BArgs) (h : SuperCall a) :
    ∃ L, brancher a = some (.ok L) ∧ L.Nodup ∧
      (∀ z ∈ L, z.Perm a.decor ∧ ¬ Superperiodic ((a.group.take a.cellsize).map (·.1)) z) ∧
      ∀ z ∈ L, ∀ w ∈ L, Equiv (a.group.map (·.1)) z w → z = w := by
  obtain ⟨X, h1, h2, h3⟩ := h.result
  have hd := h.concs'
  refine ⟨_, h3, ?_, ?_, ?_⟩
  · apply List.Nodup.map_on _ h1
    intro x hx y hy e
    exact paint_inj (labx hd ((h2 x).mp hx).1.1) (labx hd ((h2 y).mp hy).1.1) e
  · intro z hz
    obtain ⟨x, hx, rfl⟩ := List.mem_map.mp hz
    have hx' := (h2 x).mp hx
    exact ⟨paint_perm (labx hd hx'.1.1), fun hs => hx'.2 ((h.superX_iff hx'.1.1).mpr hs)⟩
  · intro z hz w hw
    obtain ⟨x, hx, rfl⟩ := List.mem_map.mp hz
    obtain ⟨y, hy, rfl⟩ := List.mem_map.mp hw
    have hx' := (h2 x).mp hx
    have hy' := (h2 y).mp hy
    rintro ⟨σ, hσ, e⟩
    rw [permute_paint (labx hd hx'.1.1) (h.grp.perm σ hσ)] at e
    have := paint_inj (labx hd (lab_permute h.grp' hx'.1.1 hσ)) (labx hd hy'.1.1) e
    rw [canon_unique h.grp' hx'.1.1 hy'.1.1 hx'.1.2.1 hy'.1.2.1 ⟨σ, hσ, this⟩]

theorem C08_core {a : BArgs} (h : SuperCall a) : ∃ L, brancher a = some (.ok L) ∧ L.Nodup ∧
      (∀ z ∈ L, z.Perm a.decor ∧ ¬ Superperiodic ((a.group.take a.cellsize).map (·.1)) z) ∧
      ∀ z : Config, z.Perm a.decor → ¬ Superperiodic ((a.group.take a.cellsize).map (·.1)) z →
        (∀ x, IsLabelling a.concs x → Equiv (a.group.map (·.1)) (paint a.decor x) z → ¬ Skip a (SuperX a) x) →
        ∃! w, w ∈ L ∧ Equiv (a.group.map (·.1)) w z := by
  obtain ⟨L, hL, hn, hs, hu⟩ := C08_sound a h
  obtain ⟨X, h1, h2, h3⟩ := h.result
  rw [hL] at h3
  have hLX : L = X.map (paint a.decor) := by cases h3; rfl
  refine ⟨L, hL, hn, hs, ?_⟩
  intro z hz hsup hskip
  have hd := h.concs'
  have hx0 : IsLabelling a.concs (unpaint a.decor z) := by rw [hd]; exact unpaint_labelling hz
  obtain ⟨x, hx, hpc, σ, hσ, hσx⟩ := exists_canon h.grp' hx0
  have hpx : paint a.decor x = permute σ z := by
    rw [← hσx, permute_unpaint]
    apply paint_unpaint
    intro s hs
    exact hz.mem_iff.mp ((h.grp.permute_perm' hσ z hz.length_eq).mem_iff.mp hs)
  have hxz : Equiv (a.group.map (·.1)) (paint a.decor x) z := by
    rw [hpx]; exact h.grp.equiv_symm hz.length_eq ⟨σ, hσ, rfl⟩
  have hxl : (paint a.decor x).length = a.decor.length := paint_length (labx hd hx)
  have hmem : paint a.decor x ∈ L := by
    rw [hLX]
    refine List.mem_map.mpr ⟨x, (h2 x).mpr ⟨⟨hx, hpc, hskip x hx hxz⟩, ?_⟩, rfl⟩
    intro hsx
    exact hsup (h.super_invariant hxl hxz ((h.superX_iff hx).mp hsx))
  refine ⟨_, ⟨hmem, hxz⟩, ?_⟩
  rintro w ⟨hw, hwz⟩
  have hwl : w.length = a.decor.length := (hs w hw).1.length_eq
  exact hu w hw _ hmem (h.grp.equiv_trans hwl hwz (h.grp.equiv_symm hxl hxz))

/-- C08 for at most three species: exactly one structure of every orbit that is not superperiodic. For four or more species
this is false (`C08_counterexample`); see `C08_any_species`. -/
theorem C08_three_species (a : BArgs) (h : SuperCall a) (hk : a.concs.length ≤ 3) :
    ∃ L, brancher a = some (.ok L) ∧ L.Nodup ∧
      (∀ z ∈ L, z.Perm a.decor ∧ ¬ Superperiodic ((a.group.take a.cellsize).map (·.1)) z) ∧
      ∀ z : Config, z.Perm a.decor → ¬ Superperiodic ((a.group.take a.cellsize).map (·.1)) z →
        ∃! w, w ∈ L ∧ Equiv (a.group.map (·.1)) w z := by
  obtain ⟨L, h1, h2, h3, h4⟩ := C08_core h
  exact ⟨L, h1, h2, h3, fun z hz hs => h4 z hz hs (fun x hx _ => not_skip_three h.pos hk hx)⟩

/-- Which of the sites carry `s`, which carry `t`. -/
def Spec.places (s t : Site) (z : Config) : List ℕ := z.map (fun c => if c = s then 1 else if c = t then 2 else 0)

theorem places_paint {a : BArgs} (h : SuperCall a) {s t : Site} {u v : Config} (hdec : a.decor = s :: u ++ t :: v) (hu : ∀ c ∈ u, c = s)
    (hst : t ≠ s) {x : List ℕ} (hx : IsLabelling a.concs x) : places s t (paint a.decor x) = cut 2 x := by
  have hx' := labx h.concs' hx
  obtain ⟨r, hr⟩ : ∃ r, colorList a.decor = s :: t :: r := by
    have e : (u ++ t :: v).filter (fun y => decide (y ≠ s)) = t :: v.filter (fun y => decide (y ≠ s)) := by
      rw [List.filter_append, List.filter_eq_nil_iff.mpr (by intro c hc; simp [hu c hc]), List.nil_append, List.filter_cons, if_pos (by simpa using hst)]
    rw [hdec, List.cons_append, colorList_cons, e, colorList_cons]
    exact ⟨_, rfl⟩
  have hnd := nodup_colorList a.decor
  have hlab := hx'.1
  rw [findConcentrations_length, hr] at hlab
  rw [hr] at hnd
  unfold places paint cut
  rw [hr]
  clear hx hx'
  induction x with
  | nil => rfl
  | cons w x ih =>
    have hw := hlab w (by simp)
    obtain ⟨c, hc⟩ : ∃ c, (s :: t :: r)[w - 1]? = some c := ⟨_, List.getElem?_eq_getElem (by omega)⟩
    rw [List.filterMap_cons, hc]
    simp only [List.map_cons]
    rw [ih (fun v hv => hlab v (by simp [hv]))]
    congr 1
    have hinj : ∀ (i : ℕ) (d : Site), (s :: t :: r)[i]? = some d → (s :: t :: r)[w - 1]? = some d → i = w - 1 := by
      intro i d h1 h2
      have hi : i < (s :: t :: r).length := (List.getElem?_eq_some_iff.mp h1).1
      exact (List.getElem?_inj hi hnd).mp (h1.trans h2.symm)
    by_cases h1 : w = 1
    · subst h1
      have : s = c := by simpa using hc
      rw [if_pos this.symm, if_neg (by omega)]
    · by_cases h2 : w = 2
      · subst h2
        have : t = c := by simpa using hc
        rw [if_neg (by rw [← this]; exact hst), if_pos this.symm, if_neg (by omega)]
      · rw [if_neg, if_neg, if_pos (by omega)]
        · intro e
          have := hinj 1 t rfl (by rw [hc, e])
          omega
        · intro e
          have := hinj 0 s rfl (by rw [hc, e])
          omega

/-- C08 for any number of species: let `s` and `t` be the first two kinds of sites in the decoration. Every orbit that is
not superperiodic is represented by exactly one of the structures returned, provided that no superperiodic structure has
its `s` and `t` in the same places. (For three species such a structure would be superperiodic itself.) -/
theorem C08_any_species (a : BArgs) (h : SuperCall a) (s t : Site) (u v : Config) (hdec : a.decor = s :: u ++ t :: v)
    (hu : ∀ c ∈ u, c = s) (hst : t ≠ s) :
    ∃ L, brancher a = some (.ok L) ∧ L.Nodup ∧
      (∀ z ∈ L, z.Perm a.decor ∧ ¬ Superperiodic ((a.group.take a.cellsize).map (·.1)) z) ∧
      ∀ z : Config, z.Perm a.decor → ¬ Superperiodic ((a.group.take a.cellsize).map (·.1)) z →
        (∀ w : Config, w.Perm a.decor → Superperiodic ((a.group.take a.cellsize).map (·.1)) w → places s t w ≠ places s t z) →
        ∃! w, w ∈ L ∧ Equiv (a.group.map (·.1)) w z := by
  obtain ⟨L, h1, h2, h3, h4⟩ := C08_core h
  refine ⟨L, h1, h2, h3, ?_⟩
  intro z hz hs hno
  apply h4 z hz hs
  rintro x hx ⟨σ, hσ, hxz⟩ ⟨i, y, hi1, hi2, -, hy, hag, -, hsy, -⟩
  have hd := h.concs'
  have hyl : (paint a.decor y).length = a.decor.length := paint_length (labx hd hy)
  apply hno (permute σ (paint a.decor y))
  · exact (h.grp.permute_perm' hσ _ hyl).trans (paint_perm (labx hd hy))
  · exact h.super_invariant hyl ⟨σ, hσ, rfl⟩ ((h.superX_iff hy).mp hsy)
  · have hcut : cut 2 y = cut 2 x := (cut_iff hy hx 1 (by have : i < a.concs.length := hi2; omega)).mpr (hag.mono (by omega))
    have key : ∀ z : Config, places s t (permute σ z) = permute σ (places s t z) := by
      intro z; unfold places; rw [permute_map]
    rw [key, places_paint h hdec hu hst hy, hcut, ← places_paint h hdec hu hst hx, ← key, hxz]

/-! The counterexample: the eight translations of a 2x2x2 cell, four species with two atoms each. -/

/-- translations of Z2 x Z2 x Z2 in the lexicographic site numbering -/
def cubeGroup : List Op :=
  (List.range 8).map (fun t => ((List.range 8).map (fun j => Nat.xor j t), List.range 6))

/-- the call -/
def cubeCall : BArgs :=
  { concs := [2, 2, 2, 2], group := cubeGroup,
    decor := [(-1, 1), (-1, 1), (-1, 2), (-1, 2), (-1, 3), (-1, 3), (-1, 4), (-1, 4)],
    dim := 6, supers := false, cellsize := 8, subset := .none, accept := false,
    acceptDraw := fun _ => false, acceptArrow := fun _ _ => false }

theorem cubeGroup_ok : IsPermGroup 8 (cubeGroup.map (·.1)) where
  perm := by decide
  one := by decide
  mul := by decide +kernel
  inv := by decide +kernel

theorem cubeCall_ok : SuperCall cubeCall where
  nonempty := by decide
  concs := by decide +kernel
  supers := rfl
  accept := rfl
  nosub := Or.inl rfl
  noarrow := by decide
  grp := cubeGroup_ok
  enough := by decide
  first := by decide
  distinct := by decide +kernel
  normal := by decide +kernel

instance (m : Nat) (f g : Nat → Nat) : Decidable (Agree m f g) := by unfold Agree; infer_instance
instance (m : Nat) (f g : Nat → Nat) : Decidable (llt m f g) := by unfold llt; infer_instance

/-- C08 is false for four species: a structure that no non-trivial translation fixes is not represented in the
result at all, because the search does not descend below a node whose own first completion is superperiodic. -/
theorem C08_counterexample : SuperCall cubeCall ∧ ∃ L, brancher cubeCall = some (.ok L) ∧
    ∃ z : Config, z.Perm cubeCall.decor ∧
      ¬ Superperiodic ((cubeCall.group.take cubeCall.cellsize).map (·.1)) z ∧
      ∀ w ∈ L, ¬ Equiv (cubeCall.group.map (·.1)) w z := by
  have h := cubeCall_ok
  obtain ⟨X, h1, h2, h3⟩ := h.result
  refine ⟨h, _, h3, [(-1, 1), (-1, 1), (-1, 3), (-1, 4), (-1, 2), (-1, 2), (-1, 3), (-1, 4)], by decide, ?_, ?_⟩
  · unfold Superperiodic; decide +kernel
  · intro w hw he
    obtain ⟨y, hy, rfl⟩ := List.mem_map.mp hw
    have hy' := ((h2 y).mp hy).1
    have hx : IsLabelling cubeCall.concs [1, 1, 3, 4, 2, 2, 3, 4] := by
      refine ⟨by decide, ?_⟩
      intro i hi
      have : i = 0 ∨ i = 1 ∨ i = 2 ∨ i = 3 := by
        have : i < 4 := hi
        omega
      rcases this with rfl | rfl | rfl | rfl <;> rfl
    have hz : IsLabelling cubeCall.concs [1, 1, 3, 3, 2, 2, 4, 4] := by
      refine ⟨by decide, ?_⟩
      intro i hi
      have : i = 0 ∨ i = 1 ∨ i = 2 ∨ i = 3 := by
        have : i < 4 := hi
        omega
      rcases this with rfl | rfl | rfl | rfl <;> rfl
    have hpaint : paint cubeCall.decor [1, 1, 3, 4, 2, 2, 3, 4] =
        [(-1, 1), (-1, 1), (-1, 3), (-1, 4), (-1, 2), (-1, 2), (-1, 3), (-1, 4)] := by decide +kernel
    have hpc : PC cubeCall.G cubeCall.concs.length [1, 1, 3, 4, 2, 2, 3, 4] := by
      unfold PC; decide +kernel
    rw [← hpaint] at he
    obtain ⟨σ, hσ, e⟩ := he
    rw [permute_paint (labx h.concs' hy'.1) (h.grp.perm σ hσ)] at e
    have e' := paint_inj (labx h.concs' (lab_permute h.grp' hy'.1 hσ)) (labx h.concs' hx) e
    have hyx := canon_unique h.grp' hy'.1 hx hy'.2.1 hpc ⟨σ, hσ, e'⟩
    subst hyx
    apply hy'.2.2
    refine ⟨1, [1, 1, 3, 3, 2, 2, 4, 4], by omega, by decide, by decide +kernel, hz, by decide +kernel, ?_, ?_, by decide⟩
    · intro j h1 h2
      have : j = 2 ∨ j = 3 := by
        have : j < 4 := h2
        omega
      rcases this with rfl | rfl <;> decide +kernel
    · exact ⟨1, by omega, by decide, ([1, 0, 3, 2, 5, 4, 7, 6], List.range 6), by decide, by decide, by decide⟩

/-! Non-vacuity of C07 and of the three-species theorem. -/

example : IsPermGroup 8 (cubeGroup.map (·.1)) ∧ (∀ g ∈ cubeGroup, g.2.Perm (List.range 6)) :=
  ⟨cubeGroup_ok, by decide⟩

/-- the same cell with three species -/
def cubeCall3 : BArgs := { cubeCall with concs := [4, 2, 2], decor := [(-1, 1), (-1, 1), (-1, 1), (-1, 1), (-1, 2), (-1, 2), (-1, 3), (-1, 3)] }

example : SuperCall cubeCall3 ∧ cubeCall3.concs.length ≤ 3 :=
  ⟨⟨by decide, by decide +kernel, rfl, rfl, Or.inl rfl, by decide, cubeGroup_ok, by decide, by decide, by decide +kernel,
    by decide +kernel⟩, by decide⟩

/-- the hypotheses of `C08_any_species` are met by a structure with four species -/
example : SuperCall cubeCall ∧ cubeCall.decor = (-1, 1) :: [(-1, 1)] ++ (-1, 2) :: [(-1, 2), (-1, 3), (-1, 3), (-1, 4), (-1, 4)] ∧
    let z : Config := [(-1, 1), (-1, 1), (-1, 2), (-1, 3), (-1, 2), (-1, 4), (-1, 3), (-1, 4)]
    z.Perm cubeCall.decor ∧ ¬ Superperiodic ((cubeCall.group.take cubeCall.cellsize).map (·.1)) z ∧
    ∀ w : Config, w.Perm cubeCall.decor → Superperiodic ((cubeCall.group.take cubeCall.cellsize).map (·.1)) w →
      places (-1, 1) (-1, 2) w ≠ places (-1, 1) (-1, 2) z := by
  refine ⟨cubeCall_ok, by decide, by decide, by unfold Superperiodic; decide +kernel, ?_⟩
  rintro w hw ⟨τ, hτ, hne, hfix⟩ he
  have h1 : permute τ (places (-1, 1) (-1, 2) w) = places (-1, 1) (-1, 2) w := by
    conv_rhs => rw [← hfix]
    unfold places
    rw [permute_map]
  rw [he] at h1
  have hl : w.length = 8 := hw.length_eq
  rw [hl] at hne
  clear hfix
  revert τ
  decide +kernel

example : ¬ Superperiodic (cubeGroup.map (·.1))
    [(-1, 1), (-1, 1), (-1, 1), (-1, 2), (-1, 1), (-1, 2), (-1, 3), (-1, 3)] := by
  unfold Superperiodic; decide +kernel

end Phenum
