import Verif.Proof.Closure
import Verif.Spec.Arrows
/-
C36: building a group from generators.
-/
namespace Phenum
open Spec

/-- `L` lists, without repetition, the smallest permutation group on `n` positions that contains the generators. -/
structure Spec.IsGeneratedGroup (n : ℕ) (gens L : List (List ℕ)) : Prop where
  nodup : L.Nodup
  group : IsPermGroup n L
  contains : ∀ g ∈ gens, g ∈ L
  least : ∀ G, IsPermGroup n G → (∀ g ∈ gens, g ∈ G) → ∀ g ∈ L, g ∈ G

/-- C36 (`group`). For every non-empty list of permutations of `n ≥ 2` positions, numbered from 0 or all numbered from
1, `group` terminates and returns exactly the group they generate, each element once. -/
theorem C36_group (n : ℕ) (hn : 2 ≤ n) (gens : List (List ℕ)) (hne : gens ≠ []) (h : ∀ g ∈ gens, g.Perm (List.range n)) :
    ∃ L, groupOf gens = some (.ok L) ∧ groupOf (gens.map (fun g => g.map (· + 1))) = some (.ok L) ∧
      IsGeneratedGroup n gens L := by
  have hU : ∀ i ∈ gens, i ∈ permsOf n := fun i hi => mem_permsOf.mpr (h i hi)
  obtain ⟨L, h1, h2, h3, h4, h5⟩ := closeUp_ok (isMul_permute hn) hU (gens.flatMap (fun i => gens.map (fun j => (i, j)))) (by
    rintro ⟨i, j⟩ hp
    obtain ⟨i', hi', hp⟩ := List.mem_flatMap.mp hp
    obtain ⟨j', hj', e⟩ := List.mem_map.mp hp
    cases e
    exact ⟨hi', hj'⟩)
  have hmul := closeUp_mul (isMul_permute hn) hU h3 h4 (fun a ha b hb c hc =>
    permute_assoc' (mem_permsOf.mp ha) (mem_permsOf.mp hb) (mem_permsOf.mp hc))
  have hperm : ∀ x ∈ L, x.Perm (List.range n) := fun x hx => mem_permsOf.mp (h3 x hx).1
  obtain ⟨g0, t, rfl⟩ := List.exists_cons_of_ne_nil hne
  have hLne : L ≠ [] := by
    have := h5 (g0, g0) (List.mem_flatMap.mpr ⟨g0, by simp, List.mem_map.mpr ⟨g0, by simp, rfl⟩⟩)
    exact List.ne_nil_of_mem this
  obtain ⟨hone, hinv⟩ := closed_is_group (isMul_permute hn) (fun x hx => (h3 x hx).1) hLne hmul
    (mem_permsOf.mpr (List.Perm.refl (List.range n))) (fun x hx => permute_one (mem_permsOf.mp hx))
  have hzero : 0 ∈ g0 := (h g0 (by simp)).mem_iff.mpr (by rw [List.mem_range]; omega)
  refine ⟨L, ?_, ?_, h2, ⟨hperm, hone, fun σ hσ τ hτ => hmul τ hτ σ hσ, ?_⟩, ?_, ?_⟩
  · unfold groupOf
    simp only [if_pos hzero, h1]
  · unfold groupOf
    simp only [List.map_cons]
    rw [if_neg (by simp)]
    have e : ∀ l : List (List ℕ), (l.map (fun g => g.map (· + 1))).map (fun g => g.map (· - 1)) = l := by
      intro l
      rw [List.map_map]
      conv_rhs => rw [← List.map_id l]
      apply List.map_congr_left
      intro g _
      simp only [Function.comp, List.map_map, id]
      conv_rhs => rw [← List.map_id g]
      apply List.map_congr_left
      intro x _
      simp
    have := e (g0 :: t)
    simp only [List.map_cons] at this
    rw [this]
    exact h1
  · exact left_inverses (fun x hx y hy z hz => permute_assoc' (hperm x hx) (hperm y hy) (hperm z hz))
      (fun x hx => permute_one (hperm x hx)) (fun x hx => one_permute (hperm x hx)) hinv
  · intro g hg
    have := h4 g hg _ hone
    rwa [permute_one (h g hg)] at this
  · intro G hG hsub x hx
    exact (h3 x hx).2 (· ∈ G) hsub (fun i hi y hy => hG.mul y hy i (hsub i hi))

/-- two generators of the symmetric group on three positions -/
example : (∀ g ∈ [[1, 0, 2], [1, 2, 0]], g.Perm (List.range 3)) := by decide

/-- C36 (limit of `group`). On a single position the routine fails with a TypeError (`itemgetter` of one index does not
return a list). -/
theorem C36_group_degree_one : groupOf [[0]] = some (.error .typeError) := by
  simp [groupOf, closeUp, pairLoop, pairStep, igetApply]

/-- `L` lists, without repetition, the smallest set of paired permutations that contains the generators, the identity
and inverses, and is closed under composing both components in the same order. -/
structure Spec.IsGeneratedPairs (n d : ℕ) (gens L : List (List ℕ × List ℕ)) : Prop where
  nodup : L.Nodup
  perms : ∀ g ∈ L, g.1.Perm (List.range n) ∧ g.2.Perm (List.range d)
  one : (List.range n, List.range d) ∈ L
  mul : ∀ g ∈ L, ∀ h ∈ L, (permute g.1 h.1, permute g.2 h.2) ∈ L
  inv : ∀ g ∈ L, ∃ h ∈ L, permute h.1 g.1 = List.range n ∧ permute h.2 g.2 = List.range d
  contains : ∀ g ∈ gens, g ∈ L
  least : ∀ G : List (List ℕ × List ℕ), (∀ g ∈ gens, g ∈ G) → (∀ g ∈ gens, ∀ h ∈ G, (permute g.1 h.1, permute g.2 h.2) ∈ G) →
    ∀ g ∈ L, g ∈ G

/-- C36 (`_group`). For generators that are pairs of permutations, at least two of them different, `_group` terminates
and returns exactly the group they generate (componentwise composition), each element once. -/
theorem C36_pairs (n d : ℕ) (gens : List (List ℕ × List ℕ)) (h : ∀ g ∈ gens, g.1.Perm (List.range n) ∧ g.2.Perm (List.range d))
    (h2 : ∃ g ∈ gens, ∃ g' ∈ gens, g ≠ g') :
    ∃ L, opGroupOf gens = some (.ok L) ∧ IsGeneratedPairs n d gens L := by
  have hm : ∀ g, g ∈ permsOf n ×ˢ permsOf d ↔ g.1.Perm (List.range n) ∧ g.2.Perm (List.range d) := by
    intro g; rw [Finset.mem_product, mem_permsOf, mem_permsOf]
  have hU : ∀ i ∈ gens, i ∈ permsOf n ×ˢ permsOf d := fun i hi => (hm i).mpr (h i hi)
  obtain ⟨L, h1, hnd, h3, h4, h5⟩ := closeUp_ok isMul_op hU
    (gens.flatMap (fun i => (gens.filter (fun k => k ≠ i)).map (fun j => (i, j)))) (by
    rintro ⟨i, j⟩ hp
    obtain ⟨i', hi', hp⟩ := List.mem_flatMap.mp hp
    obtain ⟨j', hj', e⟩ := List.mem_map.mp hp
    cases e
    exact ⟨hi', (List.mem_filter.mp hj').1⟩)
  have hperm : ∀ x ∈ L, x.1.Perm (List.range n) ∧ x.2.Perm (List.range d) := fun x hx => (hm x).mp (h3 x hx).1
  have hass : ∀ a ∈ permsOf n ×ˢ permsOf d, ∀ b ∈ permsOf n ×ˢ permsOf d, ∀ c ∈ permsOf n ×ˢ permsOf d,
      opMul (opMul a b) c = opMul a (opMul b c) := by
    intro a ha b hb c hc
    rw [hm] at ha hb hc
    exact Prod.ext (permute_assoc' ha.1 hb.1 hc.1) (permute_assoc' ha.2 hb.2 hc.2)
  have hmul := closeUp_mul isMul_op hU h3 h4 hass
  have hone' : ∀ x ∈ permsOf n ×ˢ permsOf d, opMul x (List.range n, List.range d) = x := by
    intro x hx
    rw [hm] at hx
    exact Prod.ext (permute_one hx.1) (permute_one hx.2)
  have hLne : L ≠ [] := by
    obtain ⟨g, hg, g', hg', hne⟩ := h2
    have := h5 (g, g') (List.mem_flatMap.mpr ⟨g, hg, List.mem_map.mpr ⟨g', List.mem_filter.mpr ⟨hg', by simpa using hne.symm⟩, rfl⟩⟩)
    exact List.ne_nil_of_mem this
  obtain ⟨hone, hinv⟩ := closed_is_group isMul_op (fun x hx => (h3 x hx).1) hLne hmul
    ((hm _).mpr ⟨List.Perm.refl _, List.Perm.refl _⟩) hone'
  refine ⟨L, h1, hnd, hperm, hone, hmul, ?_, ?_, ?_⟩
  · intro g hg
    obtain ⟨y, hy, e⟩ := left_inverses (fun x hx y hy z hz => hass x (h3 x hx).1 y (h3 y hy).1 z (h3 z hz).1)
      (fun x hx => hone' x (h3 x hx).1)
      (fun x hx => Prod.ext (one_permute (hperm x hx).1) (one_permute (hperm x hx).2)) hinv g hg
    exact ⟨y, hy, congrArg Prod.fst e, congrArg Prod.snd e⟩
  · intro g hg
    have := h4 g hg _ hone
    rwa [hone' g (hU g hg)] at this
  · intro G hsub hc x hx
    exact (h3 x hx).2 (· ∈ G) hsub hc

/-- C36 (failure of `_group`). With a single generator, or copies of one, `_group` returns the empty list instead of
the cyclic group. -/
theorem C36_pairs_single (g : List ℕ × List ℕ) (k : ℕ) : opGroupOf (List.replicate k g) = some (.ok []) := by
  have e : ∀ l : List Op, (∀ x ∈ l, x = g) → (l.flatMap (fun i => ((List.replicate k g).filter (fun k => k ≠ i)).map (fun j => (i, j)))) = [] := by
    intro l hl
    rw [List.flatMap_eq_nil_iff]
    intro i hi
    rw [hl i hi]
    simp
  unfold opGroupOf closeUp
  rw [e _ (fun x hx => List.eq_of_mem_replicate hx)]
  simp only [pairLoop]
  have e2 : ∀ l : List Op, l.flatMap (fun i => ([] : List Op).map (fun h => (i, h))) = [] := by
    intro l; simp
  unfold closeLoop
  rw [pyWhile_unfold]
  simp only [if_true, e2, newElems]
  simp only [bind, Except.bind]
  rw [pyWhile_unfold]
  simp

/-- the symmetric group on three positions acting on three sites and, in the convention of the enumeration, on three
arrow directions -/
def exPairs : List (List ℕ × List ℕ) :=
  [([0, 1, 2], [0, 1, 2]), ([1, 0, 2], [1, 0, 2]), ([0, 2, 1], [0, 2, 1]), ([2, 1, 0], [2, 1, 0]), ([1, 2, 0], [2, 0, 1]), ([2, 0, 1], [1, 2, 0])]

theorem exPairs_ok : IsOpGroup 3 3 exPairs where
  sites := by decide
  arrows := by decide
  one := by decide
  mul := by decide
  inv := by decide

/-- C36 (failure of `_group` on symmetry groups). Symmetry groups of the enumeration are closed under composing sites
and arrows in opposite order (`IsOpGroup`). Started from two elements of such a group, `_group` leaves the group. -/
theorem C36_pairs_leave_group : ∃ (G gens : List (List ℕ × List ℕ)), IsOpGroup 3 3 G ∧ (∀ g ∈ gens, g ∈ G) ∧
    ∃ L, opGroupOf gens = some (.ok L) ∧ ∃ x ∈ L, x ∉ G := by
  refine ⟨exPairs, [([1, 0, 2], [1, 0, 2]), ([1, 2, 0], [2, 0, 1])], exPairs_ok, by decide, ?_⟩
  obtain ⟨L, h1, h2⟩ := C36_pairs 3 3 [([1, 0, 2], [1, 0, 2]), ([1, 2, 0], [2, 0, 1])] (by decide)
    ⟨([1, 0, 2], [1, 0, 2]), by decide, ([1, 2, 0], [2, 0, 1]), by decide, by decide⟩
  refine ⟨L, h1, _, h2.mul ([1, 0, 2], [1, 0, 2]) (h2.contains _ (by decide)) ([1, 2, 0], [2, 0, 1]) (h2.contains _ (by decide)), ?_⟩
  decide

/-- C36 (`a_group`). For translations forming a group and rotations forming a group of paired operations that normalise
the translations, `a_group` returns each product of a translation and a rotation exactly once, and the result is a
group of paired operations. -/
theorem C36_a_group (n d : ℕ) (trans : List (List ℕ)) (rots : List (List ℕ × List ℕ)) (hT : IsPermGroup n trans)
    (hR : IsOpGroup n d rots)
    (hnorm : ∀ r ∈ rots, ∀ t ∈ trans, ∃ t' ∈ trans, permute r.1 t = permute t' r.1) :
    ∃ L, aGroup trans rots = .ok L ∧ L.Nodup ∧ (∀ x, x ∈ L ↔ ∃ t ∈ trans, ∃ r ∈ rots, x = (permute t r.1, r.2)) ∧
      IsOpGroup n d L := by
  obtain ⟨L, h1, h2, h3⟩ := aGroupLoop_ok (trans.flatMap (fun i => rots.map (fun j => (i, j)))) (by
    rintro ⟨i, j⟩ hp
    obtain ⟨i', hi', hp⟩ := List.mem_flatMap.mp hp
    obtain ⟨j', hj', e⟩ := List.mem_map.mp hp
    cases e
    simp only
    rw [perm_range_length (hR.sites _ hj')]
    exact hT.lt hi') [] List.nodup_nil
  have hmem : ∀ x, x ∈ L ↔ ∃ t ∈ trans, ∃ r ∈ rots, x = (permute t r.1, r.2) := by
    intro x
    rw [h3]
    constructor
    · rintro (h | ⟨⟨i, j⟩, hp, rfl⟩)
      · simp at h
      · obtain ⟨i', hi', hp⟩ := List.mem_flatMap.mp hp
        obtain ⟨j', hj', e⟩ := List.mem_map.mp hp
        cases e
        exact ⟨_, hi', _, hj', rfl⟩
    · rintro ⟨t, ht, r, hr, rfl⟩
      exact Or.inr ⟨(t, r), List.mem_flatMap.mpr ⟨t, ht, List.mem_map.mpr ⟨r, hr, rfl⟩⟩, rfl⟩
  have hs : ∀ g ∈ L, g.1.Perm (List.range n) := by
    intro g hg
    obtain ⟨t, ht, r, hr, rfl⟩ := (hmem g).mp hg
    exact permute_mem_permsOf (hT.perm t ht) (hR.sites r hr)
  have ha : ∀ g ∈ L, g.2.Perm (List.range d) := by
    intro g hg
    obtain ⟨t, ht, r, hr, rfl⟩ := (hmem g).mp hg
    exact hR.arrows r hr
  have hU : ∀ x ∈ L, x ∈ permsOf n ×ˢ permsOf d := by
    intro x hx
    rw [Finset.mem_product, mem_permsOf, mem_permsOf]
    exact ⟨hs x hx, ha x hx⟩
  have hone : (List.range n, List.range d) ∈ L := by
    rw [hmem]
    refine ⟨_, hT.one, _, hR.one, ?_⟩
    rw [permute_one (List.Perm.refl _)]
  have hmul : ∀ x ∈ L, ∀ y ∈ L, opComp x y ∈ L := by
    intro x hx y hy
    obtain ⟨t', ht', r', hr', rfl⟩ := (hmem x).mp hx
    obtain ⟨t, ht, r, hr, rfl⟩ := (hmem y).mp hy
    obtain ⟨t'', ht'', e⟩ := hnorm r' hr' t ht
    rw [hmem]
    refine ⟨permute t' t'', hT.mul _ ht'' _ ht', _, hR.mul r hr r' hr', ?_⟩
    unfold opComp
    simp only [Prod.mk.injEq, and_true]
    have p1 := hT.perm t ht
    have p2 := hT.perm t' ht'
    have p3 := hT.perm t'' ht''
    have q := hR.sites r hr
    have q' := hR.sites r' hr'
    rw [permute_assoc' p2 q' (permute_mem_permsOf p1 q), ← permute_assoc' q' p1 q, e, permute_assoc' p3 q' q,
      permute_assoc' p2 p3 (permute_mem_permsOf q' q)]
  have hid : ∀ x ∈ permsOf n ×ˢ permsOf d, opComp x (List.range n, List.range d) = x := by
    intro x hx
    rw [Finset.mem_product, mem_permsOf, mem_permsOf] at hx
    exact Prod.ext (permute_one hx.1) (one_permute hx.2)
  obtain ⟨-, hinv⟩ := closed_is_group isMul_opComp hU (List.ne_nil_of_mem hone) hmul
    (by rw [Finset.mem_product, mem_permsOf, mem_permsOf]; exact ⟨List.Perm.refl _, List.Perm.refl _⟩) hid
  refine ⟨L, h1, h2, hmem, hs, ha, hone, fun g hg h hh => hmul h hh g hg, ?_⟩
  intro g hg
  obtain ⟨y, hy, e⟩ := left_inverses (fun x hx y hy z hz => Prod.ext (permute_assoc' (hs x hx) (hs y hy) (hs z hz))
      (permute_assoc' (ha z hz) (ha y hy) (ha x hx)).symm)
    (fun x hx => hid x (hU x hx)) (fun x hx => Prod.ext (one_permute (hs x hx)) (permute_one (ha x hx))) hinv g hg
  exact ⟨y, hy, congrArg Prod.fst e, congrArg Prod.snd e⟩

/-- two translations of a two-site cell, with a rotation that reverses the sites' order and three arrows -/
example : IsPermGroup 2 [[0, 1], [1, 0]] ∧ IsOpGroup 2 3 [([0, 1], [0, 1, 2]), ([0, 1], [1, 0, 2])] ∧
    (∀ r ∈ [([0, 1], [0, 1, 2]), ([0, 1], [1, 0, 2])], ∀ t ∈ [[0, 1], [1, 0]], ∃ t' ∈ [[0, 1], [1, 0]], permute r.1 t = permute t' r.1) :=
  ⟨⟨by decide, by decide, by decide, by decide⟩, ⟨by decide, by decide, by decide, by decide, by decide⟩, by decide⟩

/-- C36 (`a_group_gen`). For any translations and any paired rotations whose products are not all the same, `a_group_gen` terminates
and returns the group generated by the products (composing sites and arrows in the same order), each element once. -/
theorem C36_a_group_gen (n d : ℕ) (trans : List (List ℕ)) (rots : List (List ℕ × List ℕ)) (hT : ∀ t ∈ trans, t.Perm (List.range n))
    (hR : ∀ r ∈ rots, r.1.Perm (List.range n) ∧ r.2.Perm (List.range d))
    (h2 : ∃ t ∈ trans, ∃ r ∈ rots, ∃ t' ∈ trans, ∃ r' ∈ rots, (permute t r.1, r.2) ≠ (permute t' r'.1, r'.2)) :
    ∃ gens L, (∀ x, x ∈ gens ↔ ∃ t ∈ trans, ∃ r ∈ rots, x = (permute t r.1, r.2)) ∧ aGroupGen trans rots = some (.ok L) ∧
      IsGeneratedPairs n d gens L := by
  obtain ⟨gens, h1, -, h3⟩ := aGroupLoop_ok (trans.flatMap (fun i => rots.map (fun j => (i, j)))) (by
    rintro ⟨i, j⟩ hp
    obtain ⟨i', hi', hp⟩ := List.mem_flatMap.mp hp
    obtain ⟨j', hj', e⟩ := List.mem_map.mp hp
    cases e
    simp only
    rw [perm_range_length (hR _ hj').1]
    intro k hk
    simpa using (hT _ hi').mem_iff.mp hk) [] List.nodup_nil
  have hmem : ∀ x, x ∈ gens ↔ ∃ t ∈ trans, ∃ r ∈ rots, x = (permute t r.1, r.2) := by
    intro x
    rw [h3]
    constructor
    · rintro (h | ⟨⟨i, j⟩, hp, rfl⟩)
      · simp at h
      · obtain ⟨i', hi', hp⟩ := List.mem_flatMap.mp hp
        obtain ⟨j', hj', e⟩ := List.mem_map.mp hp
        cases e
        exact ⟨_, hi', _, hj', rfl⟩
    · rintro ⟨t, ht, r, hr, rfl⟩
      exact Or.inr ⟨(t, r), List.mem_flatMap.mpr ⟨t, ht, List.mem_map.mpr ⟨r, hr, rfl⟩⟩, rfl⟩
  obtain ⟨t, ht, r, hr, t', ht', r', hr', hne⟩ := h2
  obtain ⟨L, e, hL⟩ := C36_pairs n d gens (by
    intro g hg
    obtain ⟨t, ht, r, hr, rfl⟩ := (hmem g).mp hg
    exact ⟨permute_mem_permsOf (hT t ht) (hR r hr).1, (hR r hr).2⟩)
    ⟨_, (hmem _).mpr ⟨t, ht, r, hr, rfl⟩, _, (hmem _).mpr ⟨t', ht', r', hr', rfl⟩, hne⟩
  refine ⟨gens, L, hmem, ?_, hL⟩
  unfold aGroupGen aGroup
  rw [h1]
  exact e

/-- one translation of a three-site cell and two rotations -/
example : (∀ t ∈ [[1, 2, 0]], t.Perm (List.range 3)) ∧
    (∀ r ∈ [([0, 1, 2], [0, 1]), ([1, 0, 2], [1, 0])], r.1.Perm (List.range 3) ∧ r.2.Perm (List.range 2)) ∧
    ∃ t ∈ [[1, 2, 0]], ∃ r ∈ [([0, 1, 2], [0, 1]), ([1, 0, 2], [1, 0])], ∃ t' ∈ [[1, 2, 0]], ∃ r' ∈ [([0, 1, 2], [0, 1]), ([1, 0, 2], [1, 0])],
      (permute t r.1, r.2) ≠ (permute t' r'.1, r'.2) := by decide

end Phenum
