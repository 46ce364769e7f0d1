import Verif.Proof.Subset
/-
C06, C07, C09, C11, C12: the tree search and the arrow enumeration.
-/
namespace Phenum
open Spec

/-- The arguments with which `enum_sys` calls `brancher`: the concentrations are those of the decoration
(`how_many_arrows`), superperiodic structures are kept, and no acceptance rate is given. -/
structure StdCall (a : BArgs) : Prop where
  nonempty : a.decor ≠ []
  concs : a.concs = (howManyArrows a.decor).2.2
  supers : a.supers = true
  accept : a.accept = false

theorem StdCall.concs' {a : BArgs} (h : StdCall a) : a.concs = findConcentrations a.decor := h.concs

theorem StdCall.ne {a : BArgs} (h : StdCall a) : a.concs ≠ [] := by
  intro hc
  have h1 := h.concs'
  rw [hc] at h1
  have h2 := findConcentrations_sum a.decor
  rw [← h1] at h2
  exact h.nonempty (List.length_eq_zero_iff.mp h2.symm)

theorem StdCall.pos {a : BArgs} (h : StdCall a) : ∀ c ∈ a.concs, 1 ≤ c := by
  rw [h.concs']; exact findConcentrations_pos _

theorem StdCall.grp {a : BArgs} (h : StdCall a) (hG : IsPermGroup a.decor.length (a.group.map (·.1))) :
    IsPermGroup a.concs.sum a.G := by
  rw [h.concs', findConcentrations_sum]; exact hG

theorem plain_orbits {a : BArgs} (h : StdCall a) (hG : IsPermGroup a.decor.length (a.group.map (·.1)))
    {X : List (List Nat)} (hX : Canon a X) :
    (X.flatMap (fun x => [paint a.decor x])).Nodup ∧
    (∀ z ∈ X.flatMap (fun x => [paint a.decor x]), z.Perm a.decor) ∧
    ∀ z : Config, z.Perm a.decor →
      ∃! w, w ∈ X.flatMap (fun x => [paint a.decor x]) ∧ Equiv (a.group.map (·.1)) w z := by
  have hd := h.concs'
  have hG' := h.grp hG
  rw [show X.flatMap (fun x => [paint a.decor x]) = X.map (paint a.decor) from List.map_eq_flatMap.symm]
  refine ⟨?_, ?_, ?_⟩
  · apply List.Nodup.map_on _ hX.nodup
    intro x hx y hy e
    exact paint_inj (labx hd ((hX.mem x).mp hx).1) (labx hd ((hX.mem y).mp hy).1) e
  · intro z hz
    obtain ⟨x, hx, rfl⟩ := List.mem_map.mp hz
    exact paint_perm (labx hd ((hX.mem x).mp hx).1)
  · intro z hz
    have hx0 : IsLabelling a.concs (unpaint a.decor z) := by rw [hd]; exact unpaint_labelling hz
    obtain ⟨x, hx, hpc, σ, hσ, hσx⟩ := exists_canon hG' hx0
    have hpx : paint a.decor x = permute σ z := by
      rw [← hσx, permute_unpaint]
      apply paint_unpaint
      intro s hs
      exact hz.mem_iff.mp ((hG.permute_perm' hσ z hz.length_eq).mem_iff.mp hs)
    refine ⟨paint a.decor x, ⟨List.mem_map.mpr ⟨x, (hX.mem x).mpr ⟨hx, hpc⟩, rfl⟩, ?_⟩, ?_⟩
    · rw [hpx]; exact hG.equiv_symm hz.length_eq ⟨σ, hσ, rfl⟩
    · rintro w ⟨hw, τ, hτ, hwz⟩
      obtain ⟨y, hy, rfl⟩ := List.mem_map.mp hw
      have hy' := (hX.mem y).mp hy
      congr 1
      apply canon_unique hG' hy'.1 hx hy'.2 hpc
      have e : unpaint a.decor z = permute τ y := by
        rw [← hwz, ← permute_unpaint, unpaint_paint (lab_range (labx hd hy'.1))]
      refine hG'.equiv_trans (lab_len hy'.1) ⟨τ, hτ, e.symm⟩ ⟨σ, hσ, hσx⟩

/-- C06 (and C07 for this call). For every permutation group and every decoration without arrows, the tree
search terminates without error and returns, without repetition, rearrangements of the decoration, exactly one
of each symmetry orbit. -/
theorem C06_one_per_orbit (a : BArgs) (h : StdCall a) (hnone : a.subset = .none)
    (hG : IsPermGroup a.decor.length (a.group.map (·.1))) (hna : ∀ s ∈ a.decor, s.1 = -1) :
    ∃ L, brancher a = some (.ok L) ∧ L.Nodup ∧ (∀ z ∈ L, z.Perm a.decor) ∧
      ∀ z : Config, z.Perm a.decor → ∃! w, w ∈ L ∧ Equiv (a.group.map (·.1)) w z := by
  obtain ⟨X, hX, hb⟩ := brancher_full h.ne h.pos (h.grp hG) (by simp [h.supers]) (emOk_plain h.concs' hna)
    (by unfold useSubset; rw [hnone, h.accept])
  exact ⟨_, hb, plain_orbits h hG hX⟩

/-- C09. With a non-empty list of ordinals, `brancher` returns exactly the structures which the full
enumeration lists at these (1-based) positions, in the same order (no arrows). -/
theorem C09_subset_colours (a : BArgs) (h : StdCall a) (l : List Nat) (hl : l ≠ []) (hsub : a.subset = .list l)
    (hG : IsPermGroup a.decor.length (a.group.map (·.1))) (hna : ∀ s ∈ a.decor, s.1 = -1) :
    ∃ L, brancher { a with subset := .none } = some (.ok L) ∧
      brancher a = some (.ok (selectPositions l L)) := by
  have h' : StdCall { a with subset := .none } := ⟨h.nonempty, h.concs, h.supers, h.accept⟩
  obtain ⟨X, hX, hb⟩ := brancher_full (a := { a with subset := .none }) h'.ne h'.pos (h'.grp hG) (by simp [h.supers])
    (emOk_plain h'.concs' hna) (by unfold useSubset; exact h.accept)
  exact ⟨_, hb, brancher_subset h.ne h.pos (h.grp hG) (by simp [h.supers]) (emOk_plain h.concs' hna) hl hsub
    ⟨hX.sorted, hX.mem⟩⟩

/-- C11. For every group of operations that preserve the colours and arrow sites of `col`, `add_arrows` returns,
without repetition, assignments of directions to the arrow sites of `col`, exactly one of each orbit. -/
theorem C11_arrows (col : Config) (H tr : List Op) (dim : Nat) (hdim : 1 ≤ dim)
    (hH : IsOpGroup col.length dim H) (hfix : ∀ g ∈ H, permute g.1 (erase col) = erase col) :
    ∃ L, addArrows col H dim tr none none true = .ok L ∧ L.Nodup ∧ (∀ z ∈ L, FillsIn dim col z) ∧
      ∀ z, FillsIn dim col z → ∃! w, w ∈ L ∧ OpEquiv H w z :=
  ⟨_, addArrows_eq hdim H hH.opsOk tr, nodup_arrowReps hdim H, fun z hz => ((mem_arrowReps hdim H).mp hz).1,
    fun _ hz => arrowReps_orbit hdim hH rfl hfix hz⟩

/-- Arrow sites of one colour are marked alike in the decoration (`arrow_concs` marks every arrow with 1). -/
def UniformDecor (d : Config) : Prop := ∀ s ∈ d, ∀ t ∈ d, 0 ≤ s.1 → 0 ≤ t.1 → s.2 = t.2 → s = t

theorem UniformDecor.inj {d : Config} (h : UniformDecor d) :
    ∀ s ∈ d, ∀ t ∈ d, erase1 s = erase1 t → s = t := by
  intro s hs t ht e
  have e2 : s.2 = t.2 := by rw [← erase1_snd s, e, erase1_snd]
  have e3 : s.1 < 0 ↔ t.1 < 0 := by rw [← erase1_neg s, e, erase1_neg]
  by_cases hn : s.1 < 0
  · unfold erase1 at e
    rwa [if_pos hn, if_pos (e3.mp hn)] at e
  · exact h s hs t ht (by omega) (by omega) e2

/-- C12 (and C07 for this call). For every group of paired operations and every decoration with arrows, the
combined enumeration terminates without error and returns, without repetition, exactly one configuration of
each orbit of configurations with that composition (colours and arrow sites) and arrows below `dim`. -/
theorem C12_one_per_orbit (a : BArgs) (h : StdCall a) (hnone : a.subset = .none) (hdim : 1 ≤ a.dim)
    (hH : IsOpGroup a.decor.length a.dim a.group) (har : ∃ s ∈ a.decor, 0 ≤ s.1) (huni : UniformDecor a.decor) :
    ∃ L, brancher a = some (.ok L) ∧ L.Nodup ∧
      (∀ z ∈ L, (erase z).Perm (erase a.decor) ∧ ∀ s ∈ z, s.1 < a.dim) ∧
      ∀ z : Config, (erase z).Perm (erase a.decor) → (∀ s ∈ z, s.1 < a.dim) →
        ∃! w, w ∈ L ∧ OpEquiv a.group w z := by
  have hn : 0 < nArr a.decor := by
    obtain ⟨s, hs, h0⟩ := har
    exact List.countP_pos_iff.mpr ⟨s, hs, by simpa using h0⟩
  obtain ⟨X, hX, hb⟩ := brancher_full h.ne h.pos (h.grp hH.permGroup) (by simp [h.supers])
    (emOk_arrows h.concs' hdim hH hn h.supers h.accept) (by unfold useSubset; rw [hnone, h.accept])
  exact ⟨_, hb, flat_orbits h.concs' hdim hH huni.inj hX⟩

/-- C09 for decorations with arrows. -/
theorem C09_subset_arrows (a : BArgs) (h : StdCall a) (l : List Nat) (hl : l ≠ []) (hsub : a.subset = .list l)
    (hdim : 1 ≤ a.dim) (hH : IsOpGroup a.decor.length a.dim a.group) (har : ∃ s ∈ a.decor, 0 ≤ s.1) :
    ∃ L, brancher { a with subset := .none } = some (.ok L) ∧
      brancher a = some (.ok (selectPositions l L)) := by
  have hn : 0 < nArr a.decor := by
    obtain ⟨s, hs, h0⟩ := har
    exact List.countP_pos_iff.mpr ⟨s, hs, by simpa using h0⟩
  have h' : StdCall { a with subset := .none } := ⟨h.nonempty, h.concs, h.supers, h.accept⟩
  obtain ⟨X, hX, hb⟩ := brancher_full (a := { a with subset := .none }) h'.ne h'.pos (h'.grp hH.permGroup) (by simp [h.supers])
    (emOk_arrows h'.concs' hdim hH hn h'.supers h'.accept) (by unfold useSubset; exact h.accept)
  exact ⟨_, hb, brancher_subset h.ne h.pos (h.grp hH.permGroup) (by simp [h.supers])
    (emOk_arrows h.concs' hdim hH hn h.supers h.accept) hl hsub ⟨hX.sorted, hX.mem⟩⟩

/-! Non-vacuity: the translation group of a three-site chain, two sites of species 1 (one of them with an arrow)
and one of species 2. -/

/-- cyclic translations of three sites with trivial arrow permutations of two directions -/
def exGroup : List Op := [([0, 1, 2], [0, 1]), ([1, 2, 0], [0, 1]), ([2, 0, 1], [0, 1])]

theorem exGroup_ok : IsOpGroup 3 2 exGroup where
  sites := by decide
  arrows := by decide
  one := by decide
  mul := by decide
  inv := by decide

/-- an example call -/
def exCall (d : Config) : BArgs :=
  { concs := findConcentrations d, group := exGroup, decor := d, dim := 2, supers := true, cellsize := 3,
    subset := .none, accept := false, acceptDraw := fun _ => false, acceptArrow := fun _ _ => false }

example : StdCall (exCall [(-1, 1), (-1, 1), (-1, 2)]) ∧
    IsPermGroup 3 (exGroup.map (·.1)) ∧ ∀ s ∈ ([(-1, 1), (-1, 1), (-1, 2)] : Config), s.1 = -1 :=
  ⟨⟨by decide, rfl, rfl, rfl⟩, exGroup_ok.permGroup, by decide⟩

example : StdCall (exCall [(-1, 2), (-1, 1), (1, 1)]) ∧ UniformDecor [(-1, 2), (-1, 1), (1, 1)] ∧
    ∃ s ∈ ([(-1, 2), (-1, 1), (1, 1)] : Config), 0 ≤ s.1 :=
  ⟨⟨by decide, rfl, rfl, rfl⟩, by unfold UniformDecor; decide, by decide⟩

example : IsOpGroup 2 2 [([0, 1], [0, 1]), ([1, 0], [1, 0])] ∧
    ∀ g ∈ [([0, 1], [0, 1]), ([1, 0], [1, 0])], permute g.1 (erase [(1, 1), (1, 1)]) = erase [(1, 1), (1, 1)] :=
  ⟨⟨by decide, by decide, by decide, by decide, by decide⟩, by decide⟩

example : addArrows [(1, 1), (1, 1)] [([0, 1], [0, 1]), ([1, 0], [1, 0])] 2 [] none none true =
    .ok [[(0, 1), (0, 1)], [(1, 1), (0, 1)], [(0, 1), (1, 1)]] := by decide

end Phenum
