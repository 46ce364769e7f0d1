import Verif.Proof.Derivative
import Verif.Proof.NoRepeats
import Verif.Props.SymCubic
import Verif.Props.EnumSuper
/-
C56: the enumeration as a whole, at the level of the library calls. Every derivative structure of the parent crystal
is found exactly once.
-/
namespace Phenum
open Spec

/-- a threshold for finitely many statements -/
theorem uniform_threshold {α : Type} (l : List α) {p : α → ℝ → Prop}
    (h : ∀ a ∈ l, ∃ e > 0, ∀ eps, 0 < eps → eps < e → p a eps) :
    ∃ e > 0, ∀ eps, 0 < eps → eps < e → ∀ a ∈ l, p a eps := by
  induction l with
  | nil => exact ⟨1, one_pos, fun _ _ _ a ha => absurd ha (by simp)⟩
  | cons b l ih =>
    obtain ⟨e1, h1, h1'⟩ := h b (by simp)
    obtain ⟨e2, h2, h2'⟩ := ih (fun a ha => h a (by simp [ha]))
    refine ⟨min e1 e2, lt_min h1 h2, fun eps h0 hlt a ha => ?_⟩
    obtain ⟨l1, l2⟩ := lt_min_iff.mp hlt
    rcases List.mem_cons.mp ha with rfl | ha
    · exact h1' eps h0 l1
    · exact h2' eps h0 l2 a ha

/-- The crystals the symmetry search handles (see C53): lattice vectors the rows of `P`, basis atoms `bas`; `cell` lists
their translates in the unit cell, pairwise different; for every symmetry, the rotation and its transpose move all the
atoms of the cell apart by the same lattice vector; and the rotations permute the arrow directions. -/
structure Spec.Usable (P : M3 ℝ) (bas cell : List V3) (arrows : Bool) : Prop where
  det : P.det ≠ 0
  nonempty : bas ≠ []
  reps : List.Forall₂ (fun b c => b - c ∈ ColLattice P.transpose ∧ InCell P c) bas cell
  distinct : ∀ i j, i < cell.length → j < cell.length → cell.getD i 0 - cell.getD j 0 ∈ ColLattice P.transpose → i = j
  conv : ∀ R s, IsCrystalSym (ColLattice P.transpose) (bas.map (fun d => (1, d))) R s →
      ∃ u ∈ ColLattice P.transpose, ∀ d ∈ cell, R.transpose.mulVec d = R.mulVec d + u
  turns : ∀ R s, IsCrystalSym (ColLattice P.transpose) (bas.map (fun d => (1, d))) R s → ∀ k a, IsArrowDir k a →
      ∃ m b, IsArrowDir m b ∧ if arrows then R.mulVec (fun i => (a i : ℝ)) = (fun i => (b i : ℝ))
        else ∀ i, RoundsTo (R.transpose.mulVec (fun i => (b i : ℝ)) i) (a i)

/-- A condition `Q` on the contents of a supercell of `N` sites that depends neither on the order in which the sites are
listed nor on the orientation. Entries are (arrow, species), the arrow is `-1` (none) or, if arrows are used, a direction
`0..5`. -/
structure Spec.IsContents (N : ℕ) (arrows : Bool) (Q : List (ℤ × ℕ) → Prop) : Prop where
  length : ∀ z, Q z → z.length = N
  entries : ∀ z, Q z → ∀ p ∈ z, p.1 = -1 ∨ (arrows = true ∧ 0 ≤ p.1 ∧ p.1 < 6)
  perm : ∀ z z', Q z → z'.Perm z → Q z'
  turn : ∀ z τ, Q z → τ.Perm (List.range 6) → Q (z.map (turn τ))

/-- the superlattice with matrix `M` -/
abbrev Spec.SupLat (P : M3 ℝ) (M : M3 ℤ) : Set V3 := ColLattice (P.transpose * M.map (fun x => (x : ℝ)))

theorem supLat_sub (P : M3 ℝ) (M : M3 ℤ) : SupLat P M ⊆ ColLattice P.transpose := by
  rintro _ ⟨x, rfl⟩
  refine ⟨M.mulVec x, ?_⟩
  rw [← Matrix.mulVec_mulVec]
  congr 1
  funext i
  simp [Matrix.mulVec, dotProduct]

/-- auxiliary: `get_HNFs` -/
theorem hnf_calls_at {P : M3 ℝ} {bas cell : List V3} {arrows : Bool} (hu : Usable P bas cell arrows) (n : ℕ) (hn : 1 ≤ n)
    (latDim : ℕ) (hdim : latDim ≠ 2) {eps : ℝ} (hfine : FineTol P bas eps) (hepsn : eps * n < 1) : ∃ U : List (M3 ℤ),
      getHNFs n P bas latDim eps = some (.ok U) ∧ U.Nodup ∧ (∀ u ∈ U, u ∈ findAllHNFs n) ∧
      (∀ M : M3 ℤ, M.det = n ∨ M.det = -n → ∃! u, u ∈ U ∧ ∃ R s, PSym (ColLattice P.transpose) bas R s ∧
        R.mulVec '' SupLat P M = SupLat P u) := by
  classical
  have hP := hu.det
  have hcan := canon_of_forall₂ hP hu.reps
  have hlen : cell.length = bas.length := by rw [hcan, List.length_map]
  set Λ := ColLattice P.transpose with hΛdef
  have hΛ : IsSub Λ := colLat_isSub _
  obtain ⟨U, hU, hnd, hform, huniq⟩ := get_HNFs_at P hP bas cell hu.nonempty hu.reps hu.distinct (by
    intro R s h d hdm
    obtain ⟨w, hw, h2⟩ := hu.conv R s h
    have h' := (crystalSym_canon hP bas R s).mpr h
    rw [← hcan] at h'
    obtain ⟨c, hc, -, hm⟩ := ((crystalSym_iff hΛ).mp h').2.2 (1, d) (List.mem_map_of_mem hdm)
    obtain ⟨c', hc', rfl⟩ := List.mem_map.mp hc
    refine ⟨c', hc', ?_⟩
    simp only at hm
    rw [h2 d hdm]
    have := hΛ.add _ hm _ hw
    convert this using 1
    abel) n hn latDim hdim hfine hepsn
  refine ⟨U, hU, hnd, fun u hm => ((C19_all_hnfs n hn).2 u).mpr (hform u hm), ?_⟩
  intro M hM
  obtain ⟨u, ⟨hm, R, s, hs, e⟩, hun⟩ := huniq M hM
  refine ⟨u, ⟨hm, R, s, hs, by rw [← colLat_image]; exact e⟩, ?_⟩
  rintro v ⟨hv, R', s', hs', e'⟩
  exact hun v ⟨hv, R', s', hs', by rw [colLat_image]; exact e'⟩

/-- The same for small tolerances. -/
theorem hnf_calls {P : M3 ℝ} {bas cell : List V3} {arrows : Bool} (hu : Usable P bas cell arrows) (n : ℕ) (hn : 1 ≤ n)
    (latDim : ℕ) (hdim : latDim ≠ 2) :
    ∃ e > 0, ∀ eps, 0 < eps → eps < e → ∃ U : List (M3 ℤ),
      getHNFs n P bas latDim eps = some (.ok U) ∧ U.Nodup ∧ (∀ u ∈ U, u ∈ findAllHNFs n) ∧
      (∀ M : M3 ℤ, M.det = n ∨ M.det = -n → ∃! u, u ∈ U ∧ ∃ R s, PSym (ColLattice P.transpose) bas R s ∧
        R.mulVec '' SupLat P M = SupLat P u) := by
  obtain ⟨e1, he1, h1⟩ := fineTol_exists hu.det hu.nonempty
  refine ⟨min e1 (1 / n), lt_min he1 (by positivity), fun eps h0 hlt => ?_⟩
  obtain ⟨l1, l2⟩ := lt_min_iff.mp hlt
  exact hnf_calls_at hu n hn latDim hdim (h1 eps h0 l1) (by rwa [lt_div_iff₀ (by positivity)] at l2)

/-- auxiliary: `get_sym_group`, for all HNFs of a size -/
theorem group_calls_at {P : M3 ℝ} {bas cell : List V3} {arrows : Bool} (hu : Usable P bas cell arrows) (n : ℕ) (hn : 1 ≤ n)
    (hn' : n < 2 ^ 24) (latDim : ℕ) (hdim : latDim ≠ 2) {eps : ℝ} (hfine : FineTol P bas eps)
    (hepsn : eps * n < 1) : ∀ u ∈ findAllHNFs n, ∃ (G : List Op) (pos : ℕ → V3),
        getSymGroup P bas u latDim eps arrows = some (.ok G) ∧
        IsNumbering (CrystalSites (ColLattice P.transpose) bas) (SupLat P u) (bas.length * n) pos ∧
        (∀ g, g ∈ G ↔ ∃ R s, PSym (ColLattice P.transpose) bas R s ∧ R.mulVec '' SupLat P u = SupLat P u ∧
          Induces (SupLat P u) (bas.length * n) pos R s g.1 ∧ TurnsBy arrows R g.2) ∧
        IsOpGroup (bas.length * n) 6 G ∧
        (∀ g, g ∈ G.take n ↔ g.2 = List.range 6 ∧ ∃ t ∈ ColLattice P.transpose,
          Induces (SupLat P u) (bas.length * n) pos 1 t g.1) ∧
        n ≤ G.length ∧ G[0]? = some (List.range (bas.length * n), List.range 6) ∧
        ((G.take n).map (·.1)).Nodup ∧
        ((if arrows then ∀ s, PSym (ColLattice P.transpose) bas 1 s → s ∈ ColLattice P.transpose else cell.getD 0 0 = 0) → G.Nodup) ∧
        ∃ snf, smithNormalForm u = some (.ok snf) ∧
          pos = sitePos (castM snf.A * P.transpose⁻¹)⁻¹ (fun i => snf.M i i) cell n := by
  classical
  have hP := hu.det
  have hcan := canon_of_forall₂ hP hu.reps
  have hlen : cell.length = bas.length := by rw [hcan, List.length_map]
  set Λ := ColLattice P.transpose with hΛdef
  have hdet : ∀ u ∈ findAllHNFs n, u.det = n := fun u hu => findAll_det hn hu
  intro u hm
  have hd : u.det.toNat = n := by rw [hdet u hm]; simp
  obtain ⟨G, pos, h⟩ := sym_group_at P hP bas cell hu.nonempty hu.reps hu.distinct u (by rw [hdet u hm]; exact_mod_cast hn)
      (by rw [hdet u hm]; exact_mod_cast hn') hu.conv arrows hu.turns latDim hdim hfine (by rw [hd]; exact hepsn)
  refine ⟨G, pos, ?_⟩
  obtain ⟨a1, a2, a3, a4, a5, a6, snf, a7, a8, a9, a10, a11, a12⟩ := h
  rw [hd, hlen] at a2 a3 a4 a5 a10
  rw [hd] at a6 a8 a9 a11
  rw [hlen] at a6
  have hsites : ∀ x, x ∈ CrystalSites Λ bas ↔ ∃ a, a < cell.length ∧ x - cell.getD a 0 ∈ Λ := by
    intro x
    rw [← mem_crystal_iff, ← crystal_canon hP]
    have e : (bas.map (fun d => ((1 : ℕ), d))).map (fun a : ℕ × V3 => (a.1, canonV P a.2)) = cell.map (fun d => (1, d)) := by
      rw [hcan, List.map_map, List.map_map]; rfl
    rw [e, mem_crystal_iff]
    constructor
    · rintro ⟨d, hd, h⟩
      obtain ⟨a, ha, rfl⟩ := List.mem_iff_getElem.mp hd
      exact ⟨a, ha, by rw [getD_lt ha]; exact h⟩
    · rintro ⟨a, ha, h⟩
      rw [getD_lt ha] at h
      exact ⟨_, List.getElem_mem ha, h⟩
  refine ⟨a1, ⟨?_, ?_⟩, ?_, a5, a6, a9, a10, a11, a12, snf, a7, a8⟩
  · intro k hk
    refine (hsites _).mpr ⟨k / n, ?_, a2 k hk⟩
    rw [hlen]
    exact Nat.div_lt_of_lt_mul (by rwa [mul_comm])
  · intro x hx
    obtain ⟨a, ha, h⟩ := (hsites x).mp hx
    have := a3 a (by rw [← hlen]; exact ha) _ h
    rwa [add_sub_cancel] at this
  · intro g
    rw [a4]
    unfold TurnsBy
    constructor
    · rintro ⟨R, s, b1, b2, b3⟩; exact ⟨R, s, b1, by rw [← colLat_image]; exact b2, b3⟩
    · rintro ⟨R, s, b1, b2, b3⟩; exact ⟨R, s, b1, by rw [colLat_image]; exact b2, b3⟩

/-- The same for small tolerances. -/
theorem group_calls {P : M3 ℝ} {bas cell : List V3} {arrows : Bool} (hu : Usable P bas cell arrows) (n : ℕ) (hn : 1 ≤ n)
    (hn' : n < 2 ^ 24) (latDim : ℕ) (hdim : latDim ≠ 2) :
    ∃ e > 0, ∀ eps, 0 < eps → eps < e → ∀ u ∈ findAllHNFs n, ∃ (G : List Op) (pos : ℕ → V3),
        getSymGroup P bas u latDim eps arrows = some (.ok G) ∧
        IsNumbering (CrystalSites (ColLattice P.transpose) bas) (SupLat P u) (bas.length * n) pos ∧
        (∀ g, g ∈ G ↔ ∃ R s, PSym (ColLattice P.transpose) bas R s ∧ R.mulVec '' SupLat P u = SupLat P u ∧
          Induces (SupLat P u) (bas.length * n) pos R s g.1 ∧ TurnsBy arrows R g.2) ∧
        IsOpGroup (bas.length * n) 6 G ∧
        (∀ g, g ∈ G.take n ↔ g.2 = List.range 6 ∧ ∃ t ∈ ColLattice P.transpose,
          Induces (SupLat P u) (bas.length * n) pos 1 t g.1) ∧
        n ≤ G.length ∧ G[0]? = some (List.range (bas.length * n), List.range 6) ∧
        ((G.take n).map (·.1)).Nodup ∧
        ((if arrows then ∀ s, PSym (ColLattice P.transpose) bas 1 s → s ∈ ColLattice P.transpose else cell.getD 0 0 = 0) → G.Nodup) ∧
        ∃ snf, smithNormalForm u = some (.ok snf) ∧
          pos = sitePos (castM snf.A * P.transpose⁻¹)⁻¹ (fun i => snf.M i i) cell n := by
  obtain ⟨e1, he1, h1⟩ := fineTol_exists hu.det hu.nonempty
  refine ⟨min e1 (1 / n), lt_min he1 (by positivity), fun eps h0 hlt => ?_⟩
  obtain ⟨l1, l2⟩ := lt_min_iff.mp hlt
  exact group_calls_at hu n hn hn' latDim hdim (h1 eps h0 l1) (by rwa [lt_div_iff₀ (by positivity)] at l2)

/-- auxiliary: everything about the calls, with one tolerance -/
theorem enumeration_calls {P : M3 ℝ} {bas cell : List V3} {arrows : Bool} (hu : Usable P bas cell arrows) (n : ℕ) (hn : 1 ≤ n)
    (hn' : n < 2 ^ 24) (latDim : ℕ) (hdim : latDim ≠ 2) :
    ∃ e > 0, ∀ eps, 0 < eps → eps < e → ∃ (U : List (M3 ℤ)) (G : M3 ℤ → List Op) (pos : M3 ℤ → ℕ → V3),
      getHNFs n P bas latDim eps = some (.ok U) ∧ U.Nodup ∧ (∀ u ∈ U, u ∈ findAllHNFs n) ∧
      (∀ M : M3 ℤ, M.det = n ∨ M.det = -n → ∃! u, u ∈ U ∧ ∃ R s, PSym (ColLattice P.transpose) bas R s ∧
        R.mulVec '' SupLat P M = SupLat P u) ∧
      ∀ u ∈ U, getSymGroup P bas u latDim eps arrows = some (.ok (G u)) ∧
        IsNumbering (CrystalSites (ColLattice P.transpose) bas) (SupLat P u) (bas.length * n) (pos u) ∧
        (∀ g, g ∈ G u ↔ ∃ R s, PSym (ColLattice P.transpose) bas R s ∧ R.mulVec '' SupLat P u = SupLat P u ∧
          Induces (SupLat P u) (bas.length * n) (pos u) R s g.1 ∧ TurnsBy arrows R g.2) ∧
        IsOpGroup (bas.length * n) 6 (G u) ∧
        (∀ g, g ∈ (G u).take n ↔ g.2 = List.range 6 ∧ ∃ t ∈ ColLattice P.transpose,
          Induces (SupLat P u) (bas.length * n) (pos u) 1 t g.1) ∧
        n ≤ (G u).length ∧ (G u)[0]? = some (List.range (bas.length * n), List.range 6) ∧
        (((G u).take n).map (·.1)).Nodup ∧
        ((if arrows then ∀ s, PSym (ColLattice P.transpose) bas 1 s → s ∈ ColLattice P.transpose else cell.getD 0 0 = 0) → (G u).Nodup) ∧
        ∃ snf, smithNormalForm u = some (.ok snf) ∧
          pos u = sitePos (castM snf.A * P.transpose⁻¹)⁻¹ (fun i => snf.M i i) cell n := by
  classical
  obtain ⟨e1, he1, h1⟩ := hnf_calls hu n hn latDim hdim
  obtain ⟨e2, he2, h2⟩ := group_calls hu n hn hn' latDim hdim
  refine ⟨min e1 e2, lt_min he1 he2, fun eps h0 hlt => ?_⟩
  obtain ⟨l1, l2⟩ := lt_min_iff.mp hlt
  obtain ⟨U, hU, hnd, hall, huniq⟩ := h1 eps h0 l1
  have key : ∀ u : M3 ℤ, ∃ (G : List Op) (pos : ℕ → V3), u ∈ U → _ := fun u => by
    by_cases hm : u ∈ U
    · obtain ⟨G, pos, h⟩ := h2 eps h0 l2 u (hall u hm)
      exact ⟨G, pos, fun _ => h⟩
    · exact ⟨[], fun _ => 0, fun h => absurd h hm⟩
  choose G pos hGp using key
  exact ⟨U, G, pos, hU, hnd, hall, huniq, hGp⟩

/-! Conditions on the contents are read off in every numbering. -/

theorem turnsBy_exists {P : M3 ℝ} {bas cell : List V3} {arrows : Bool} (hu : Usable P bas cell arrows) {R : M3 ℝ} {s : V3}
    (h : PSym (ColLattice P.transpose) bas R s) : ∃ τ, TurnsBy arrows R τ := by
  unfold TurnsBy
  cases arrows with
  | false => exact ⟨_, rfl⟩
  | true =>
    obtain ⟨τ, -, hτ⟩ := arrowPerm_ok (R := R) (fun k a ha => by
      obtain ⟨m, b, hb, e⟩ := hu.turns R s h k a ha
      exact ⟨m, b, hb, by simpa using e⟩) (mul_eq_one_comm.mp h.orth)
    exact ⟨τ, by simpa using hτ⟩

theorem turnsBy_perm {arrows : Bool} {R : M3 ℝ} (hR : R * R.transpose = 1) {τ : List ℕ} (h : TurnsBy arrows R τ) : τ.Perm (List.range 6) := by
  unfold TurnsBy at h
  cases arrows with
  | false => simp only [Bool.false_eq_true, if_false] at h; rw [h]
  | true =>
    simp only [if_true] at h
    refine h.perm ?_
    have := congrArg Matrix.det hR
    rw [Matrix.det_mul, Matrix.det_one] at this
    exact left_ne_zero_of_mul_eq_one this

theorem contents_act {N : ℕ} {arrows : Bool} {Q : List (ℤ × ℕ) → Prop} (hQ : IsContents N arrows Q) {σ τ : List ℕ}
    (hσ : σ.Perm (List.range N)) (hτ : τ.Perm (List.range 6)) {z : List (ℤ × ℕ)} (hz : Q z) : Q (act (σ, τ) z) := by
  unfold act
  exact hQ.turn _ _ (hQ.perm _ _ hz (permute_perm σ z (by rw [hQ.length z hz]; exact hσ))) hτ

/-- the contents of a moved structure, read in any numbering -/
theorem contents_move {P : M3 ℝ} {bas cell : List V3} {arrows : Bool} (hu : Usable P bas cell arrows) {N : ℕ}
    {Q : List (ℤ × ℕ) → Prop} (hQ : IsContents N arrows Q) {L L' : Set V3} (hL : IsSub L) {χ χ' : Decoration}
    (h : SameStructure (ColLattice P.transpose) bas L χ L' χ')
    (hc : HasContents (CrystalSites (ColLattice P.transpose) bas) L N Q χ) {pos' : ℕ → V3}
    (hp' : IsNumbering (CrystalSites (ColLattice P.transpose) bas) L' N pos') :
    ∃ z, Draws (CrystalSites (ColLattice P.transpose) bas) L' N pos' z χ' ∧ Q z := by
  obtain ⟨R, s, hs, hRL, hx⟩ := h
  obtain ⟨pos, z, hp, hd, hz⟩ := hc
  obtain ⟨σ, hσ, -, hent⟩ := transport_perm hs hRL hL hp hp'
  obtain ⟨τ, hτ⟩ := turnsBy_exists hu hs
  exact ⟨_, (draws_move hs hRL hL hσ hent hτ (hQ.entries z hz) hx hd).1, contents_act hQ hσ (turnsBy_perm hs.orth hτ) hz⟩

theorem numbering_move {Λ : Set V3} {bas : List V3} {R : M3 ℝ} {s : V3} (h : PSym Λ bas R s) {L L' : Set V3} (hRL : R.mulVec '' L = L')
    {N : ℕ} {pos : ℕ → V3} (hp : IsNumbering (CrystalSites Λ bas) L N pos) :
    IsNumbering (CrystalSites Λ bas) L' N (fun k => R.mulVec (pos k) + s) := by
  refine ⟨fun k hk => sites_move h (hp.site k hk), fun y hy => ?_⟩
  obtain ⟨k, ⟨hk, hm⟩, hun⟩ := hp.unique _ (sites_unmove h hy)
  have hiff : ∀ j, y - (R.mulVec (pos j) + s) ∈ L' ↔ unmove R s y - pos j ∈ L := by
    intro j
    have e : y - (R.mulVec (pos j) + s) = R.mulVec (unmove R s y - pos j) := by
      rw [Matrix.mulVec_sub]
      conv_lhs => rw [← move_unmove h.orth s y]
      abel
    rw [e]
    exact ⟨lat_preimage h.orth hRL, lat_image hRL⟩
  exact ⟨k, ⟨hk, (hiff k).mpr hm⟩, fun j hj => hun j ⟨hj.1, (hiff j).mp hj.2⟩⟩

theorem contents_same {P : M3 ℝ} {bas cell : List V3} {arrows : Bool} (hu : Usable P bas cell arrows) {N : ℕ}
    {Q : List (ℤ × ℕ) → Prop} (hQ : IsContents N arrows Q) {L L' : Set V3} (hL : IsSub L) {χ χ' : Decoration}
    (h : SameStructure (ColLattice P.transpose) bas L χ L' χ')
    (hc : HasContents (CrystalSites (ColLattice P.transpose) bas) L N Q χ) :
    HasContents (CrystalSites (ColLattice P.transpose) bas) L' N Q χ' := by
  obtain ⟨R, s, hs, hRL, hx⟩ := id h
  obtain ⟨pos, z, hp, hd, hz⟩ := id hc
  have hn := numbering_move hs hRL hp
  obtain ⟨z', h1, h2⟩ := contents_move hu hQ hL h hc hn
  exact ⟨_, z', hn, h1, h2⟩

theorem psym_one (Λ : Set V3) (bas : List V3) : PSym Λ bas 1 0 := by
  refine ⟨by simp, ?_, ?_⟩
  · have : (1 : M3 ℝ).mulVec = id := by funext v; simp
    rw [this, Set.image_id]
  · simp

theorem same_refl (Λ : Set V3) (bas : List V3) (L : Set V3) (χ : Decoration) : SameStructure Λ bas L χ L χ := by
  refine ⟨1, 0, psym_one Λ bas, ?_, fun x _ => by simp⟩
  have : (1 : M3 ℝ).mulVec = id := by funext v; simp
  rw [this, Set.image_id]

/-- auxiliary: one labelling for each structure -/
theorem structures_once {P : M3 ℝ} {bas cell : List V3} {arrows : Bool} (hu : Usable P bas cell arrows)
    {n : ℕ} (hn : 1 ≤ n)
    {U : List (M3 ℤ)} {G : M3 ℤ → List Op} {pos : M3 ℤ → ℕ → V3} {latDim : ℕ} {eps : ℝ} {Rest : M3 ℤ → Prop}
    (huniq : ∀ M : M3 ℤ, M.det = n ∨ M.det = -n → ∃! u, u ∈ U ∧ ∃ R s, PSym (ColLattice P.transpose) bas R s ∧
        R.mulVec '' SupLat P M = SupLat P u)
    (hall : ∀ u ∈ U, getSymGroup P bas u latDim eps arrows = some (.ok (G u)) ∧
        IsNumbering (CrystalSites (ColLattice P.transpose) bas) (SupLat P u) (bas.length * n) (pos u) ∧
        (∀ g, g ∈ G u ↔ ∃ R s, PSym (ColLattice P.transpose) bas R s ∧ R.mulVec '' SupLat P u = SupLat P u ∧
          Induces (SupLat P u) (bas.length * n) (pos u) R s g.1 ∧ TurnsBy arrows R g.2) ∧
        IsOpGroup (bas.length * n) 6 (G u) ∧
        (∀ g, g ∈ (G u).take n ↔ g.2 = List.range 6 ∧ ∃ t ∈ ColLattice P.transpose,
          Induces (SupLat P u) (bas.length * n) (pos u) 1 t g.1) ∧ Rest u)
    {Q : List (ℤ × ℕ) → Prop} (hQ : IsContents (bas.length * n) arrows Q)
    {T : M3 ℤ → List (List (ℤ × ℕ))} (hT : ∀ u ∈ U, IsTransversal Q (OpEquiv (G u)) (T u))
    {M : M3 ℤ} (hM : M.det = n ∨ M.det = -n) {χ : Decoration}
    (hcont : HasContents (CrystalSites (ColLattice P.transpose) bas) (SupLat P M) (bas.length * n) Q χ) :
    ∃! uz : M3 ℤ × List (ℤ × ℕ), uz.1 ∈ U ∧ uz.2 ∈ T uz.1 ∧
        ∃ ψ, PeriodicOn (CrystalSites (ColLattice P.transpose) bas) (SupLat P uz.1) ψ ∧
          Draws (CrystalSites (ColLattice P.transpose) bas) (SupLat P uz.1) (bas.length * n) (pos uz.1) uz.2 ψ ∧
          SameStructure (ColLattice P.transpose) bas (SupLat P M) χ (SupLat P uz.1) ψ := by
  have hΛ := colLat_isSub P.transpose
  refine one_per_structure hΛ arrows (fun R s hs => turnsBy_exists hu hs) (bas.length * n) U (SupLat P)
    (fun u _ => ⟨colLat_isSub _, supLat_sub P u⟩) pos (fun u hm => (hall u hm).2.1) G (fun u hm => (hall u hm).2.2.1)
    (fun u hm g hg => (hall u hm).2.2.2.1.sites g hg) (fun _ => Q) (fun u _ z hz => ⟨hQ.length z hz, hQ.entries z hz⟩) T hT
    (fun L χ => IsSub L ∧ HasContents (CrystalSites (ColLattice P.transpose) bas) L (bas.length * n) Q χ) ?_ ?_
    (SupLat P M) (huniq M hM) χ ⟨colLat_isSub _, hcont⟩
  · rintro L χ L' χ' hs ⟨hL, hc⟩
    refine ⟨?_, contents_same hu hQ hL hs hc⟩
    obtain ⟨R, s, -, hRL, -⟩ := hs
    rw [← hRL]; exact image_isSub hL
  · rintro u hm χ ⟨hL, hc⟩
    exact contents_move hu hQ hL (same_refl _ _ _ _) hc (hall u hm).2.1

/-- C56. The enumeration as a whole. For a crystal that the symmetry search handles and a size `n`, for every sufficiently
small tolerance: `get_HNFs` gives a list `U` of supercells and `get_sym_group` succeeds for each of them; and whenever
`T u` lists, for each supercell `u`, one labelling of every class of labellings with contents `Q` under the operations
returned for `u`, then every structure derived from the crystal with `n` cells per period and contents `Q` - every
superlattice of index `n`, every decoration periodic under it - is, up to a symmetry of the crystal, drawn by exactly
one supercell `u` of `U` and one labelling of `T u`: nothing is missed and nothing is listed twice. -/
theorem C56_one_per_structure {P : M3 ℝ} {bas cell : List V3} {arrows : Bool} (hu : Usable P bas cell arrows) (n : ℕ) (hn : 1 ≤ n)
    (hn' : n < 2 ^ 24) (latDim : ℕ) (hdim : latDim ≠ 2) :
    ∃ e > 0, ∀ eps, 0 < eps → eps < e → ∃ (U : List (M3 ℤ)) (G : M3 ℤ → List (List ℕ × List ℕ)) (pos : M3 ℤ → ℕ → V3),
      getHNFs n P bas latDim eps = some (.ok U) ∧ U.Nodup ∧
      (∀ u ∈ U, getSymGroup P bas u latDim eps arrows = some (.ok (G u)) ∧
        IsNumbering (CrystalSites (ColLattice P.transpose) bas) (SupLat P u) (bas.length * n) (pos u)) ∧
      ∀ Q, IsContents (bas.length * n) arrows Q →
      ∀ T : M3 ℤ → List (List (ℤ × ℕ)), (∀ u ∈ U, IsTransversal Q (OpEquiv (G u)) (T u)) →
      ∀ M : M3 ℤ, M.det = n ∨ M.det = -n → ∀ χ, PeriodicOn (CrystalSites (ColLattice P.transpose) bas) (SupLat P M) χ →
      HasContents (CrystalSites (ColLattice P.transpose) bas) (SupLat P M) (bas.length * n) Q χ →
      ∃! uz : M3 ℤ × List (ℤ × ℕ), uz.1 ∈ U ∧ uz.2 ∈ T uz.1 ∧
        ∃ ψ, PeriodicOn (CrystalSites (ColLattice P.transpose) bas) (SupLat P uz.1) ψ ∧
          Draws (CrystalSites (ColLattice P.transpose) bas) (SupLat P uz.1) (bas.length * n) (pos uz.1) uz.2 ψ ∧
          SameStructure (ColLattice P.transpose) bas (SupLat P M) χ (SupLat P uz.1) ψ := by
  obtain ⟨e, he, h⟩ := enumeration_calls hu n hn hn' latDim hdim
  refine ⟨e, he, fun eps h0 hlt => ?_⟩
  obtain ⟨U, G, pos, hU, hnd, -, huniq, hall⟩ := h eps h0 hlt
  refine ⟨U, G, pos, hU, hnd, fun u hm => ⟨(hall u hm).1, (hall u hm).2.1⟩, ?_⟩
  intro Q hQ T hT M hM χ hper hcont
  exact structures_once hu hn huniq hall hQ hT hM hcont

/-! Translations and periods. -/

theorem range_of_trans {L : Set V3} {N : ℕ} {pos : ℕ → V3} {t : V3} {σ : List ℕ} (hσ : Induces L N pos 1 t σ) (ht : t ∈ L) : σ = List.range N := by
  apply List.ext_getElem?
  intro i
  by_cases hi : i < N
  · rw [List.getElem?_range hi]
    refine (hσ.entries i i hi).mpr ⟨hi, ?_⟩
    rw [Matrix.one_mulVec, add_sub_cancel_left]
    exact ht
  · rw [List.getElem?_eq_none (by rw [hσ.length]; omega), List.getElem?_eq_none (by simp; omega)]

/-- the symmetries include the translations of the lattice -/
theorem psym_trans {Λ : Set V3} (hΛ : IsSub Λ) (bas : List V3) {t : V3} (ht : t ∈ Λ) : PSym Λ bas 1 t := by
  have := (psym_one Λ bas).shift hΛ (s' := t) (by simpa using ht)
  exact this

theorem image_one (L : Set V3) : (1 : M3 ℝ).mulVec '' L = L := by
  have : (1 : M3 ℝ).mulVec = id := by funext v; simp
  rw [this, Set.image_id]

/-- a decoration has a period outside the superlattice exactly if its labelling is superperiodic -/
theorem primitive_iff {Λ : Set V3} (hΛ : IsSub Λ) {bas : List V3} {L : Set V3} (hL : IsSub L) {N : ℕ} (hN : 0 < N) {pos : ℕ → V3}
    (hp : IsNumbering (CrystalSites Λ bas) L N pos) {z : List (ℤ × ℕ)} (hz : ∀ p ∈ z, WfEntry true p) {χ : Decoration}
    (hd : Draws (CrystalSites Λ bas) L N pos z χ) (T : List (List ℕ))
    (hT : ∀ σ, σ ∈ T ↔ ∃ t ∈ Λ, Induces L N pos 1 t σ) :
    NoFurtherPeriod Λ (CrystalSites Λ bas) L χ ↔ ¬ Superperiodic T z := by
  have hmoves : ∀ {x t : V3}, x ∈ CrystalSites Λ bas → t ∈ Λ → x + t ∈ CrystalSites Λ bas := by
    intro x t hx ht
    have := sites_move (psym_trans hΛ bas ht) hx
    rwa [Matrix.one_mulVec] at this
  constructor
  · rintro h ⟨σ, hσ, hne, hfix⟩
    obtain ⟨t, ht, hind⟩ := (hT σ).mp hσ
    apply hne
    rw [hd.1]
    refine range_of_trans hind (h t ht ?_)
    intro x hx
    -- site of x + t, and the site it comes from
    have hxt := hmoves hx ht
    obtain ⟨i, ⟨hi, hmi⟩, -⟩ := hp.unique _ hxt
    have hiσ : i < σ.length := by rw [hind.length]; exact hi
    obtain ⟨hj, hm⟩ := (hind.entries i σ[i] hi).mp (List.getElem?_eq_getElem hiσ)
    rw [Matrix.one_mulVec] at hm
    obtain ⟨p, hp1, e1⟩ := hd.2 _ hxt i hi hmi
    have hxm : x - pos σ[i] ∈ L := by
      have := hL.add _ hmi _ (hL.neg _ hm)
      convert this using 1
      abel
    obtain ⟨q, hq1, e2⟩ := hd.2 x hx _ hj hxm
    rw [e1, e2]
    have hlt : ∀ j ∈ σ, j < z.length := by
      intro j hjm
      obtain ⟨k, hk, rfl⟩ := List.getElem_of_mem hjm
      have := ((hind.entries k σ[k] (by rw [← hind.length]; exact hk)).mp (List.getElem?_eq_getElem hk)).1
      rw [hd.1]; exact this
    have := congrArg (fun l : List (ℤ × ℕ) => l[i]?) hfix
    simp only [permute_getElem? σ z hlt, List.getElem?_eq_getElem hiσ, Option.bind_some, hp1, hq1] at this
    rw [Option.some.inj this]
  · intro h t ht hper
    obtain ⟨σ, hσ, hσl, hent⟩ := transport_perm (psym_trans hΛ bas ht) (image_one L) hL hp hp
    have hσT : σ ∈ T := (hT σ).mpr ⟨t, ht, hσl, hent⟩
    by_contra hnt
    apply h
    refine ⟨σ, hσT, ?_, ?_⟩
    · rw [hd.1]
      intro e
      apply hnt
      have : σ[0]? = some 0 := by rw [e, List.getElem?_range hN]
      have := ((hent 0 0 hN).mp this).2
      rwa [Matrix.one_mulVec, add_sub_cancel_left] at this
    · have hturn : TurnsBy true (1 : M3 ℝ) (List.range 6) := by unfold TurnsBy; simpa using turns_one
      have hdm := draws_move (psym_trans hΛ bas ht) (image_one L) hL hσ hent hturn hz (χ' := χ)
        (by intro x hx; rw [Matrix.one_mulVec, Matrix.one_mulVec, hper x hx]) hd
      have e := draws_unique hp hL (fun _ _ => rfl) hdm.1 hd hdm.2 hz
      unfold act at e
      have hid : ∀ l : List (ℤ × ℕ), (∀ p ∈ l, WfEntry true p) → l.map (turn (List.range 6)) = l := by
        intro l hl
        conv_rhs => rw [← List.map_id l]
        apply List.map_congr_left
        intro p hpm
        unfold turn
        rcases hl p hpm with h1 | ⟨-, h0, h6⟩
        · rw [if_pos (by omega)]; rfl
        · rw [if_neg (by omega)]
          have : p.1.toNat < 6 := by omega
          rw [getD_lt (by simpa using this), List.getElem_range]
          apply Prod.ext
          · simp; omega
          · rfl
      rwa [hid] at e
      intro p hpm
      exact hz p ((permute_perm σ z (by rw [hd.1]; exact hσ)).mem_iff.mp hpm)

/-- auxiliary: the same, superperiodic structures left out -/
theorem primitive_once {P : M3 ℝ} {bas cell : List V3} {arrows : Bool} (hu : Usable P bas cell arrows)
    {n : ℕ} (hn : 1 ≤ n)
    {U : List (M3 ℤ)} {G : M3 ℤ → List Op} {pos : M3 ℤ → ℕ → V3} {latDim : ℕ} {eps : ℝ} {Rest : M3 ℤ → Prop}
    (huniq : ∀ M : M3 ℤ, M.det = n ∨ M.det = -n → ∃! u, u ∈ U ∧ ∃ R s, PSym (ColLattice P.transpose) bas R s ∧
        R.mulVec '' SupLat P M = SupLat P u)
    (hall : ∀ u ∈ U, getSymGroup P bas u latDim eps arrows = some (.ok (G u)) ∧
        IsNumbering (CrystalSites (ColLattice P.transpose) bas) (SupLat P u) (bas.length * n) (pos u) ∧
        (∀ g, g ∈ G u ↔ ∃ R s, PSym (ColLattice P.transpose) bas R s ∧ R.mulVec '' SupLat P u = SupLat P u ∧
          Induces (SupLat P u) (bas.length * n) (pos u) R s g.1 ∧ TurnsBy arrows R g.2) ∧
        IsOpGroup (bas.length * n) 6 (G u) ∧
        (∀ g, g ∈ (G u).take n ↔ g.2 = List.range 6 ∧ ∃ t ∈ ColLattice P.transpose,
          Induces (SupLat P u) (bas.length * n) (pos u) 1 t g.1) ∧ Rest u)
    {Q : List (ℤ × ℕ) → Prop} (hQ : IsContents (bas.length * n) arrows Q)
    {T : M3 ℤ → List (List (ℤ × ℕ))} (hT : ∀ u ∈ U, IsTransversal
        (fun z => Q z ∧ ¬ Superperiodic (((G u).take n).map (·.1)) z) (OpEquiv (G u)) (T u)) :
    (∀ u ∈ U, ∀ z ∈ T u, ∀ ψ, Draws (CrystalSites (ColLattice P.transpose) bas) (SupLat P u) (bas.length * n) (pos u) z ψ →
        NoFurtherPeriod (ColLattice P.transpose) (CrystalSites (ColLattice P.transpose) bas) (SupLat P u) ψ) ∧
    ∀ M : M3 ℤ, M.det = n ∨ M.det = -n → ∀ χ,
      NoFurtherPeriod (ColLattice P.transpose) (CrystalSites (ColLattice P.transpose) bas) (SupLat P M) χ →
      HasContents (CrystalSites (ColLattice P.transpose) bas) (SupLat P M) (bas.length * n) Q χ →
      ∃! uz : M3 ℤ × List (ℤ × ℕ), uz.1 ∈ U ∧ uz.2 ∈ T uz.1 ∧
        ∃ ψ, PeriodicOn (CrystalSites (ColLattice P.transpose) bas) (SupLat P uz.1) ψ ∧
          Draws (CrystalSites (ColLattice P.transpose) bas) (SupLat P uz.1) (bas.length * n) (pos uz.1) uz.2 ψ ∧
          SameStructure (ColLattice P.transpose) bas (SupLat P M) χ (SupLat P uz.1) ψ := by
  have hΛ := colLat_isSub P.transpose
  have hN : 0 < bas.length * n := Nat.mul_pos (List.length_pos_iff.mpr hu.nonempty) hn
  have hTr : ∀ u ∈ U, ∀ σ, σ ∈ ((G u).take n).map (·.1) ↔ ∃ t ∈ ColLattice P.transpose, Induces (SupLat P u) (bas.length * n) (pos u) 1 t σ := by
    intro u hm σ
    have := (hall u hm).2.2.2.2.1
    constructor
    · intro h
      obtain ⟨g, hg, rfl⟩ := List.mem_map.mp h
      exact ((this g).mp hg).2
    · rintro h
      exact List.mem_map.mpr ⟨(σ, List.range 6), (this _).mpr ⟨rfl, h⟩, rfl⟩
  have hiff : ∀ u ∈ U, ∀ z, Q z → ∀ ψ, Draws (CrystalSites (ColLattice P.transpose) bas) (SupLat P u) (bas.length * n) (pos u) z ψ →
      (NoFurtherPeriod (ColLattice P.transpose) (CrystalSites (ColLattice P.transpose) bas) (SupLat P u) ψ ↔
        ¬ Superperiodic (((G u).take n).map (·.1)) z) := fun u hm z hz ψ hd =>
    primitive_iff hΛ (colLat_isSub _) hN (hall u hm).2.1 (fun p hp => WfEntry.mono (hQ.entries z hz p hp)) hd _ (hTr u hm)
  constructor
  · intro u hm z hz ψ hd
    obtain ⟨hq, hns⟩ := (hT u hm).mem z hz
    exact (hiff u hm z hq ψ hd).mpr hns
  intro M hM χ hprim hcont
  refine one_per_structure hΛ arrows (fun R s hs => turnsBy_exists hu hs) (bas.length * n) U (SupLat P)
    (fun u _ => ⟨colLat_isSub _, supLat_sub P u⟩) pos (fun u hm => (hall u hm).2.1) G (fun u hm => (hall u hm).2.2.1)
    (fun u hm g hg => (hall u hm).2.2.2.1.sites g hg) (fun u z => Q z ∧ ¬ Superperiodic (((G u).take n).map (·.1)) z)
    (fun u _ z hz => ⟨hQ.length z hz.1, hQ.entries z hz.1⟩) T hT
    (fun L χ => IsSub L ∧ HasContents (CrystalSites (ColLattice P.transpose) bas) L (bas.length * n) Q χ ∧
      NoFurtherPeriod (ColLattice P.transpose) (CrystalSites (ColLattice P.transpose) bas) L χ) ?_ ?_
    (SupLat P M) (huniq M hM) χ ⟨colLat_isSub _, hcont, hprim⟩
  · rintro L χ L' χ' hs ⟨hL, hc, hpr⟩
    refine ⟨?_, contents_same hu hQ hL hs hc, same_primitive hs hΛ hpr⟩
    obtain ⟨R, s, -, hRL, -⟩ := hs
    rw [← hRL]; exact image_isSub hL
  · rintro u hm χ ⟨hL, hc, hpr⟩
    obtain ⟨z, hd, hz⟩ := contents_move hu hQ hL (same_refl _ _ _ _) hc (hall u hm).2.1
    exact ⟨z, hd, hz, (hiff u hm z hz χ hd).mp hpr⟩

/-- C56, superperiodic structures left out: if `T u` lists one labelling of every class of labellings with contents `Q`
that are not superperiodic with respect to the first `n` operations returned for `u`, then every structure with `n` cells
per period, contents `Q` and no smaller period is drawn by exactly one supercell and labelling, and every labelling
listed draws a structure without a smaller period. -/
theorem C56_one_per_primitive_structure {P : M3 ℝ} {bas cell : List V3} {arrows : Bool} (hu : Usable P bas cell arrows) (n : ℕ) (hn : 1 ≤ n)
    (hn' : n < 2 ^ 24) (latDim : ℕ) (hdim : latDim ≠ 2) :
    ∃ e > 0, ∀ eps, 0 < eps → eps < e → ∃ (U : List (M3 ℤ)) (G : M3 ℤ → List (List ℕ × List ℕ)) (pos : M3 ℤ → ℕ → V3),
      getHNFs n P bas latDim eps = some (.ok U) ∧ U.Nodup ∧
      (∀ u ∈ U, getSymGroup P bas u latDim eps arrows = some (.ok (G u)) ∧
        IsNumbering (CrystalSites (ColLattice P.transpose) bas) (SupLat P u) (bas.length * n) (pos u)) ∧
      ∀ Q, IsContents (bas.length * n) arrows Q →
      ∀ T : M3 ℤ → List (List (ℤ × ℕ)), (∀ u ∈ U, IsTransversal
        (fun z => Q z ∧ ¬ Superperiodic (((G u).take n).map (·.1)) z) (OpEquiv (G u)) (T u)) →
      (∀ u ∈ U, ∀ z ∈ T u, ∀ ψ, Draws (CrystalSites (ColLattice P.transpose) bas) (SupLat P u) (bas.length * n) (pos u) z ψ →
        NoFurtherPeriod (ColLattice P.transpose) (CrystalSites (ColLattice P.transpose) bas) (SupLat P u) ψ) ∧
      ∀ M : M3 ℤ, M.det = n ∨ M.det = -n → ∀ χ, PeriodicOn (CrystalSites (ColLattice P.transpose) bas) (SupLat P M) χ →
      NoFurtherPeriod (ColLattice P.transpose) (CrystalSites (ColLattice P.transpose) bas) (SupLat P M) χ →
      HasContents (CrystalSites (ColLattice P.transpose) bas) (SupLat P M) (bas.length * n) Q χ →
      ∃! uz : M3 ℤ × List (ℤ × ℕ), uz.1 ∈ U ∧ uz.2 ∈ T uz.1 ∧
        ∃ ψ, PeriodicOn (CrystalSites (ColLattice P.transpose) bas) (SupLat P uz.1) ψ ∧
          Draws (CrystalSites (ColLattice P.transpose) bas) (SupLat P uz.1) (bas.length * n) (pos uz.1) uz.2 ψ ∧
          SameStructure (ColLattice P.transpose) bas (SupLat P M) χ (SupLat P uz.1) ψ := by
  obtain ⟨e, he, h⟩ := enumeration_calls hu n hn hn' latDim hdim
  refine ⟨e, he, fun eps h0 hlt => ?_⟩
  obtain ⟨U, G, pos, hU, hnd, -, huniq, hall⟩ := h eps h0 hlt
  refine ⟨U, G, pos, hU, hnd, fun u hm => ⟨(hall u hm).1, (hall u hm).2.1⟩, ?_⟩
  intro Q hQ T hT
  obtain ⟨hs, ho⟩ := primitive_once hu hn huniq hall hQ hT
  exact ⟨hs, fun M hM χ _ hprim hcont => ho M hM χ hprim hcont⟩

end Phenum
