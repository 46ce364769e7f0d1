import Verif.Spec.Derivative
import Verif.Spec.Orbits
import Verif.Props.SpaceGroup
import Verif.Proof.Arrows
import Mathlib.Tactic.IntervalCases
import Mathlib.Tactic.NormNum
/-
Structures derived from a crystal: symmetries, numberings and labelings.
-/
namespace Phenum
open Spec

variable {Λ : Set V3} {bas : List V3}

/-- the crystal symmetries of the parent (all sites alike) -/
abbrev PSym (Λ : Set V3) (bas : List V3) (R : M3 ℝ) (s : V3) : Prop := IsCrystalSym Λ (bas.map (fun d => (1, d))) R s

theorem mem_crystal_iff {x : V3} : ((1, x) : ℕ × V3) ∈ Crystal Λ (bas.map (fun d => (1, d))) ↔ x ∈ CrystalSites Λ bas := by
  constructor
  · rintro ⟨b, hb, -, h⟩
    obtain ⟨d, hd, rfl⟩ := List.mem_map.mp hb
    exact ⟨d, hd, h⟩
  · rintro ⟨d, hd, h⟩
    exact ⟨(1, d), List.mem_map_of_mem hd, rfl, h⟩

theorem sites_move {R : M3 ℝ} {s : V3} (h : PSym Λ bas R s) {x : V3} (hx : x ∈ CrystalSites Λ bas) :
    R.mulVec x + s ∈ CrystalSites Λ bas := by
  rw [← mem_crystal_iff, ← h.crystal]
  exact ⟨(1, x), mem_crystal_iff.mpr hx, rfl⟩

theorem orthT {R : M3 ℝ} (h : R * R.transpose = 1) (v : V3) : R.transpose.mulVec (R.mulVec v) = v := by
  rw [Matrix.mulVec_mulVec, mul_eq_one_comm.mp h, Matrix.one_mulVec]

theorem orthT' {R : M3 ℝ} (h : R * R.transpose = 1) (v : V3) : R.mulVec (R.transpose.mulVec v) = v := by
  rw [Matrix.mulVec_mulVec, h, Matrix.one_mulVec]

/-- where the motion takes `y` from -/
def unmove (R : M3 ℝ) (s y : V3) : V3 := R.transpose.mulVec (y - s)

theorem move_unmove {R : M3 ℝ} (h : R * R.transpose = 1) (s y : V3) : R.mulVec (unmove R s y) + s = y := by
  unfold unmove; rw [orthT' h, sub_add_cancel]

theorem unmove_move {R : M3 ℝ} (h : R * R.transpose = 1) (s x : V3) : unmove R s (R.mulVec x + s) = x := by
  unfold unmove; rw [add_sub_cancel_right, orthT h]

theorem sites_unmove {R : M3 ℝ} {s : V3} (h : PSym Λ bas R s) {y : V3} (hy : y ∈ CrystalSites Λ bas) :
    unmove R s y ∈ CrystalSites Λ bas := by
  have := sites_move h.symm hy
  unfold unmove
  rw [Matrix.mulVec_sub, sub_eq_add_neg]
  exact this

theorem lat_image {R : M3 ℝ} {L L' : Set V3} (h : R.mulVec '' L = L') {v : V3} (hv : v ∈ L) : R.mulVec v ∈ L' := by
  rw [← h]; exact ⟨v, hv, rfl⟩

theorem lat_preimage {R : M3 ℝ} (h0 : R * R.transpose = 1) {L L' : Set V3} (h : R.mulVec '' L = L') {v : V3}
    (hv : R.mulVec v ∈ L') : v ∈ L := by
  rw [← h] at hv
  obtain ⟨w, hw, e⟩ := hv
  have := congrArg R.transpose.mulVec e
  rw [orthT h0, orthT h0] at this
  rwa [← this]

theorem lat_image_symm {R : M3 ℝ} (h0 : R * R.transpose = 1) {L L' : Set V3} (h : R.mulVec '' L = L') :
    R.transpose.mulVec '' L' = L := by
  rw [← h, ← Set.image_comp]
  have : R.transpose.mulVec ∘ R.mulVec = id := by funext v; exact orthT h0 v
  rw [this, Set.image_id]

/-- the moved decoration -/
def mvDec (R : M3 ℝ) (s : V3) (χ : Decoration) : Decoration := fun y => ((χ (unmove R s y)).1, R.mulVec (χ (unmove R s y)).2)

theorem same_mv {R : M3 ℝ} {s : V3} (h : PSym Λ bas R s) (L : Set V3) (χ : Decoration) :
    SameStructure Λ bas L χ (R.mulVec '' L) (mvDec R s χ) := by
  refine ⟨R, s, h, rfl, fun x _ => ?_⟩
  unfold mvDec
  rw [unmove_move h.orth]

theorem same_symm {L L' : Set V3} {χ χ' : Decoration} (h : SameStructure Λ bas L χ L' χ') : SameStructure Λ bas L' χ' L χ := by
  obtain ⟨R, s, hs, hL, hx⟩ := h
  refine ⟨R.transpose, _, hs.symm, lat_image_symm hs.orth hL, fun y hy => ?_⟩
  have e : R.transpose.mulVec y + -(R.transpose.mulVec s) = unmove R s y := by
    unfold unmove; rw [Matrix.mulVec_sub]; abel
  rw [e]
  have := hx _ (sites_unmove hs hy)
  rw [move_unmove hs.orth] at this
  rw [this]
  simp only [orthT hs.orth]

theorem same_trans {L L' L'' : Set V3} {χ χ' χ'' : Decoration} (h : SameStructure Λ bas L χ L' χ')
    (h' : SameStructure Λ bas L' χ' L'' χ'') : SameStructure Λ bas L χ L'' χ'' := by
  obtain ⟨R, s, hs, hL, hx⟩ := h
  obtain ⟨R', s', hs', hL', hx'⟩ := h'
  refine ⟨R' * R, _, hs'.comp hs, ?_, fun x hxs => ?_⟩
  · have : (R' * R).mulVec = R'.mulVec ∘ R.mulVec := by funext v; simp [Matrix.mulVec_mulVec]
    rw [this, Set.image_comp, hL, hL']
  · have e : (R' * R).mulVec x + (R'.mulVec s + s') = R'.mulVec (R.mulVec x + s) + s' := by
      rw [Matrix.mulVec_add, Matrix.mulVec_mulVec]; abel
    rw [e, hx' _ (sites_move hs hxs), hx x hxs]
    simp only [Matrix.mulVec_mulVec]

theorem same_periodic {L L' : Set V3} {χ χ' : Decoration} (h : SameStructure Λ bas L χ L' χ') (hL : L ⊆ Λ) (hΛ : IsSub Λ)
    (hp : PeriodicOn (CrystalSites Λ bas) L χ) : PeriodicOn (CrystalSites Λ bas) L' χ' := by
  obtain ⟨R, s, hs, hRL, hx⟩ := h
  intro y hy t ht
  rw [← hRL] at ht
  obtain ⟨t, ht, rfl⟩ := ht
  have h1 := sites_unmove hs hy
  have h2 : unmove R s y + t ∈ CrystalSites Λ bas := by
    obtain ⟨d, hd, hm⟩ := h1
    refine ⟨d, hd, ?_⟩
    have := hΛ.add _ hm _ (hL ht)
    convert this using 1
    abel
  have e1 := hx _ h1
  have e2 := hx _ h2
  rw [hp _ h1 t ht] at e2
  rw [Matrix.mulVec_add, add_right_comm, move_unmove hs.orth] at e2
  rw [move_unmove hs.orth] at e1
  rw [e1, e2]

theorem same_primitive {L L' : Set V3} {χ χ' : Decoration} (h : SameStructure Λ bas L χ L' χ') (hΛ : IsSub Λ)
    (hp : NoFurtherPeriod Λ (CrystalSites Λ bas) L χ) : NoFurtherPeriod Λ (CrystalSites Λ bas) L' χ' := by
  obtain ⟨R, s, hs, hRL, hx⟩ := h
  intro t ht hper
  have ht' : R.transpose.mulVec t ∈ Λ := image_maps_inv hs.orth hs.lattice ht
  have := hp _ ht' ?_
  · rw [← orthT' hs.orth t]; exact lat_image hRL this
  · intro x hxs
    have h2 : x + R.transpose.mulVec t ∈ CrystalSites Λ bas := by
      obtain ⟨d, hd, hm⟩ := hxs
      refine ⟨d, hd, ?_⟩
      have := hΛ.add _ hm _ ht'
      convert this using 1
      abel
    have e1 := hx _ h2
    rw [Matrix.mulVec_add, orthT' hs.orth, add_right_comm, hper _ (sites_move hs hxs), hx x hxs] at e1
    rw [Prod.mk.injEq] at e1
    apply Prod.ext
    · exact e1.1.symm
    · have := congrArg R.transpose.mulVec e1.2
      rw [orthT hs.orth, orthT hs.orth] at this
      exact this.symm

/-! Numberings. -/

theorem Spec.IsNumbering.inj {S L : Set V3} {N : ℕ} {pos : ℕ → V3} (h : IsNumbering S L N pos) {i j : ℕ}
    (hi : i < N) (hj : j < N) (hL : IsSub L) (hij : pos i - pos j ∈ L) : i = j := by
  obtain ⟨k, -, hk⟩ := h.unique (pos i) (h.site i hi)
  rw [hk i ⟨hi, by rw [sub_self]; exact hL.zero⟩, hk j ⟨hj, hij⟩]

theorem image_isSub {R : M3 ℝ} {L : Set V3} (h : IsSub L) : IsSub (R.mulVec '' L) := by
  refine ⟨⟨0, h.zero, Matrix.mulVec_zero _⟩, ?_, ?_⟩
  · rintro _ ⟨a, ha, rfl⟩ _ ⟨b, hb, rfl⟩
    exact ⟨a + b, h.add a ha b hb, Matrix.mulVec_add _ _ _⟩
  · rintro _ ⟨a, ha, rfl⟩
    exact ⟨-a, h.neg a ha, Matrix.mulVec_neg _ _⟩

theorem transport_perm {R : M3 ℝ} {s : V3} (h : PSym Λ bas R s) {L L' : Set V3} (hRL : R.mulVec '' L = L') (hL : IsSub L)
    {N : ℕ} {pos pos' : ℕ → V3} (hp : IsNumbering (CrystalSites Λ bas) L N pos)
    (hp' : IsNumbering (CrystalSites Λ bas) L' N pos') :
    ∃ σ : List ℕ, σ.Perm (List.range N) ∧ σ.length = N ∧
      ∀ i j, i < N → (σ[i]? = some j ↔ j < N ∧ R.mulVec (pos j) + s - pos' i ∈ L') := by
  have hL' : IsSub L' := by rw [← hRL]; exact image_isSub hL
  have key : ∀ i, i < N → ∃ k, k < N ∧ unmove R s (pos' i) - pos k ∈ L :=
    fun i hi => (hp.unique _ (sites_unmove h (hp'.site i hi))).exists
  choose! f hf1 hf2 using key
  have hmem : ∀ i, i < N → R.mulVec (pos (f i)) + s - pos' i ∈ L' := by
    intro i hi
    have := hL'.neg _ (lat_image hRL (hf2 i hi))
    rw [Matrix.mulVec_sub] at this
    have e := move_unmove h.orth s (pos' i)
    convert this using 1
    conv_lhs => rw [← e]
    abel
  have huniq : ∀ i j, i < N → j < N → R.mulVec (pos j) + s - pos' i ∈ L' → j = f i := by
    intro i j hi hj hm
    apply hp.inj hj (hf1 i hi) hL
    apply lat_preimage h.orth hRL
    have := hL'.add _ hm _ (hL'.neg _ (hmem i hi))
    rw [Matrix.mulVec_sub]
    convert this using 1
    abel
  have hinj : ∀ i j, i < N → j < N → f i = f j → i = j := by
    intro i j hi hj e
    apply hp'.inj hi hj hL'
    have := hL'.add _ (hL'.neg _ (hmem i hi)) _ (hmem j hj)
    rw [e] at this
    convert this using 1
    abel
  refine ⟨(List.range N).map f, ?_, by simp, ?_⟩
  · refine (List.subperm_of_subset ?_ ?_).perm_of_length_le (by simp)
    · apply List.Nodup.map_on _ List.nodup_range
      intro i hi j hj e
      exact hinj i j (List.mem_range.mp hi) (List.mem_range.mp hj) e
    · intro k hk
      obtain ⟨i, hi, rfl⟩ := List.mem_map.mp hk
      exact List.mem_range.mpr (hf1 i (List.mem_range.mp hi))
  · intro i j hi
    rw [List.getElem?_map, List.getElem?_range hi, Option.map_some, Option.some.injEq]
    constructor
    · rintro rfl; exact ⟨hf1 i hi, hmem i hi⟩
    · rintro ⟨h1, h2⟩; exact (huniq i j hi h1 h2).symm

/-! Site values. -/

/-- the entries a labelling may have -/
def WfEntry (arrows : Bool) (p : ℤ × ℕ) : Prop := p.1 = -1 ∨ (arrows = true ∧ 0 ≤ p.1 ∧ p.1 < 6)

/-- the permutation of the directions attached to a rotation -/
def TurnsBy (arrows : Bool) (R : M3 ℝ) (τ : List ℕ) : Prop := if arrows then TurnsArrows R τ else τ = List.range 6

theorem isArrowDir_vec {k : ℕ} {a : Fin 3 → ℤ} (h : IsArrowDir k a) : (fun i => (a i : ℝ)) = arrowDir k := by
  unfold IsArrowDir at h
  rcases h with ⟨rfl, rfl⟩ | ⟨rfl, rfl⟩ | ⟨rfl, rfl⟩ | ⟨rfl, rfl⟩ | ⟨rfl, rfl⟩ | ⟨rfl, rfl⟩ <;>
    (funext i; fin_cases i <;> simp [arrowDir])

theorem isArrowDir_lt {k : ℕ} {a : Fin 3 → ℤ} (h : IsArrowDir k a) : k < 6 := by
  unfold IsArrowDir at h
  rcases h with ⟨rfl, rfl⟩ | ⟨rfl, rfl⟩ | ⟨rfl, rfl⟩ | ⟨rfl, rfl⟩ | ⟨rfl, rfl⟩ | ⟨rfl, rfl⟩ <;> decide

theorem arrowDir_ne_zero {k : ℕ} (h : k < 6) : arrowDir k ≠ 0 := by
  intro e
  have h0 := congrFun e 0
  have h1 := congrFun e 1
  have h2 := congrFun e 2
  interval_cases k <;> simp [arrowDir] at h0 h1 h2

theorem arrowVec_inj {k m : ℕ} (hk : k < 6) (hm : m < 6) (e : arrowDir k = arrowDir m) : k = m := by
  have h0 := congrFun e 0
  have h1 := congrFun e 1
  have h2 := congrFun e 2
  interval_cases k <;> interval_cases m <;> simp [arrowDir] at h0 h1 h2 ⊢ <;> norm_num at *

theorem siteValue_inj {p q : ℤ × ℕ} (hp : WfEntry true p) (hq : WfEntry true q) (e : siteValue p = siteValue q) : p = q := by
  unfold siteValue at e
  rw [Prod.mk.injEq] at e
  refine Prod.ext ?_ e.1
  rcases hp with hp | ⟨-, hp, hp'⟩ <;> rcases hq with hq | ⟨-, hq, hq'⟩
  · rw [hp, hq]
  · rw [if_pos (by omega), if_neg (by omega)] at e
    exact absurd e.2.symm (arrowDir_ne_zero (by omega))
  · rw [if_neg (by omega), if_pos (by omega)] at e
    exact absurd e.2 (arrowDir_ne_zero (by omega))
  · rw [if_neg (by omega), if_neg (by omega)] at e
    have := arrowVec_inj (by omega) (by omega) e.2
    omega

theorem WfEntry.mono {arrows : Bool} {p : ℤ × ℕ} (h : WfEntry arrows p) : WfEntry true p := by
  rcases h with h | ⟨-, h⟩
  · exact Or.inl h
  · exact Or.inr ⟨rfl, h⟩

theorem TurnsArrows_getD {R : M3 ℝ} {τ : List ℕ} (h : TurnsArrows R τ) {k : ℕ} (hk : k < 6) :
    R.mulVec (arrowDir k) = arrowDir (τ.getD k 0) ∧ τ.getD k 0 < 6 := by
  have hk' : k < τ.length := by rw [h.length]; exact hk
  have : τ[k]? = some (τ.getD k 0) := by
    rw [List.getElem?_eq_getElem hk', getD_lt hk']
  obtain ⟨a, b, ha, hb, e⟩ := (h.entries k _ hk).mp this
  rw [isArrowDir_vec ha, isArrowDir_vec hb] at e
  exact ⟨e, isArrowDir_lt hb⟩

theorem siteValue_turn {arrows : Bool} {R : M3 ℝ} {τ : List ℕ} (h : TurnsBy arrows R τ) {p : ℤ × ℕ} (hp : WfEntry arrows p) :
    siteValue (turn τ p) = ((siteValue p).1, R.mulVec (siteValue p).2) ∧ WfEntry arrows (turn τ p) := by
  unfold turn
  rcases hp with hp | ⟨ha, h0, h6⟩
  · rw [if_pos (by omega)]
    refine ⟨?_, Or.inl hp⟩
    unfold siteValue
    rw [if_pos (by omega), Matrix.mulVec_zero]
  · rw [if_neg (by omega)]
    unfold TurnsBy at h
    rw [ha, if_pos rfl] at h
    obtain ⟨e, hlt⟩ := TurnsArrows_getD h (k := p.1.toNat) (by omega)
    refine ⟨?_, Or.inr ⟨ha, by positivity, by simp only; exact_mod_cast hlt⟩⟩
    unfold siteValue
    simp only
    rw [if_neg (by omega), if_neg (by omega), e, Int.toNat_natCast]

/-! Drawing. -/

theorem draws_move {R : M3 ℝ} {s : V3} (h : PSym Λ bas R s) {L L' : Set V3} (hRL : R.mulVec '' L = L') (hL : IsSub L)
    {N : ℕ} {pos pos' : ℕ → V3} {σ τ : List ℕ} (hσ : σ.Perm (List.range N))
    (hent : ∀ i j, i < N → (σ[i]? = some j ↔ j < N ∧ R.mulVec (pos j) + s - pos' i ∈ L'))
    {arrows : Bool} (hτ : TurnsBy arrows R τ) {z : List (ℤ × ℕ)} (hz : ∀ p ∈ z, WfEntry arrows p) {χ χ' : Decoration}
    (hχ : ∀ x ∈ CrystalSites Λ bas, χ' (R.mulVec x + s) = ((χ x).1, R.mulVec (χ x).2))
    (hd : Draws (CrystalSites Λ bas) L N pos z χ) :
    Draws (CrystalSites Λ bas) L' N pos' (act (σ, τ) z) χ' ∧ ∀ p ∈ act (σ, τ) z, WfEntry arrows p := by
  have hL' : IsSub L' := by rw [← hRL]; exact image_isSub hL
  obtain ⟨hlen, hdr⟩ := hd
  have hσ' : σ.Perm (List.range z.length) := by rw [hlen]; exact hσ
  have hlt : ∀ j ∈ σ, j < z.length := fun j hj => List.mem_range.mp (hσ'.mem_iff.mp hj)
  refine ⟨⟨by rw [act_length hσ', hlen], ?_⟩, ?_⟩
  · intro y hy k hk hyk
    have hkσ : k < σ.length := by rw [hσ.length_eq, List.length_range]; exact hk
    have hj := (hent k σ[k] hk).mp (List.getElem?_eq_getElem hkσ)
    have hx := sites_unmove h hy
    have hm : unmove R s y - pos σ[k] ∈ L := by
      apply lat_preimage h.orth hRL
      rw [Matrix.mulVec_sub]
      have e := move_unmove h.orth s y
      have := hL'.add _ hyk _ (hL'.neg _ hj.2)
      convert this using 1
      conv_rhs => rw [← e]
      abel
    obtain ⟨p, hp, e⟩ := hdr _ hx _ hj.1 hm
    have hpm : p ∈ z := List.mem_of_getElem? hp
    refine ⟨turn τ p, ?_, ?_⟩
    · unfold act
      rw [List.getElem?_map, permute_getElem? σ z hlt, List.getElem?_eq_getElem hkσ]
      simp [hp]
    · rw [(siteValue_turn hτ (hz p hpm)).1, ← e]
      have := hχ _ hx
      rwa [move_unmove h.orth] at this
  · intro p hp
    unfold act at hp
    obtain ⟨q, hq, rfl⟩ := List.mem_map.mp hp
    have : q ∈ z := (permute_perm σ z hσ').mem_iff.mp hq
    exact (siteValue_turn hτ (hz q this)).2

theorem draws_unique {S L : Set V3} {N : ℕ} {pos : ℕ → V3} (hp : IsNumbering S L N pos) (hL : IsSub L) {z z' : List (ℤ × ℕ)} {χ χ' : Decoration}
    (hχ : ∀ x ∈ S, χ x = χ' x)
    (h : Draws S L N pos z χ) (h' : Draws S L N pos z' χ') (hz : ∀ p ∈ z, WfEntry true p) (hz' : ∀ p ∈ z', WfEntry true p) : z = z' := by
  apply List.ext_getElem?
  intro k
  by_cases hk : k < N
  · obtain ⟨p, h1, e1⟩ := h.2 (pos k) (hp.site k hk) k hk (by rw [sub_self]; exact hL.zero)
    obtain ⟨q, h2, e2⟩ := h'.2 (pos k) (hp.site k hk) k hk (by rw [sub_self]; exact hL.zero)
    rw [h1, h2]
    rw [siteValue_inj (hz p (List.mem_of_getElem? h1)) (hz' q (List.mem_of_getElem? h2)) (by rw [← e1, ← e2, hχ _ (hp.site k hk)])]
  · rw [List.getElem?_eq_none (by rw [h.1]; omega), List.getElem?_eq_none (by rw [h'.1]; omega)]

theorem draws_exists {L : Set V3} {N : ℕ} {pos : ℕ → V3} (hp : IsNumbering (CrystalSites Λ bas) L N pos) (hL : IsSub L)
    (hΛ : IsSub Λ) (hLΛ : L ⊆ Λ)
    {z : List (ℤ × ℕ)} (hz : z.length = N) : ∃ χ, PeriodicOn (CrystalSites Λ bas) L χ ∧ Draws (CrystalSites Λ bas) L N pos z χ := by
  classical
  set S := CrystalSites Λ bas
  have key : ∀ x : V3, ∃ k, x ∈ S → k < N ∧ x - pos k ∈ L := by
    intro x
    by_cases hx : x ∈ S
    · obtain ⟨k, hk⟩ := (hp.unique x hx).exists
      exact ⟨k, fun _ => hk⟩
    · exact ⟨0, fun h => absurd h hx⟩
  choose f hf using key
  have hfu : ∀ x ∈ S, ∀ k, k < N → x - pos k ∈ L → f x = k := by
    intro x hx k hk h
    exact (hp.unique x hx).unique (hf x hx) ⟨hk, h⟩
  refine ⟨fun x => siteValue (z.getD (f x) (0, 0)), ?_, hz, ?_⟩
  · intro x hx t ht
    have hxt : x + t ∈ S := by
      obtain ⟨d, hd, hm⟩ := hx
      refine ⟨d, hd, ?_⟩
      have := hΛ.add _ hm _ (hLΛ ht)
      convert this using 1
      abel
    have : f x = f (x + t) := by
      apply hfu x hx _ (hf _ hxt).1
      have := hL.add _ (hf _ hxt).2 _ (hL.neg _ ht)
      convert this using 1
      abel
    simp only [this]
  · intro x hx k hk h
    have hk' : k < z.length := by omega
    refine ⟨z[k], List.getElem?_eq_getElem hk', ?_⟩
    simp only [hfu x hx k hk h, getD_lt hk']

theorem draws_congr {S L : Set V3} {N : ℕ} {pos : ℕ → V3} {z : List (ℤ × ℕ)} {χ χ' : Decoration} (hχ : ∀ x ∈ S, χ x = χ' x)
    (h : Draws S L N pos z χ) : Draws S L N pos z χ' :=
  ⟨h.1, fun x hx k hk hm => by rw [← hχ x hx]; exact h.2 x hx k hk hm⟩

/-! One representative of every structure. -/

theorem one_per_structure (hΛ : IsSub Λ) (arrows : Bool)
    (hturn : ∀ R s, PSym Λ bas R s → ∃ τ, TurnsBy arrows R τ)
    (N : ℕ) (U : List (M3 ℤ)) (Lat : M3 ℤ → Set V3) (hLat : ∀ u ∈ U, IsSub (Lat u) ∧ Lat u ⊆ Λ)
    (pos : M3 ℤ → ℕ → V3) (hpos : ∀ u ∈ U, IsNumbering (CrystalSites Λ bas) (Lat u) N (pos u))
    (G : M3 ℤ → List (List ℕ × List ℕ))
    (hG : ∀ u ∈ U, ∀ g, g ∈ G u ↔ ∃ R s, PSym Λ bas R s ∧ R.mulVec '' Lat u = Lat u ∧
      Induces (Lat u) N (pos u) R s g.1 ∧ TurnsBy arrows R g.2)
    (hGp : ∀ u ∈ U, ∀ g ∈ G u, g.1.Perm (List.range N))
    (Q : M3 ℤ → List (ℤ × ℕ) → Prop) (hQ : ∀ u ∈ U, ∀ z, Q u z → z.length = N ∧ ∀ p ∈ z, WfEntry arrows p)
    (T : M3 ℤ → List (List (ℤ × ℕ))) (hT : ∀ u ∈ U, IsTransversal (Q u) (OpEquiv (G u)) (T u))
    (𝒬 : Set V3 → Decoration → Prop)
    (hsym : ∀ L χ L' χ', SameStructure Λ bas L χ L' χ' → 𝒬 L χ → 𝒬 L' χ')
    (hread : ∀ u ∈ U, ∀ χ, 𝒬 (Lat u) χ → ∃ z, Draws (CrystalSites Λ bas) (Lat u) N (pos u) z χ ∧ Q u z)
    (L : Set V3) (hL : ∃! u, u ∈ U ∧ ∃ R s, PSym Λ bas R s ∧ R.mulVec '' L = Lat u)
    (χ : Decoration) (hχ : 𝒬 L χ) :
    ∃! uz : M3 ℤ × List (ℤ × ℕ), uz.1 ∈ U ∧ uz.2 ∈ T uz.1 ∧ ∃ ψ, PeriodicOn (CrystalSites Λ bas) (Lat uz.1) ψ ∧
      Draws (CrystalSites Λ bas) (Lat uz.1) N (pos uz.1) uz.2 ψ ∧ SameStructure Λ bas L χ (Lat uz.1) ψ := by
  obtain ⟨u, ⟨hu, R, s, hR, hRL⟩, huniq⟩ := hL
  have h1 := same_mv hR L χ
  rw [hRL] at h1
  obtain ⟨w, hw, hQw⟩ := hread u hu _ (hsym _ _ _ _ h1 hχ)
  obtain ⟨z, ⟨hz, g, hg, hgz⟩, hzuniq⟩ := (hT u hu).unique w hQw
  have hQz := (hT u hu).mem z hz
  obtain ⟨ψ, hper, hdr⟩ := draws_exists (hpos u hu) (hLat u hu).1 hΛ (hLat u hu).2 (hQ u hu z hQz).1
  have hback : SameStructure Λ bas (Lat u) ψ (Lat u) (mvDec R s χ) := by
    obtain ⟨R', s', hR', hRL', hind, hturn'⟩ := (hG u hu g).mp hg
    have hmv := same_mv hR' (Lat u) ψ
    rw [hRL'] at hmv
    obtain ⟨R2, s2, hR2, hRL2, hx2⟩ := hmv
    refine ⟨R', s', hR', hRL', fun x hx => ?_⟩
    obtain ⟨hd', -⟩ := draws_move hR' hRL' (hLat u hu).1 (hGp u hu g hg) hind.entries hturn' (hQ u hu z hQz).2
      (χ' := mvDec R' s' ψ) (fun x _ => by unfold mvDec; rw [unmove_move hR'.orth]) hdr
    rw [show act (g.1, g.2) z = w from hgz] at hd'
    have hy := sites_move hR' hx
    obtain ⟨k, ⟨hk, hm⟩, -⟩ := (hpos u hu).unique _ hy
    obtain ⟨p, hp, e⟩ := hd'.2 _ hy k hk hm
    obtain ⟨q, hq, e'⟩ := hw.2 _ hy k hk hm
    rw [e']
    rw [hp] at hq
    rw [← Option.some.inj hq, ← e]
    unfold mvDec
    rw [unmove_move hR'.orth]
  refine ⟨(u, z), ⟨hu, hz, ψ, hper, hdr, same_trans h1 (same_symm hback)⟩, ?_⟩
  rintro ⟨u', z'⟩ ⟨hu', hz', ψ', hper', hdr', hsame'⟩
  simp only at hu' hz' hper' hdr' hsame'
  have hue : u' = u := by
    obtain ⟨R', s', hR', hRL', -⟩ := hsame'
    exact huniq u' ⟨hu', R', s', hR', hRL'⟩
  subst hue
  have hQz' := (hT u' hu').mem z' hz'
  -- the two drawings are related by a symmetry of the supercell
  obtain ⟨R', s', hR', hRL', hx'⟩ := same_trans (same_symm hsame') h1
  obtain ⟨σ, hσ, hσl, hσe⟩ := transport_perm hR' hRL' (hLat u' hu').1 (hpos u' hu') (hpos u' hu')
  obtain ⟨τ, hτ⟩ := hturn R' s' hR'
  obtain ⟨hd', hwf⟩ := draws_move hR' hRL' (hLat u' hu').1 hσ hσe hτ (hQ u' hu' z' hQz').2 hx' hdr'
  have he : act (σ, τ) z' = w :=
    draws_unique (hpos u' hu') (hLat u' hu').1 (fun _ _ => rfl) hd' hw (fun p hp => (hwf p hp).mono) (fun p hp => ((hQ u' hu' w hQw).2 p hp).mono)
  have hmem : (σ, τ) ∈ G u' := (hG u' hu' _).mpr ⟨R', s', hR', hRL', ⟨hσl, hσe⟩, hτ⟩
  rw [hzuniq z' ⟨hz', (σ, τ), hmem, he⟩]

end Phenum
