import Verif.Props.Derivative
/-
C56, composed with the enumeration of each supercell.
-/
namespace Phenum
open Spec

/-- two lists of representatives have the same length -/
theorem transversal_length {β : Type} {Pr : β → Prop} {R : β → β → Prop} (hsymm : ∀ x y, Pr x → Pr y → R x y → R y x)
    (htrans : ∀ x y z, Pr x → Pr y → Pr z → R x y → R y z → R x z) {L L' : List β} (h : IsTransversal Pr R L) (h' : IsTransversal Pr R L') :
    L.length ≤ L'.length := by
  classical
  have key : ∀ z ∈ L, ∃ w, w ∈ L' ∧ R w z := fun z hz => (h'.unique z (h.mem z hz)).exists
  choose! f hf1 hf2 using key
  have hnd : (L.map f).Nodup := by
    apply List.Nodup.map_on _ h.nodup
    intro x hx y hy e
    have h1 := hf2 x hx
    have h2 := hf2 y hy
    rw [e] at h1
    have hw := h'.mem _ (hf1 y hy)
    have hxp := h.mem x hx
    have hyp := h.mem y hy
    obtain ⟨v, -, hv⟩ := h.unique _ hw
    rw [hv x ⟨hx, hsymm _ _ hw hxp h1⟩, hv y ⟨hy, hsymm _ _ hw hyp h2⟩]
  have := (List.subperm_of_subset hnd (fun w hw => by
    obtain ⟨z, hz, rfl⟩ := List.mem_map.mp hw
    exact hf1 z hz : L.map f ⊆ L')).length_le
  simpa using this

/-- pairwise inequivalent objects, as many as there are classes, represent all classes -/
theorem transversal_of_count {β : Type} {Pr : β → Prop} {R : β → β → Prop} (hrefl : ∀ x, Pr x → R x x)
    (hsymm : ∀ x y, Pr x → Pr y → R x y → R y x)
    (htrans : ∀ x y z, Pr x → Pr y → Pr z → R x y → R y z → R x z) {L full : List β} (hmem : ∀ z ∈ L, Pr z)
    (hpw : L.Pairwise (fun z w => ¬ R z w)) (h : IsTransversal Pr R full) (hlen : L.length = full.length) : IsTransversal Pr R L := by
  classical
  have hpw' : ∀ x ∈ L, ∀ y ∈ L, R x y → x = y := by
    intro x hx y hy hxy
    by_contra hne
    obtain ⟨i, hi, rfl⟩ := List.getElem_of_mem hx
    obtain ⟨j, hj, rfl⟩ := List.getElem_of_mem hy
    rw [List.pairwise_iff_getElem] at hpw
    rcases lt_trichotomy i j with h | h | h
    · exact hpw i j hi hj h hxy
    · subst h; exact hne rfl
    · exact hpw j i hj hi h (hsymm _ _ (hmem _ hx) (hmem _ hy) hxy)
  have hnd : L.Nodup := hpw.imp_of_mem (fun {a b} ha _ hab e => hab (e ▸ hrefl a (hmem a ha)))
  have key : ∀ z ∈ L, ∃ w, w ∈ full ∧ R w z := fun z hz => (h.unique z (hmem z hz)).exists
  choose! f hf1 hf2 using key
  have hfnd : (L.map f).Nodup := by
    apply List.Nodup.map_on _ hnd
    intro x hx y hy e
    have h1 := hf2 x hx
    have h2 := hf2 y hy
    rw [e] at h1
    have hw := h.mem _ (hf1 y hy)
    exact hpw' x hx y hy (htrans _ _ _ (hmem x hx) hw (hmem y hy) (hsymm _ _ hw (hmem x hx) h1) h2)
  have hperm : (L.map f).Perm full := (List.subperm_of_subset hfnd (fun w hw => by
    obtain ⟨z, hz, rfl⟩ := List.mem_map.mp hw
    exact hf1 z hz)).perm_of_length_le (by rw [List.length_map, hlen])
  refine ⟨hnd, hmem, fun x hx => ?_⟩
  obtain ⟨w, ⟨hw, hwx⟩, -⟩ := h.unique x hx
  obtain ⟨z, hz, rfl⟩ := List.mem_map.mp (hperm.mem_iff.mpr hw)
  have hzx : R z x := htrans _ _ _ (hmem z hz) (h.mem _ hw) hx (hsymm _ _ (h.mem _ hw) (hmem z hz) (hf2 z hz)) hwx
  refine ⟨z, ⟨hz, hzx⟩, ?_⟩
  rintro y ⟨hy, hyx⟩
  exact hpw' y hy z hz (htrans _ _ _ (hmem y hy) hx (hmem z hz) hyx (hsymm _ _ (hmem z hz) hx hzx))

/-! Contents. -/

/-- `concs[i]` atoms of species `i+1`, no displacements -/
def Spec.Plain (concs : List ℕ) (z : List (ℤ × ℕ)) : Prop := (∀ s ∈ z, s.1 = -1) ∧ IsLabelling concs (z.map (·.2))

theorem plain_contents (concs : List ℕ) (arrows : Bool) : IsContents concs.sum arrows (Plain concs) := by
  refine ⟨?_, fun z hz p hp => Or.inl (hz.1 p hp), ?_, ?_⟩
  · intro z hz
    rw [← lab_len hz.2, List.length_map]
  · rintro z z' ⟨h1, h2, h3⟩ hp
    refine ⟨fun s hs => h1 s (hp.mem_iff.mp hs), ?_, ?_⟩
    · intro v hv
      exact h2 v ((hp.map _).mem_iff.mp hv)
    · intro i hi
      rw [(hp.map _).count_eq]; exact h3 i hi
  · rintro z τ ⟨h1, h2⟩ -
    have : z.map (turn τ) = z := by
      conv_rhs => rw [← List.map_id z]
      apply List.map_congr_left
      intro p hp
      unfold turn
      rw [if_pos (by rw [h1 p hp]; decide)]; rfl
    rw [this]
    exact ⟨h1, h2⟩

theorem composed_contents (concs : List ℕ) (aconcs : List ℚ) (hlen : concs.length ≤ aconcs.length) :
    IsContents concs.sum true (Composed concs aconcs 6) := by
  obtain ⟨d, hd, -, -, hdl, -⟩ := C40_arrow_concs concs aconcs hlen
  have hiff := composed_iff hlen hd 6 (by decide)
  refine ⟨?_, ?_, ?_, ?_⟩
  · intro z hz
    have := ((hiff z).mpr hz).1.length_eq
    rw [erase_eq, erase_eq, List.length_map, List.length_map] at this
    rw [this, hdl]
  · intro z hz p hp
    rcases hz.arrow p hp with h | ⟨h1, h2⟩
    · exact Or.inl h
    · exact Or.inr ⟨rfl, h1, h2⟩
  · rintro z z' ⟨h1, h2, h3⟩ hp
    refine ⟨fun s hs => h1 s (hp.mem_iff.mp hs), fun s hs => h2 s (hp.mem_iff.mp hs), fun i hi => ?_⟩
    rw [hp.countP_eq, hp.countP_eq]; exact h3 i hi
  · rintro z τ ⟨h1, h2, h3⟩ hτ
    have ht : ∀ p ∈ z, (turn τ p).2 = p.2 ∧ (0 ≤ (turn τ p).1 ↔ 0 ≤ p.1) ∧ ((turn τ p).1 = -1 ∨ (0 ≤ (turn τ p).1 ∧ (turn τ p).1 < 6)) := by
      intro p hp
      unfold turn
      rcases h1 p hp with h | ⟨h, h6⟩
      · rw [if_pos (by omega)]; exact ⟨rfl, Iff.rfl, Or.inl h⟩
      · rw [if_neg (by omega)]
        have hl : p.1.toNat < τ.length := by rw [hτ.length_eq, List.length_range]; omega
        have hm : τ.getD p.1.toNat 0 < 6 := by
          rw [getD_lt hl]
          exact List.mem_range.mp (hτ.mem_iff.mp (List.getElem_mem hl))
        refine ⟨rfl, ⟨fun _ => h, fun _ => by positivity⟩, Or.inr ⟨by positivity, ?_⟩⟩
        simp only; exact_mod_cast hm
    refine ⟨?_, ?_, ?_⟩
    · intro s hs
      obtain ⟨p, hp, rfl⟩ := List.mem_map.mp hs
      have := (ht p hp).2.2
      exact_mod_cast this
    · intro s hs
      obtain ⟨p, hp, rfl⟩ := List.mem_map.mp hs
      rw [(ht p hp).1]; exact h2 p hp
    · intro i hi
      rw [List.countP_map, List.countP_map]
      refine ⟨Eq.trans ?_ (h3 i hi).1, Eq.trans ?_ (h3 i hi).2⟩
      · apply List.countP_congr
        intro p hp
        simp only [Function.comp, decide_eq_true_eq, (ht p hp).1]
      · apply List.countP_congr
        intro p hp
        simp only [Function.comp, decide_eq_true_eq, (ht p hp).1, (ht p hp).2.1]

/-- without arrows, operations act through the permutations of the sites -/
theorem opEquiv_plain {concs : List ℕ} {G : List Op} (hG : ∀ g ∈ G, g.1.Perm (List.range concs.sum)) {w z : Config} (hw : Plain concs w) :
    OpEquiv G w z ↔ Equiv (G.map (·.1)) w z := by
  have hact : ∀ g ∈ G, act g w = permute g.1 w := by
    intro g hg
    unfold act
    conv_rhs => rw [← List.map_id (permute g.1 w)]
    apply List.map_congr_left
    intro p hp
    have hp' : p ∈ w := (permute_perm g.1 w (by rw [(plain_contents concs false).length w hw]; exact hG g hg)).mem_iff.mp hp
    unfold turn
    rw [if_pos (by rw [hw.1 p hp']; decide)]; rfl
  unfold OpEquiv Spec.Equiv
  constructor
  · rintro ⟨g, hg, rfl⟩
    exact ⟨g.1, List.mem_map_of_mem hg, (hact g hg).symm⟩
  · rintro ⟨σ, hσ, rfl⟩
    obtain ⟨g, hg, rfl⟩ := List.mem_map.mp hσ
    exact ⟨g, hg, hact g hg⟩

theorem opGroup_sites {n dim : ℕ} {H : List Op} (h : IsOpGroup n dim H) : IsPermGroup n (H.map (·.1)) := by
  refine ⟨?_, List.mem_map.mpr ⟨_, h.one, rfl⟩, ?_, ?_⟩
  · intro σ hσ
    obtain ⟨g, hg, rfl⟩ := List.mem_map.mp hσ
    exact h.sites g hg
  · intro σ hσ τ hτ
    obtain ⟨g, hg, rfl⟩ := List.mem_map.mp hσ
    obtain ⟨g', hg', rfl⟩ := List.mem_map.mp hτ
    exact List.mem_map.mpr ⟨_, h.mul g hg g' hg', rfl⟩
  · intro σ hσ
    obtain ⟨g, hg, rfl⟩ := List.mem_map.mp hσ
    obtain ⟨g', hg', e, -⟩ := h.inv g hg
    exact ⟨_, List.mem_map_of_mem hg', e⟩

/-- one supercell, no arrows: the count and the complete enumeration -/
theorem supercell_plain {G : List Op} {concs : List ℕ} (hG : IsOpGroup concs.sum 6 G) (hnd : G.Nodup) (h2 : 2 ≤ concs.length)
    (hn : 1 ≤ concs.sum) (aconcs : List ℚ) (hlen : concs.length ≤ aconcs.length)
    (hna : ∀ i, i < concs.length → arrowCount (concs.getD i 0) (aconcs.getD i 0) = 0) :
    ∃ total : ℕ, polya concs G .none = some (.ok (total : ℤ)) ∧
      ∀ (wanted nB : ℕ) (rnd : EnumRandom), (∀ l, (rnd.shuffle l).Perm l) → Modest concs wanted → total ≤ wanted →
        ∃ T, enumSys G concs aconcs wanted nB true false rnd = some (.ok T) ∧ T.length = total ∧
          IsTransversal (Plain concs) (OpEquiv G) T := by
  have hP := opGroup_sites hG
  have hb := sites_balanced hG hnd
  have hp2 : ∀ g ∈ G, ∃ d, g.2.Perm (List.range d) := fun g hg => ⟨6, hG.arrows g hg⟩
  obtain ⟨⟨L0, hL0⟩, hcount⟩ := C13_polya_counts_orbits concs G hn hP hb hp2
  refine ⟨L0.length, hcount L0 hL0, ?_⟩
  intro wanted nB rnd hsh hmod hw
  obtain ⟨L, full, e1, e2, e3, e4, e5⟩ := C43_request G concs aconcs wanted nB rnd h2 hlen hn hna hP hb hp2 hsh hmod
  have hfl : full.length = L0.length := by
    have := (hcount full e4).symm.trans (hcount L0 hL0)
    exact_mod_cast Except.ok.inj (Option.some.inj this)
  have hLl : L.length = L0.length := by
    rw [e5, hfl]
    unfold delivered
    split_ifs with h
    · omega
    · rfl
  refine ⟨L, e1, hLl, ?_⟩
  have hc := plain_contents concs true
  have hlt : ∀ z, Plain concs z → ∀ s ∈ z, s.1 < (6 : ℕ) := fun z hz s hs => by rw [hz.1 s hs]; decide
  -- the full list, as configurations without arrows
  have hback : ∀ z : Config, Plain concs z → z = (z.map (·.2)).map (fun v => ((-1 : ℤ), v)) := by
    intro z hz
    rw [List.map_map]
    conv_lhs => rw [← List.map_id z]
    apply List.map_congr_left
    intro s hs
    exact Prod.ext (hz.1 s hs) rfl
  have hpm : ∀ (σ : List ℕ) (x : List ℕ), permute σ (x.map (fun v => ((-1 : ℤ), v))) = (permute σ x).map (fun v => ((-1 : ℤ), v)) := by
    intro σ x
    unfold permute
    rw [List.map_filterMap]
    congr 1
    funext j
    simp
  have hpl : ∀ x, IsLabelling concs x → Plain concs (x.map (fun v => ((-1 : ℤ), v))) := by
    intro x hx
    refine ⟨?_, ?_⟩
    · intro s hs
      obtain ⟨v, -, rfl⟩ := List.mem_map.mp hs
      rfl
    · rw [List.map_map]
      have : ((fun s : ℤ × ℕ => s.2) ∘ fun v => ((-1 : ℤ), v)) = id := rfl
      rw [this, List.map_id]; exact hx
  have hinj : Function.Injective (fun v : ℕ => ((-1 : ℤ), v)) := fun a b h => (Prod.mk.inj h).2
  have hfull : IsTransversal (Plain concs) (OpEquiv G) (full.map (fun x => x.map (fun v => ((-1 : ℤ), v)))) := by
    refine ⟨e4.nodup.map (List.map_injective_iff.mpr hinj), ?_, ?_⟩
    · intro w hw
      obtain ⟨x, hx, rfl⟩ := List.mem_map.mp hw
      exact hpl x (e4.mem x hx)
    · intro z hz
      obtain ⟨x, ⟨hx, σ, hσ, e⟩, hun⟩ := e4.unique (z.map (·.2)) hz.2
      refine ⟨x.map (fun v => ((-1 : ℤ), v)), ⟨List.mem_map_of_mem hx, ?_⟩, ?_⟩
      · rw [opEquiv_plain hG.sites (hpl x (e4.mem x hx))]
        exact ⟨σ, hσ, by rw [hpm, e, ← hback z hz]⟩
      · rintro w ⟨hw, hwz⟩
        obtain ⟨y, hy, rfl⟩ := List.mem_map.mp hw
        rw [opEquiv_plain hG.sites (hpl y (e4.mem y hy))] at hwz
        obtain ⟨τ, hτ, e'⟩ := hwz
        rw [hpm] at e'
        have := hun y ⟨hy, τ, hτ, by
          rw [← e', List.map_map]
          have : ((fun s : ℤ × ℕ => s.2) ∘ fun v => ((-1 : ℤ), v)) = id := rfl
          rw [this, List.map_id]⟩
        rw [this]
  refine transversal_of_count (fun x hx => hG.opEquiv_refl (hc.length x hx) (hlt x hx))
    (fun x y hx hy h => hG.opEquiv_symm (hc.length x hx) (hlt x hx) h)
    (fun x y z hx hy hz h h' => hG.opEquiv_trans (hc.length x hx) (hlt x hx) h h') e2 ?_ hfull (by rw [List.length_map, hLl, hfl])
  refine e3.imp_of_mem (fun {a b} ha _ h he => h ?_)
  rwa [opEquiv_plain hG.sites (e2 a ha)] at he

/-- one supercell with arrows -/
theorem supercell_arrows {G : List Op} {concs : List ℕ} (hG : IsOpGroup concs.sum 6 G) (hnd : G.Nodup) (h2 : 2 ≤ concs.length)
    (aconcs : List ℚ) (hlen : concs.length ≤ aconcs.length)
    (har : ∃ i, i < concs.length ∧ 0 < arrowCount (concs.getD i 0) (aconcs.getD i 0)) :
    ∃ total : ℕ, ∀ (wanted nB : ℕ) (rnd : EnumRandom), (∀ l, (rnd.shuffle l).Perm l) → Modest concs wanted →
        (concs.sum < 12 ∨ 100 < wanted) → total ≤ wanted →
        ∃ T, enumSys G concs aconcs wanted nB true false rnd = some (.ok T) ∧ T.length = total ∧
          IsTransversal (Composed concs aconcs 6) (OpEquiv G) T := by
  have hb := balanced_of_nodup hnd
  have hc := composed_contents concs aconcs hlen
  have hlt : ∀ z, Composed concs aconcs 6 z → ∀ s ∈ z, s.1 < (6 : ℕ) := fun z hz s hs => by
    rcases hz.arrow s hs with h | h
    · rw [h]; decide
    · exact h.2
  have hsymm : ∀ x y, Composed concs aconcs 6 x → Composed concs aconcs 6 y → OpEquiv G x y → OpEquiv G y x :=
    fun x y hx hy h => hG.opEquiv_symm (hc.length x hx) (hlt x hx) h
  have htrans : ∀ x y z, Composed concs aconcs 6 x → Composed concs aconcs 6 y → Composed concs aconcs 6 z → OpEquiv G x y → OpEquiv G y z → OpEquiv G x z :=
    fun x y z hx hy hz h h' => hG.opEquiv_trans (hc.length x hx) (hlt x hx) h h'
  obtain ⟨-, L0, -, -, -, hL0, -⟩ := C43_request_arrows G concs aconcs 101 1 ⟨id, fun _ => 0, fun _ => [], fun _ _ => 0, fun _ => true, fun _ => true, fun _ _ => true⟩
    h2 hlen har hG hb (fun l => List.Perm.refl l) (Or.inr (by decide)) (Or.inr (by decide))
  refine ⟨L0.length, ?_⟩
  intro wanted nB rnd hsh hmod hmod2 hw
  obtain ⟨L, full, e1, e2, e3, e4, e5⟩ := C43_request_arrows G concs aconcs wanted nB rnd h2 hlen har hG hb hsh hmod hmod2
  have hfl : full.length = L0.length := le_antisymm (transversal_length hsymm htrans e4 hL0) (transversal_length hsymm htrans hL0 e4)
  have hLl : L.length = L0.length := by
    rw [e5, hfl]
    unfold delivered
    split_ifs with h
    · omega
    · rfl
  exact ⟨L, e1, hLl, transversal_of_count (fun x hx => hG.opEquiv_refl (hc.length x hx) (hlt x hx)) hsymm htrans e2 e3 e4 (by rw [hLl, hfl])⟩

/-- No translation outside the lattice maps the crystal to itself: the cell is primitive. -/
def Spec.PrimitiveCell (P : M3 ℝ) (bas : List V3) : Prop :=
  ∀ s, IsCrystalSym (ColLattice P.transpose) (bas.map (fun d => (1, d))) 1 s → s ∈ ColLattice P.transpose

/-- C56, no displacements: `get_HNFs`, then for each supercell `get_sym_group`, `polya` and a request for at least as many
structures as `polya` counts. The request delivers that number, and every structure of the composition - `concs[i]`
atoms of species `i+1` in `n` cells, any superlattice of index `n` - is, up to a symmetry of the crystal, drawn by exactly
one of the supercells and labelings delivered. (The cell is primitive; if the operations are made without arrows the
first atom is at the origin.) -/
theorem C56_enumeration {P : M3 ℝ} {bas cell : List V3} {arrows : Bool} (hu : Usable P bas cell arrows)
    (hprim : if arrows then PrimitiveCell P bas else cell.getD 0 0 = 0)
    (n : ℕ) (hn : 1 ≤ n) (hn' : n < 2 ^ 24) (concs : List ℕ) (h2 : 2 ≤ concs.length) (hsum : concs.sum = bas.length * n)
    (aconcs : List ℚ) (hlen : concs.length ≤ aconcs.length)
    (hna : ∀ i, i < concs.length → arrowCount (concs.getD i 0) (aconcs.getD i 0) = 0) (latDim : ℕ) (hdim : latDim ≠ 2) :
    ∃ e > 0, ∀ eps, 0 < eps → eps < e →
      ∃ (U : List (M3 ℤ)) (G : M3 ℤ → List (List ℕ × List ℕ)) (pos : M3 ℤ → ℕ → V3) (total : M3 ℤ → ℕ),
      getHNFs n P bas latDim eps = some (.ok U) ∧ U.Nodup ∧
      (∀ u ∈ U, getSymGroup P bas u latDim eps arrows = some (.ok (G u)) ∧
        IsNumbering (CrystalSites (ColLattice P.transpose) bas) (SupLat P u) (bas.length * n) (pos u) ∧
        polya concs (G u) .none = some (.ok (total u : ℤ))) ∧
      ∀ (rnd : M3 ℤ → EnumRandom) (wanted : M3 ℤ → ℕ), (∀ u l, ((rnd u).shuffle l).Perm l) →
      (∀ u ∈ U, total u ≤ wanted u ∧ Modest concs (wanted u)) →
      ∃ T : M3 ℤ → List (List (ℤ × ℕ)),
        (∀ u ∈ U, enumSys (G u) concs aconcs (wanted u) bas.length true false (rnd u) = some (.ok (T u)) ∧
          (T u).length = total u ∧ ∀ z ∈ T u, Plain concs z) ∧
        ∀ M : M3 ℤ, M.det = n ∨ M.det = -n → ∀ χ, PeriodicOn (CrystalSites (ColLattice P.transpose) bas) (SupLat P M) χ →
        HasContents (CrystalSites (ColLattice P.transpose) bas) (SupLat P M) (bas.length * n) (Plain concs) χ →
        ∃! uz : M3 ℤ × List (ℤ × ℕ), uz.1 ∈ U ∧ uz.2 ∈ T uz.1 ∧
          ∃ ψ, PeriodicOn (CrystalSites (ColLattice P.transpose) bas) (SupLat P uz.1) ψ ∧
            Draws (CrystalSites (ColLattice P.transpose) bas) (SupLat P uz.1) (bas.length * n) (pos uz.1) uz.2 ψ ∧
            SameStructure (ColLattice P.transpose) bas (SupLat P M) χ (SupLat P uz.1) ψ := by
  obtain ⟨e, he, h⟩ := enumeration_calls hu n hn hn' latDim hdim
  refine ⟨e, he, fun eps h0 hlt => ?_⟩
  obtain ⟨U, G, pos, hU, hnd, -, huniq, hall⟩ := h eps h0 hlt
  have hpos : 1 ≤ concs.sum := by rw [hsum]; exact Nat.mul_pos (List.length_pos_iff.mpr hu.nonempty) hn
  have key : ∀ u : M3 ℤ, ∃ total : ℕ, u ∈ U → polya concs (G u) .none = some (.ok (total : ℤ)) ∧
      ∀ (wanted nB : ℕ) (rnd : EnumRandom), (∀ l, (rnd.shuffle l).Perm l) → Modest concs wanted → total ≤ wanted →
        ∃ T, enumSys (G u) concs aconcs wanted nB true false rnd = some (.ok T) ∧ T.length = total ∧
          IsTransversal (Plain concs) (OpEquiv (G u)) T := by
    intro u
    by_cases hm : u ∈ U
    · obtain ⟨-, -, -, hgrp, -, -, -, -, hrep, -⟩ := hall u hm
      obtain ⟨total, ht⟩ := supercell_plain (by rw [hsum]; exact hgrp) (hrep (by cases arrows <;> exact hprim)) h2 hpos aconcs hlen hna
      exact ⟨total, fun _ => ht⟩
    · exact ⟨0, fun h => absurd h hm⟩
  choose total htot using key
  refine ⟨U, G, pos, total, hU, hnd, fun u hm => ⟨(hall u hm).1, (hall u hm).2.1, (htot u hm).1⟩, ?_⟩
  intro rnd wanted hsh hw
  have key2 : ∀ u : M3 ℤ, ∃ T, u ∈ U → enumSys (G u) concs aconcs (wanted u) bas.length true false (rnd u) = some (.ok T) ∧ T.length = total u ∧
      IsTransversal (Plain concs) (OpEquiv (G u)) T := by
    intro u
    by_cases hm : u ∈ U
    · obtain ⟨T, hT⟩ := (htot u hm).2 (wanted u) bas.length (rnd u) (hsh u) (hw u hm).2 (hw u hm).1
      exact ⟨T, fun _ => hT⟩
    · exact ⟨[], fun h => absurd h hm⟩
  choose T hT using key2
  refine ⟨T, fun u hm => ⟨(hT u hm).1, (hT u hm).2.1, (hT u hm).2.2.mem⟩, ?_⟩
  intro M hM χ hper hcont
  exact structures_once hu hn huniq hall (by rw [← hsum]; exact plain_contents concs arrows) (fun u hm => (hT u hm).2.2) hM hcont

/-- C56 with displacements (arrows along the axes): the same, the contents being `concs[i]` atoms of species `i+1` of which
the given fraction is displaced. `total u` is the number of classes for the supercell `u`. -/
theorem C56_enumeration_arrows {P : M3 ℝ} {bas cell : List V3} (hu : Usable P bas cell true) (hprim : PrimitiveCell P bas)
    (n : ℕ) (hn : 1 ≤ n) (hn' : n < 2 ^ 24) (concs : List ℕ) (h2 : 2 ≤ concs.length) (hsum : concs.sum = bas.length * n)
    (aconcs : List ℚ) (hlen : concs.length ≤ aconcs.length)
    (har : ∃ i, i < concs.length ∧ 0 < arrowCount (concs.getD i 0) (aconcs.getD i 0)) (latDim : ℕ) (hdim : latDim ≠ 2) :
    ∃ e > 0, ∀ eps, 0 < eps → eps < e →
      ∃ (U : List (M3 ℤ)) (G : M3 ℤ → List (List ℕ × List ℕ)) (pos : M3 ℤ → ℕ → V3) (total : M3 ℤ → ℕ),
      getHNFs n P bas latDim eps = some (.ok U) ∧ U.Nodup ∧
      (∀ u ∈ U, getSymGroup P bas u latDim eps true = some (.ok (G u)) ∧
        IsNumbering (CrystalSites (ColLattice P.transpose) bas) (SupLat P u) (bas.length * n) (pos u)) ∧
      ∀ (rnd : M3 ℤ → EnumRandom) (wanted : M3 ℤ → ℕ), (∀ u l, ((rnd u).shuffle l).Perm l) →
      (∀ u ∈ U, total u ≤ wanted u ∧ Modest concs (wanted u) ∧ (concs.sum < 12 ∨ 100 < wanted u)) →
      ∃ T : M3 ℤ → List (List (ℤ × ℕ)),
        (∀ u ∈ U, enumSys (G u) concs aconcs (wanted u) bas.length true false (rnd u) = some (.ok (T u)) ∧
          (T u).length = total u ∧ ∀ z ∈ T u, Composed concs aconcs 6 z) ∧
        ∀ M : M3 ℤ, M.det = n ∨ M.det = -n → ∀ χ, PeriodicOn (CrystalSites (ColLattice P.transpose) bas) (SupLat P M) χ →
        HasContents (CrystalSites (ColLattice P.transpose) bas) (SupLat P M) (bas.length * n) (Composed concs aconcs 6) χ →
        ∃! uz : M3 ℤ × List (ℤ × ℕ), uz.1 ∈ U ∧ uz.2 ∈ T uz.1 ∧
          ∃ ψ, PeriodicOn (CrystalSites (ColLattice P.transpose) bas) (SupLat P uz.1) ψ ∧
            Draws (CrystalSites (ColLattice P.transpose) bas) (SupLat P uz.1) (bas.length * n) (pos uz.1) uz.2 ψ ∧
            SameStructure (ColLattice P.transpose) bas (SupLat P M) χ (SupLat P uz.1) ψ := by
  obtain ⟨e, he, h⟩ := enumeration_calls hu n hn hn' latDim hdim
  refine ⟨e, he, fun eps h0 hlt => ?_⟩
  obtain ⟨U, G, pos, hU, hnd, -, huniq, hall⟩ := h eps h0 hlt
  have key : ∀ u : M3 ℤ, ∃ total : ℕ, u ∈ U → 
      ∀ (wanted nB : ℕ) (rnd : EnumRandom), (∀ l, (rnd.shuffle l).Perm l) → Modest concs wanted → (concs.sum < 12 ∨ 100 < wanted) → total ≤ wanted →
        ∃ T, enumSys (G u) concs aconcs wanted nB true false rnd = some (.ok T) ∧ T.length = total ∧
          IsTransversal (Composed concs aconcs 6) (OpEquiv (G u)) T := by
    intro u
    by_cases hm : u ∈ U
    · obtain ⟨-, -, -, hgrp, -, -, -, -, hrep, -⟩ := hall u hm
      obtain ⟨total, ht⟩ := supercell_arrows (by rw [hsum]; exact hgrp) (hrep hprim) h2 aconcs hlen har
      exact ⟨total, fun _ => ht⟩
    · exact ⟨0, fun h => absurd h hm⟩
  choose total htot using key
  refine ⟨U, G, pos, total, hU, hnd, fun u hm => ⟨(hall u hm).1, (hall u hm).2.1⟩, ?_⟩
  intro rnd wanted hsh hw
  have key2 : ∀ u : M3 ℤ, ∃ T, u ∈ U → enumSys (G u) concs aconcs (wanted u) bas.length true false (rnd u) = some (.ok T) ∧ T.length = total u ∧
      IsTransversal (Composed concs aconcs 6) (OpEquiv (G u)) T := by
    intro u
    by_cases hm : u ∈ U
    · obtain ⟨T, hT⟩ := (htot u hm) (wanted u) bas.length (rnd u) (hsh u) (hw u hm).2.1 (hw u hm).2.2 (hw u hm).1
      exact ⟨T, fun _ => hT⟩
    · exact ⟨[], fun h => absurd h hm⟩
  choose T hT using key2
  refine ⟨T, fun u hm => ⟨(hT u hm).1, (hT u hm).2.1, (hT u hm).2.2.mem⟩, ?_⟩
  intro M hM χ hper hcont
  exact structures_once hu hn huniq hall (by rw [← hsum]; exact composed_contents concs aconcs hlen) (fun u hm => (hT u hm).2.2) hM hcont

theorem keeps_of_image {R : M3 ℝ} (hR : R * R.transpose = 1) {L : Set V3} (h : R.mulVec '' L = L) : Keeps L R :=
  ⟨fun v hv => lat_image h hv, fun v hv => lat_preimage hR h hv⟩

/-- the group returned for a supercell begins with the translations -/
theorem hasTranslations_of {P : M3 ℝ} {bas : List V3} {arrows : Bool} {u : M3 ℤ} {N n : ℕ} {pos : ℕ → V3} {G : List Op}
    (hp : IsNumbering (CrystalSites (ColLattice P.transpose) bas) (SupLat P u) N pos)
    (hG : ∀ g, g ∈ G ↔ ∃ R s, PSym (ColLattice P.transpose) bas R s ∧ R.mulVec '' SupLat P u = SupLat P u ∧
          Induces (SupLat P u) N pos R s g.1 ∧ TurnsBy arrows R g.2)
    (ht : ∀ g, g ∈ G.take n ↔ g.2 = List.range 6 ∧ ∃ t ∈ ColLattice P.transpose, Induces (SupLat P u) N pos 1 t g.1)
    (hle : n ≤ G.length) (h0 : G[0]? = some (List.range N, List.range 6)) (hnd : ((G.take n).map (·.1)).Nodup) :
    HasTranslations N G n := by
  have hΛ := colLat_isSub P.transpose
  have hL : IsSub (SupLat P u) := colLat_isSub _
  refine ⟨hle, by rw [h0]; rfl, hnd, ?_⟩
  intro σ hσ τ hτ
  obtain ⟨g, hg, rfl⟩ := List.mem_map.mp hσ
  obtain ⟨g', hg', rfl⟩ := List.mem_map.mp hτ
  obtain ⟨R, s, hR, hRL, hind, -⟩ := (hG g).mp hg
  obtain ⟨-, t, ht', hind'⟩ := (ht g').mp hg'
  have hRt : R.mulVec t ∈ ColLattice P.transpose := lat_image hR.lattice ht'
  obtain ⟨ρ, -, hρl, hρ⟩ := transport_perm (psym_trans hΛ bas hRt) (image_one _) hL hp hp
  have hindρ : Induces (SupLat P u) N pos 1 (R.mulVec t) ρ := ⟨hρl, hρ⟩
  refine ⟨ρ, List.mem_map.mpr ⟨(ρ, List.range 6), (ht _).mpr ⟨rfl, _, hRt, hindρ⟩, rfl⟩, ?_⟩
  have c1 := hind.comp hL hindρ (keeps_of_image (by rw [Matrix.transpose_one, one_mul]) (image_one _))
  have c2 := hind'.comp hL hind (keeps_of_image hR.orth hRL)
  rw [one_mul, Matrix.one_mulVec] at c1
  rw [mul_one] at c2
  exact c1.unique hL c2 (by rw [add_comm, sub_self]; exact hL.zero)

/-- C56, superperiodic structures left out (two or three species, no displacements): a request for at least as many
structures as `polya` counts delivers, up to a symmetry of the crystal, exactly once every structure of the composition
that has `n` cells per period and no smaller period, and nothing else. -/
theorem C56_enumeration_primitive {P : M3 ℝ} {bas cell : List V3} {arrows : Bool} (hu : Usable P bas cell arrows)
    (hprim : if arrows then PrimitiveCell P bas else cell.getD 0 0 = 0)
    (n : ℕ) (hn : 1 ≤ n) (hn' : n < 2 ^ 24) (concs : List ℕ) (h2 : 2 ≤ concs.length) (h3 : concs.length ≤ 3) (hsum : concs.sum = bas.length * n)
    (aconcs : List ℚ) (hlen : concs.length ≤ aconcs.length)
    (hna : ∀ i, i < concs.length → arrowCount (concs.getD i 0) (aconcs.getD i 0) = 0) (latDim : ℕ) (hdim : latDim ≠ 2) :
    ∃ e > 0, ∀ eps, 0 < eps → eps < e →
      ∃ (U : List (M3 ℤ)) (G : M3 ℤ → List (List ℕ × List ℕ)) (pos : M3 ℤ → ℕ → V3) (total : M3 ℤ → ℕ),
      getHNFs n P bas latDim eps = some (.ok U) ∧ U.Nodup ∧
      (∀ u ∈ U, getSymGroup P bas u latDim eps arrows = some (.ok (G u)) ∧
        IsNumbering (CrystalSites (ColLattice P.transpose) bas) (SupLat P u) (bas.length * n) (pos u) ∧
        polya concs (G u) .none = some (.ok (total u : ℤ))) ∧
      ∀ (rnd : M3 ℤ → EnumRandom) (wanted : M3 ℤ → ℕ),
      (∀ u ∈ U, total u ≤ wanted u ∧ Modest concs (wanted u)) →
      ∃ T : M3 ℤ → List (List (ℤ × ℕ)),
        (∀ u ∈ U, enumSys (G u) concs aconcs (wanted u) bas.length false false (rnd u) = some (.ok (T u)) ∧
          ∀ z ∈ T u, Plain concs z ∧ ∀ ψ, Draws (CrystalSites (ColLattice P.transpose) bas) (SupLat P u) (bas.length * n) (pos u) z ψ →
            NoFurtherPeriod (ColLattice P.transpose) (CrystalSites (ColLattice P.transpose) bas) (SupLat P u) ψ) ∧
        ∀ M : M3 ℤ, M.det = n ∨ M.det = -n → ∀ χ, PeriodicOn (CrystalSites (ColLattice P.transpose) bas) (SupLat P M) χ →
        NoFurtherPeriod (ColLattice P.transpose) (CrystalSites (ColLattice P.transpose) bas) (SupLat P M) χ →
        HasContents (CrystalSites (ColLattice P.transpose) bas) (SupLat P M) (bas.length * n) (Plain concs) χ →
        ∃! uz : M3 ℤ × List (ℤ × ℕ), uz.1 ∈ U ∧ uz.2 ∈ T uz.1 ∧
          ∃ ψ, PeriodicOn (CrystalSites (ColLattice P.transpose) bas) (SupLat P uz.1) ψ ∧
            Draws (CrystalSites (ColLattice P.transpose) bas) (SupLat P uz.1) (bas.length * n) (pos uz.1) uz.2 ψ ∧
            SameStructure (ColLattice P.transpose) bas (SupLat P M) χ (SupLat P uz.1) ψ := by
  obtain ⟨e, he, h⟩ := enumeration_calls hu n hn hn' latDim hdim
  refine ⟨e, he, fun eps h0 hlt => ?_⟩
  obtain ⟨U, G, pos, hU, hnd, -, huniq, hall⟩ := h eps h0 hlt
  have hpos : 1 ≤ concs.sum := by rw [hsum]; exact Nat.mul_pos (List.length_pos_iff.mpr hu.nonempty) hn
  have hdiv : concs.sum / bas.length = n := by
    rw [hsum]; exact Nat.mul_div_cancel_left n (List.length_pos_iff.mpr hu.nonempty)
  have hc := plain_contents concs arrows
  have key : ∀ u : M3 ℤ, ∃ total : ℕ, u ∈ U → polya concs (G u) .none = some (.ok (total : ℤ)) := by
    intro u
    by_cases hm : u ∈ U
    · obtain ⟨-, -, -, hgrp, -, -, -, -, hrep, -⟩ := hall u hm
      obtain ⟨total, ht, -⟩ := supercell_plain (by rw [hsum]; exact hgrp) (hrep (by cases arrows <;> exact hprim)) h2 hpos aconcs hlen hna
      exact ⟨total, fun _ => ht⟩
    · exact ⟨0, fun h => absurd h hm⟩
  choose total htot using key
  refine ⟨U, G, pos, total, hU, hnd, fun u hm => ⟨(hall u hm).1, (hall u hm).2.1, htot u hm⟩, ?_⟩
  intro rnd wanted hw
  have key2 : ∀ u : M3 ℤ, ∃ T, u ∈ U → enumSys (G u) concs aconcs (wanted u) bas.length false false (rnd u) = some (.ok T) ∧
      IsTransversal (fun z => Plain concs z ∧ ¬ Superperiodic (((G u).take n).map (·.1)) z) (OpEquiv (G u)) T := by
    intro u
    by_cases hm : u ∈ U
    · obtain ⟨-, hnum, hmem, hgrp, htr, hle, hfst, hdis, -, -⟩ := hall u hm
      have hP : IsPermGroup concs.sum ((G u).map (·.1)) := by rw [hsum]; exact opGroup_sites hgrp
      have hHT : HasTranslations concs.sum (G u) (concs.sum / bas.length) := by
        rw [hdiv, hsum]
        exact hasTranslations_of hnum hmem htr hle hfst hdis
      obtain ⟨T, hT1, hT2⟩ := C43_request_super (G u) concs aconcs (wanted u) bas.length (rnd u) h2 h3 hlen hpos hna hP hHT (hw u hm).2
        (total u) (htot u hm) (Or.inr (Or.inl (hw u hm).1))
      refine ⟨T, fun _ => ⟨hT1, ?_⟩⟩
      rw [hdiv] at hT2
      have hsit : ∀ g ∈ G u, g.1.Perm (List.range concs.sum) := by rw [hsum]; exact hgrp.sites
      refine ⟨hT2.nodup, fun w hw => ?_, fun x hx => ?_⟩
      · obtain ⟨a, b, c⟩ := hT2.mem w hw
        exact ⟨⟨a, b⟩, c⟩
      · obtain ⟨w, ⟨hw, hwx⟩, hun⟩ := hT2.unique x ⟨hx.1.1, hx.1.2, hx.2⟩
        have hpl : ∀ w ∈ T, Plain concs w := fun w hw => ⟨(hT2.mem w hw).1, (hT2.mem w hw).2.1⟩
        refine ⟨w, ⟨hw, (opEquiv_plain hsit (hpl w hw)).mpr hwx⟩, ?_⟩
        rintro y ⟨hy, hyx⟩
        exact hun y ⟨hy, (opEquiv_plain hsit (hpl y hy)).mp hyx⟩
    · exact ⟨[], fun h => absurd h hm⟩
  choose T hT using key2
  obtain ⟨hs, ho⟩ := primitive_once hu hn huniq hall (by rw [← hsum]; exact hc) (fun u hm => (hT u hm).2)
  refine ⟨T, fun u hm => ⟨(hT u hm).1, fun z hz => ⟨((hT u hm).2.mem z hz).1, hs u hm z hz⟩⟩, ?_⟩
  intro M hM χ hper hpr hcont
  exact ho M hM χ hpr hcont

/-! One atom per cell, and concrete crystals. -/

theorem one_atom_sym {P : M3 ℝ} {d : V3} (hd : d ∈ ColLattice P.transpose) (R : M3 ℝ) (s : V3) :
    IsCrystalSym (ColLattice P.transpose) ([d].map (fun d => (1, d))) R s ↔
      R * R.transpose = 1 ∧ R.mulVec '' ColLattice P.transpose = ColLattice P.transpose ∧ s ∈ ColLattice P.transpose := by
  have hΛ := colLat_isSub P.transpose
  rw [crystalSym_iff hΛ]
  constructor
  · rintro ⟨h1, h2, h3⟩
    refine ⟨h1, h2, ?_⟩
    obtain ⟨c, hc, -, h⟩ := h3 (1, d) (by simp)
    simp only [List.map_cons, List.map_nil, List.mem_singleton] at hc
    subst hc
    have := hΛ.add _ (hΛ.add _ h _ (hΛ.neg _ (image_maps h2 hd))) _ hd
    convert this using 1
    simp only
    abel
  · rintro ⟨h1, h2, h3⟩
    refine ⟨h1, h2, ?_⟩
    intro b hb
    simp only [List.map_cons, List.map_nil, List.mem_singleton] at hb
    subst hb
    refine ⟨(1, d), by simp, rfl, ?_⟩
    exact colLat_sub (hΛ.add _ (image_maps h2 hd) _ h3) hd

/-- The conditions of C56 hold for one atom per cell at a lattice point of a simple, body-centred or face-centred cubic
lattice. -/
theorem cubic_usable {P : M3 ℝ} (hP : P.det ≠ 0) {a : ℝ} (hcub : IsCubic a (ColLattice P.transpose)) {d : V3}
    (hd : d ∈ ColLattice P.transpose) (arrows : Bool) : Usable P [d] [0] arrows ∧ PrimitiveCell P [d] := by
  have hΛ := colLat_isSub P.transpose
  refine ⟨⟨hP, by simp, ?_, ?_, ?_, ?_⟩, ?_⟩
  · exact List.Forall₂.cons ⟨by rw [sub_zero]; exact hd, 0, fun i => ⟨le_refl _, one_pos⟩, by rw [Matrix.mulVec_zero]⟩ .nil
  · intro i j hi hj _; simp at hi hj; omega
  · intro R s _
    refine ⟨0, hΛ.zero, fun d hd => ?_⟩
    simp only [List.mem_singleton] at hd
    subst hd
    rw [Matrix.mulVec_zero, Matrix.mulVec_zero, add_zero]
  · intro R s h
    obtain ⟨h1, h2, -⟩ := (one_atom_sym hd R s).mp h
    exact arrows_of_maps h1 arrows (fun _ _ hx => cubic_arrows hcub hΛ h1 h2 hx)
  · intro s h
    exact ((one_atom_sym hd 1 s).mp h).2.2

/-- Layers of two species alternating along an axis of the simple cubic crystal. -/
noncomputable def layers : Decoration := fun x => if ⌊x 0⌋ % 2 = 0 then (1, 0) else (2, 0)

/-- the hypotheses on the structure in C56 are met: the layers have period 2 along the first axis, contain one atom of
each species per period, and have no smaller period -/
theorem layers_structure :
    PeriodicOn (CrystalSites (ColLattice (1 : M3 ℝ).transpose) [0]) (SupLat 1 !![2, 0, 0; 0, 1, 0; 0, 0, 1]) layers ∧
    NoFurtherPeriod (ColLattice (1 : M3 ℝ).transpose) (CrystalSites (ColLattice (1 : M3 ℝ).transpose) [0]) (SupLat 1 !![2, 0, 0; 0, 1, 0; 0, 0, 1]) layers ∧
    HasContents (CrystalSites (ColLattice (1 : M3 ℝ).transpose) [0]) (SupLat 1 !![2, 0, 0; 0, 1, 0; 0, 0, 1]) (1 * 2) (Plain [1, 1]) layers := by
  have hΛ : ∀ v, v ∈ ColLattice (1 : M3 ℝ).transpose ↔ ∃ x : Fin 3 → ℤ, v = fun i => (x i : ℝ) := by
    intro v
    rw [Matrix.transpose_one]
    constructor
    · rintro ⟨x, rfl⟩; exact ⟨x, by rw [Matrix.one_mulVec]⟩
    · rintro ⟨x, rfl⟩; exact ⟨x, by rw [Matrix.one_mulVec]⟩
  have hL : ∀ v, v ∈ SupLat 1 !![2, 0, 0; 0, 1, 0; 0, 0, 1] ↔ ∃ x : Fin 3 → ℤ, v = ![2 * (x 0 : ℝ), x 1, x 2] := by
    intro v
    have e : ∀ x : Fin 3 → ℤ, ((1 : M3 ℝ).transpose * (!![2, 0, 0; 0, 1, 0; 0, 0, 1] : M3 ℤ).map (fun x => (x : ℝ))).mulVec (fun i => (x i : ℝ)) =
        ![2 * (x 0 : ℝ), x 1, x 2] := by
      intro x
      rw [Matrix.transpose_one, one_mul]
      funext i
      fin_cases i <;> simp [Matrix.mulVec, dotProduct, Fin.sum_univ_three]
    constructor
    · rintro ⟨x, rfl⟩; exact ⟨x, e x⟩
    · rintro ⟨x, rfl⟩; exact ⟨x, e x⟩
  have hS : ∀ v, v ∈ CrystalSites (ColLattice (1 : M3 ℝ).transpose) [0] ↔ ∃ x : Fin 3 → ℤ, v = fun i => (x i : ℝ) := by
    intro v
    unfold CrystalSites
    simp only [List.mem_singleton, exists_eq_left, sub_zero, Set.mem_setOf_eq]
    exact hΛ v
  have heven : ∀ x : Fin 3 → ℤ, layers (fun i => (x i : ℝ)) = if x 0 % 2 = 0 then (1, 0) else (2, 0) := by
    intro x
    unfold layers
    simp only [Int.floor_intCast]
  refine ⟨?_, ?_, ?_⟩
  · intro x hx t ht
    obtain ⟨y, rfl⟩ := (hS x).mp hx
    obtain ⟨w, rfl⟩ := (hL t).mp ht
    have : (fun i => (y i : ℝ)) + ![2 * (w 0 : ℝ), w 1, w 2] = fun i => (((![y 0 + 2 * w 0, y 1 + w 1, y 2 + w 2] : Fin 3 → ℤ) i : ℤ) : ℝ) := by
      funext i; fin_cases i <;> simp
    rw [this, heven, heven]
    have : (![y 0 + 2 * w 0, y 1 + w 1, y 2 + w 2] : Fin 3 → ℤ) 0 % 2 = 0 ↔ y 0 % 2 = 0 := by
      simp only [Matrix.cons_val_zero]; omega
    simp only [this]
  · intro t ht hper
    obtain ⟨w, rfl⟩ := (hΛ t).mp ht
    have h0 := hper (fun i => (((0 : Fin 3 → ℤ) i : ℤ) : ℝ)) ((hS _).mpr ⟨0, rfl⟩)
    have : (fun i => (((0 : Fin 3 → ℤ) i : ℤ) : ℝ)) + (fun i => (w i : ℝ)) = fun i => (w i : ℝ) := by funext i; simp
    rw [this, heven, heven] at h0
    have hw : w 0 % 2 = 0 := by
      by_contra h
      rw [if_neg h, if_pos (by decide)] at h0
      simp at h0
    refine (hL _).mpr ⟨![w 0 / 2, w 1, w 2], ?_⟩
    have h2 : w 0 = 2 * (w 0 / 2) := by omega
    funext i
    fin_cases i
    · simp; exact_mod_cast h2
    · simp
    · simp
  · refine ⟨fun k => ![(k : ℝ), 0, 0], [(-1, 1), (-1, 2)], ⟨?_, ?_⟩, ⟨rfl, ?_⟩, ⟨by decide, by decide, by decide⟩⟩
    · intro k _
      exact (hS _).mpr ⟨![(k : ℤ), 0, 0], by funext i; fin_cases i <;> simp⟩
    · intro x hx
      obtain ⟨y, rfl⟩ := (hS x).mp hx
      have hm : ∀ k : ℕ, (fun i => (y i : ℝ)) - ![(k : ℝ), 0, 0] ∈ SupLat 1 !![2, 0, 0; 0, 1, 0; 0, 0, 1] ↔ (y 0 - k) % 2 = 0 := by
        intro k
        rw [hL]
        constructor
        · rintro ⟨w, hw⟩
          have := congrFun hw 0
          simp at this
          have h : y 0 - k = 2 * w 0 := by exact_mod_cast this
          omega
        · intro h
          refine ⟨![(y 0 - k) / 2, y 1, y 2], ?_⟩
          have h2 : y 0 - k = 2 * ((y 0 - k) / 2) := by omega
          funext i
          fin_cases i
          · simp; exact_mod_cast h2
          · simp
          · simp
      refine ⟨(y 0 % 2).toNat, ⟨by omega, (hm _).mpr (by omega)⟩, ?_⟩
      rintro k ⟨hk, hk'⟩
      have := (hm k).mp hk'
      omega
    · intro x hx k hk hm
      obtain ⟨y, rfl⟩ := (hS x).mp hx
      obtain ⟨w, hw⟩ := (hL _).mp hm
      have := congrFun hw 0
      simp at this
      have h : y 0 - k = 2 * w 0 := by exact_mod_cast this
      rw [heven]
      interval_cases k
      · exact ⟨_, rfl, by rw [if_pos (by omega)]; simp [siteValue]⟩
      · exact ⟨_, rfl, by rw [if_neg (by omega)]; simp [siteValue]⟩

/-- C56 for that structure: some supercell and labelling delivered for size 2 draw it. -/
example : ∃ e > 0, ∀ eps, 0 < eps → eps < e → ∃ (U : List (M3 ℤ)) (G : M3 ℤ → List (List ℕ × List ℕ)) (pos : M3 ℤ → ℕ → V3),
    getHNFs 2 1 [0] 3 eps = some (.ok U) ∧ ∃ u ∈ U, getSymGroup 1 [0] u 3 eps true = some (.ok (G u)) ∧
      ∃ wanted T, enumSys (G u) [1, 1] [0, 0] wanted 1 false false ⟨id, fun _ => 0, fun _ => [], fun _ _ => 0, fun _ => true, fun _ => true, fun _ _ => true⟩ = some (.ok T) ∧
        ∃ z ∈ T, ∃ ψ, Draws (CrystalSites (ColLattice (1 : M3 ℝ).transpose) [0]) (SupLat 1 u) 2 (pos u) z ψ ∧
          SameStructure (ColLattice (1 : M3 ℝ).transpose) [0] (SupLat 1 !![2, 0, 0; 0, 1, 0; 0, 0, 1]) layers (SupLat 1 u) ψ := by
  obtain ⟨hu, hp⟩ := cubic_usable (P := 1) (by simp) sc_cubic (colLat_zero _) true
  obtain ⟨e, he, h⟩ := C56_enumeration_primitive hu hp 2 (by norm_num) (by norm_num) [1, 1] (by decide) (by decide) (by decide) [0, 0] (by decide)
    (by decide +kernel) 3 (by norm_num)
  refine ⟨e, he, fun eps h0 h1 => ?_⟩
  obtain ⟨U, G, pos, total, hU, -, hall, hall2⟩ := h eps h0 h1
  obtain ⟨T, hT, hfind⟩ := hall2 (fun _ => ⟨id, fun _ => 0, fun _ => [], fun _ _ => 0, fun _ => true, fun _ => true, fun _ _ => true⟩)
    (fun u => max (total u) 101) (fun u hm => ⟨le_max_left _ _, Or.inr (lt_of_lt_of_le (by decide) (le_max_right _ _))⟩)
  obtain ⟨l1, l2, l3⟩ := layers_structure
  obtain ⟨⟨u, z⟩, ⟨hm, hz, ψ, -, hd, hs⟩, -⟩ := hfind _ (Or.inl (by decide +kernel)) layers l1 l2 l3
  exact ⟨U, G, pos, hU, u, hm, (hall u hm).1, _, T u, (hT u hm).1, z, hz, ψ, hd, hs⟩

end Phenum
