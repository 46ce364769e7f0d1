import Verif.Proof.Drivers
import Verif.Proof.EnumRow
import Verif.Props.Enumeration
import Verif.Proof.GroupOrder
/-
One system: the number written to polya.out and the structures delivered for it.
-/
namespace Phenum
open Spec

theorem plain_iff_composed {c : List ℕ} {aconcs : List ℚ} (hna : ∀ i, i < c.length → arrowCount (c.getD i 0) (aconcs.getD i 0) = 0) (z : Config) :
    Plain c z ↔ Composed c aconcs 6 z := by
  have hcnt : ∀ i, (z.map (·.2)).count (i + 1) = z.countP (fun s => decide (s.2 = i + 1)) := by
    intro i
    rw [List.count, List.countP_map]
    apply List.countP_congr
    intro s _
    simp
  constructor
  · rintro ⟨h1, h2, h3⟩
    refine ⟨fun s hs => Or.inl (h1 s hs), fun s hs => h2 _ (List.mem_map_of_mem hs), fun i hi => ⟨?_, ?_⟩⟩
    · rw [← hcnt, h3 i hi, getD_lt hi]
    · rw [hna i hi, List.countP_eq_zero]
      intro s hs
      have := h1 s hs
      simp only [decide_eq_true_eq]
      omega
  · rintro ⟨h1, h2, h3⟩
    refine ⟨fun s hs => ?_, ?_, ?_⟩
    · rcases h1 s hs with h | ⟨h, -⟩
      · exact h
      · have hs2 := h2 s hs
        have := (h3 (s.2 - 1) (by omega)).2
        rw [hna _ (by omega), List.countP_eq_zero] at this
        have := this s hs
        simp only [decide_eq_true_eq] at this
        omega
    · intro v hv
      obtain ⟨s, hs, rfl⟩ := List.mem_map.mp hv
      exact h2 s hs
    · intro i hi
      rw [hcnt, (h3 i hi).1, getD_lt hi]

/-- some configuration has the composition -/
theorem composed_exists (c : List ℕ) (aconcs : List ℚ) (hlen : c.length ≤ aconcs.length) : ∃ z, Composed c aconcs 6 z := by
  obtain ⟨d, hd, h1, -⟩ := C40_arrow_concs c aconcs hlen
  refine ⟨d, (composed_iff hlen hd 6 (by decide) d).mp ⟨List.Perm.refl _, fun s hs => ?_⟩⟩
  rcases (h1 s hs).1 with h | h <;> rw [h] <;> decide

theorem composed_lt {c : List ℕ} {aconcs : List ℚ} {z : Config} (hz : Composed c aconcs 6 z) : ∀ s ∈ z, s.1 < (6 : ℕ) := fun s hs => by
  rcases hz.arrow s hs with h | h
  · rw [h]; decide
  · exact h.2

/-- the count of one system, and the delivery of all its structures -/
theorem cell_count {c : List ℕ} (h2 : 2 ≤ c.length) (hpos : 1 ≤ c.sum) (aconcs : List ℚ) (hlen : c.length ≤ aconcs.length)
    {G G' : List Op} (hG : IsOpGroup c.sum 6 G) (hnd : G.Nodup) (hG' : IsOpGroup c.sum 6 G') (hnd' : G'.Nodup)
    (hmem : ∀ σ, σ ∈ G.map (·.1) ↔ σ ∈ G'.map (·.1))
    (hflag : G' = G ∨ ∀ i, i < c.length → arrowCount (c.getD i 0) (aconcs.getD i 0) = 0) :
    ∃ total : ℕ, 1 ≤ total ∧ polyaCount G aconcs c = (pure total : Run ℕ) ∧
      (∃ L, IsTransversal (Composed c aconcs 6) (OpEquiv G) L ∧ L.length = total) ∧
      ∀ (nB : ℕ) (rnd : EnumRandom), (∀ l, (rnd.shuffle l).Perm l) → Modest c total →
        ((∀ i, i < c.length → arrowCount (c.getD i 0) (aconcs.getD i 0) = 0) ∨ c.sum < 12 ∨ 100 < total) →
        ∃ T, enumSys G' c aconcs total nB true false rnd = some (.ok T) ∧ T.length = total ∧
          IsTransversal (Composed c aconcs 6) (OpEquiv G') T := by
  classical
  obtain ⟨d, hd, -, -, hdl, -⟩ := C40_arrow_concs c aconcs hlen
  obtain ⟨huni, hlast, har', hna'⟩ := C40_decoration_usable c aconcs d hd hlen
  obtain ⟨z0, hz0⟩ := composed_exists c aconcs hlen
  by_cases hna : ∀ i, i < c.length → arrowCount (c.getD i 0) (aconcs.getD i 0) = 0
  · -- no arrows
    have hnad := hna'.mpr hna
    have hP := opGroup_sites hG
    have hP' := opGroup_sites hG'
    obtain ⟨total, hpol', hrun⟩ := supercell_plain hG' hnd' h2 hpos aconcs hlen hna
    obtain ⟨⟨L0, hL0⟩, hcount⟩ := C13_polya_counts_orbits c G hpos hP (sites_balanced hG hnd) (fun g hg => ⟨6, hG.arrows g hg⟩)
    have hcount' := (C13_polya_counts_orbits c G' hpos hP' (sites_balanced hG' hnd') (fun g hg => ⟨6, hG'.arrows g hg⟩)).2
    have heq : ∀ w z : List ℕ, Spec.Equiv (G.map (·.1)) w z ↔ Spec.Equiv (G'.map (·.1)) w z := by
      intro w z
      unfold Spec.Equiv
      constructor
      · rintro ⟨σ, hσ, e⟩; exact ⟨σ, (hmem σ).mp hσ, e⟩
      · rintro ⟨σ, hσ, e⟩; exact ⟨σ, (hmem σ).mpr hσ, e⟩
    have hL0' : IsTransversal (IsLabelling c) (Spec.Equiv (G'.map (·.1))) L0 := by
      refine ⟨hL0.nodup, hL0.mem, fun x hx => ?_⟩
      have := hL0.unique x hx
      simpa only [heq] using this
    have e1 : total = L0.length := by
      have := hpol'.symm.trans (hcount' L0 hL0')
      exact_mod_cast Except.ok.inj (Option.some.inj this)
    refine ⟨total, ?_, ?_, ?_, ?_⟩
    · obtain ⟨w, ⟨hw, -⟩, -⟩ := hL0.unique _ ((plain_iff_composed hna z0).mpr hz0).2
      rw [e1]
      exact List.length_pos_of_mem hw
    · unfold polyaCount
      have e2 : (howManyArrows d).1 = 0 := by
        rw [(C40_how_many_arrows d).1, List.length_eq_zero_iff, List.filter_eq_nil_iff]
        intro s hs
        rw [hnad s hs]; decide
      rw [hd, runPy_ok, pure_bind]
      simp only [howMany_types_zero hnad, e2, ne_eq, not_true_eq_false, or_self, if_false]
      rw [hcount L0 hL0, runO_ok, pure_bind, e1]
      rfl
    · obtain ⟨totalG, hpolG, hrunG⟩ := supercell_plain hG hnd h2 hpos aconcs hlen hna
      have e3 : totalG = L0.length := by
        have := hpolG.symm.trans (hcount L0 hL0)
        exact_mod_cast Except.ok.inj (Option.some.inj this)
      obtain ⟨T, -, h3, h4⟩ := hrunG (max totalG 101) 0 ⟨id, fun _ => 0, fun _ => [], fun _ _ => 0, fun _ => true, fun _ => true, fun _ _ => true⟩
        (fun l => List.Perm.refl _) (Or.inr (lt_of_lt_of_le (by decide) (le_max_right _ _))) (le_max_left _ _)
      exact ⟨T, ⟨h4.nodup, fun x hx => (plain_iff_composed hna x).mp (h4.mem x hx), fun x hx => h4.unique x ((plain_iff_composed hna x).mpr hx)⟩, by rw [h3, e3, e1]⟩
    · intro nB rnd hsh hmod _
      obtain ⟨T, h1, h3, h4⟩ := hrun total nB rnd hsh hmod (le_refl _)
      refine ⟨T, h1, h3, ⟨h4.nodup, fun x hx => (plain_iff_composed hna x).mp (h4.mem x hx), fun x hx => h4.unique x ((plain_iff_composed hna x).mpr hx)⟩⟩
  · -- arrows
    have hGG : G' = G := hflag.resolve_right hna
    subst hGG
    have har : ∃ i, i < c.length ∧ 0 < arrowCount (c.getD i 0) (aconcs.getD i 0) := by
      by_contra hne
      apply hna
      intro i hi
      by_contra h0
      exact hne ⟨i, hi, Nat.pos_of_ne_zero h0⟩
    have hard := har'.mpr har
    have hiff := composed_iff hlen hd 6 (by decide)
    have hGd : IsOpGroup d.length 6 G' := by rw [hdl]; exact hG
    have hc := composed_contents c aconcs hlen
    have hb := balanced_of_nodup hnd
    have hstd : StdCall ⟨(howManyArrows d).2.2, G', d, 6, true, 0, .none, false, fun _ => true, fun _ _ => true⟩ :=
      ⟨by obtain ⟨s, hs, -⟩ := hard; exact List.ne_nil_of_mem hs, rfl, rfl, rfl⟩
    obtain ⟨L0, hL0, hp0⟩ := C15_count_arrows _ hstd rfl (show 1 ≤ 6 by decide) hGd hb hard huni hlast
    obtain ⟨L', hL', hM1, hM2, hM3⟩ := C12_one_per_orbit _ hstd rfl (show 1 ≤ 6 by decide) hGd hard huni
    have e := Except.ok.inj (Option.some.inj (hL0.symm.trans hL'))
    subst e
    have htr : IsTransversal (Composed c aconcs 6) (OpEquiv G') L0 := by
      refine ⟨hM1, fun z hz => (hiff z).mp (hM2 z hz), fun z hz => ?_⟩
      have := (hiff z).mpr hz
      exact hM3 z this.1 this.2
    have hsymm : ∀ x y, Composed c aconcs 6 x → Composed c aconcs 6 y → OpEquiv G' x y → OpEquiv G' y x :=
      fun x y hx hy h => hG.opEquiv_symm (hc.length x hx) (composed_lt hx) h
    have htrans : ∀ x y z, Composed c aconcs 6 x → Composed c aconcs 6 y → Composed c aconcs 6 z → OpEquiv G' x y → OpEquiv G' y z → OpEquiv G' x z :=
      fun x y z hx hy hz h h' => hG.opEquiv_trans (hc.length x hx) (composed_lt hx) h h'
    have hp0' : polya (howManyArrows d).2.2 G' (.num (howManyArrows d).2.1) = some (.ok (L0.length : ℤ)) := hp0
    refine ⟨L0.length, ?_, ?_, ⟨L0, htr, rfl⟩, ?_⟩
    · obtain ⟨w, ⟨hw, -⟩, -⟩ := htr.unique _ hz0
      exact List.length_pos_of_mem hw
    · unfold polyaCount
      rw [hd, runPy_ok, pure_bind]
      simp only [ne_eq, howMany_types_pos hard, not_false_eq_true, true_or, if_true]
      rw [hp0', runO_ok, pure_bind]
      rfl
    · intro nB rnd hsh hmod hmod2
      obtain ⟨L, full, e1, e2, e3, e4, e5⟩ := C43_request_arrows G' c aconcs L0.length nB rnd h2 hlen har hG hb hsh hmod (hmod2.resolve_left hna)
      have hfl : full.length = L0.length := le_antisymm (transversal_length hsymm htrans e4 htr) (transversal_length hsymm htrans htr e4)
      have hLl : L.length = L0.length := by
        rw [e5, hfl]
        unfold delivered
        split_ifs <;> rfl
      exact ⟨L, e1, hLl, transversal_of_count (fun x hx => hG.opEquiv_refl (hc.length x hx) (composed_lt hx)) hsymm htrans e2 e3 e4 (by rw [hLl, hfl])⟩

/-! ## supercells -/

theorem usable_false {P : M3 ℝ} {bas cell : List V3} (hu : Usable P bas cell true) (b : Bool) : Usable P bas cell b := by
  cases b with
  | true => exact hu
  | false =>
    refine ⟨hu.det, hu.nonempty, hu.reps, hu.distinct, hu.conv, ?_⟩
    intro R s h k a ha
    obtain ⟨m, b, hb, e⟩ := hu.turns R s h k a ha
    refine ⟨m, b, hb, ?_⟩
    simp only [if_true] at e
    simp only [Bool.false_eq_true, if_false]
    intro i
    rw [← e, orthT h.orth]
    left
    rw [sub_self, abs_zero]
    norm_num

theorem draws_periodic {Λ : Set V3} (hΛ : IsSub Λ) {bas : List V3} {L : Set V3} (hL : IsSub L) (hsub : L ⊆ Λ) {N : ℕ} {pos : ℕ → V3}
    (hp : IsNumbering (CrystalSites Λ bas) L N pos) {z : List (ℤ × ℕ)} {ψ : Decoration} (hd : Draws (CrystalSites Λ bas) L N pos z ψ) :
    PeriodicOn (CrystalSites Λ bas) L ψ := by
  intro x hx t ht
  obtain ⟨k, ⟨hk, hm⟩, -⟩ := hp.unique x hx
  have hxt : x + t ∈ CrystalSites Λ bas := by
    obtain ⟨d, hd, h⟩ := hx
    refine ⟨d, hd, ?_⟩
    have := hΛ.add _ h _ (hsub ht)
    convert this using 1
    abel
  have hm' : x + t - pos k ∈ L := by
    have := hL.add _ hm _ ht
    convert this using 1
    abel
  obtain ⟨p, h1, e1⟩ := hd.2 x hx k hk hm
  obtain ⟨q, h2, e2⟩ := hd.2 _ hxt k hk hm'
  rw [h1] at h2
  rw [e1, e2, Option.some.inj h2]

theorem numbering_card {S L : Set V3} (hL : IsSub L) {N N' : ℕ} {pos pos' : ℕ → V3} (h : IsNumbering S L N pos) (h' : IsNumbering S L N' pos') : N ≤ N' := by
  classical
  have key : ∀ k : Fin N, ∃ j : Fin N', pos k - pos' j ∈ L := by
    intro k
    obtain ⟨j, ⟨hj, hm⟩, -⟩ := h'.unique _ (h.site k k.2)
    exact ⟨⟨j, hj⟩, hm⟩
  choose f hf using key
  have hinj : Function.Injective f := by
    intro a b e
    have h1 := hf a
    have h2 := hf b
    rw [e] at h1
    have h3 : pos a - pos b ∈ L := by
      have := hL.add _ h1 _ (hL.neg _ h2)
      convert this using 1
      abel
    obtain ⟨j, -, hj⟩ := h.unique _ (h.site a a.2)
    have e1 := hj a ⟨a.2, by rw [sub_self]; exact hL.zero⟩
    have e2 := hj b ⟨b.2, h3⟩
    exact Fin.ext (e1.trans e2.symm)
  simpa using Fintype.card_le_of_injective f hinj

/-- What `get_sym_group` returns for one supercell, with arrows (`G`) and as it is called in the enumeration (`G'`). -/
structure CellData (P : M3 ℝ) (bas : List V3) (n : ℕ) (eps : ℝ) (flag : Bool) (u : M3 ℤ) (G G' : List Op) (snf : SnfState) : Prop where
  group : getSymGroup P bas u 3 eps true = (pure G : Run _)
  group' : getSymGroup P bas u 3 eps flag = (pure G' : Run _)
  smith : smithNormalForm u = some (.ok snf)
  number : IsNumbering (CrystalSites (ColLattice P.transpose) bas) (SupLat P u) (bas.length * n)
    (sitePos (castM snf.A * P.transpose⁻¹)⁻¹ (fun i => snf.M i i) bas n)
  mem' : ∀ g, g ∈ G' ↔ ∃ R s, PSym (ColLattice P.transpose) bas R s ∧ R.mulVec '' SupLat P u = SupLat P u ∧
          Induces (SupLat P u) (bas.length * n) (sitePos (castM snf.A * P.transpose⁻¹)⁻¹ (fun i => snf.M i i) bas n) R s g.1 ∧ TurnsBy flag R g.2
  isGroup : IsOpGroup (bas.length * n) 6 G
  isGroup' : IsOpGroup (bas.length * n) 6 G'
  trans' : ∀ g, g ∈ G'.take n ↔ g.2 = List.range 6 ∧ ∃ t ∈ ColLattice P.transpose,
          Induces (SupLat P u) (bas.length * n) (sitePos (castM snf.A * P.transpose⁻¹)⁻¹ (fun i => snf.M i i) bas n) 1 t g.1
  hasTrans : HasTranslations (bas.length * n) G' n
  nodup : G.Nodup
  nodup' : G'.Nodup
  sites : ∀ σ, σ ∈ G.map (·.1) ↔ σ ∈ G'.map (·.1)
  same : flag = true → G' = G
  order : G.length ≤ 48 * (bas.length * n)

theorem cell_data_at {P : M3 ℝ} {bas : List V3} (hu : Usable P bas bas true) (hprim : PrimitiveCell P bas) {flag : Bool}
    (horig : flag = true ∨ bas.getD 0 0 = 0) (n : ℕ) (hn : 1 ≤ n) (hn' : n < 2 ^ 24) {eps : ℝ} (hfine : FineTol P bas eps)
    (hepsn : eps * n < 1) : ∀ u ∈ findAllHNFs n, ∃ G G' snf, CellData P bas n eps flag u G G' snf := by
  intro u hm
  obtain ⟨G, pos, a1, a2, a3, a4, a5, a6, a7, a8, a9, snf, a10, a11⟩ := group_calls_at hu n hn hn' 3 (by norm_num) hfine hepsn u hm
  obtain ⟨G', pos', b1, b2, b3, b4, b5, b6, b7, b8, b9, snf', b10, b11⟩ :=
    group_calls_at (usable_false hu flag) n hn hn' 3 (by norm_num) hfine hepsn u hm
  have es : snf' = snf := Except.ok.inj (Option.some.inj (b10.symm.trans a10))
  subst es
  subst a11 b11
  have hnd : G.Nodup := a9 (by rw [if_pos rfl]; exact hprim)
  refine ⟨G, G', snf', a1, b1, a10, a2, b3, a4, b4, b5, hasTranslations_of b2 b3 b5 b6 b7 b8, hnd, ?_, ?_, ?_,
    supGroup_le hu.det (colLat_isSub _) (Nat.mul_pos (List.length_pos_iff.mpr hu.nonempty) hn) hnd
      (fun g hg => by obtain ⟨R, s, c1, -, c3, c4⟩ := (a3 g).mp hg; exact ⟨R, s, c1, c3, c4⟩)⟩
  · apply b9
    cases flag with
    | true => rw [if_pos rfl]; exact hprim
    | false => simpa using horig
  · intro σ
    constructor
    · intro h
      obtain ⟨g, hg, rfl⟩ := List.mem_map.mp h
      obtain ⟨R, s, c1, c2, c3, -⟩ := (a3 g).mp hg
      obtain ⟨τ, hτ⟩ := turnsBy_exists (usable_false hu flag) c1
      exact List.mem_map.mpr ⟨(g.1, τ), (b3 _).mpr ⟨R, s, c1, c2, c3, hτ⟩, rfl⟩
    · intro h
      obtain ⟨g, hg, rfl⟩ := List.mem_map.mp h
      obtain ⟨R, s, c1, c2, c3, -⟩ := (b3 g).mp hg
      obtain ⟨τ, hτ⟩ := turnsBy_exists hu c1
      exact List.mem_map.mpr ⟨(g.1, τ), (a3 _).mpr ⟨R, s, c1, c2, c3, hτ⟩, rfl⟩
  · intro h
    subst h
    exact Except.ok.inj (Option.some.inj (b1.symm.trans a1))

theorem cell_data {P : M3 ℝ} {bas : List V3} (hu : Usable P bas bas true) (hprim : PrimitiveCell P bas) {flag : Bool}
    (horig : flag = true ∨ bas.getD 0 0 = 0) (n : ℕ) (hn : 1 ≤ n) (hn' : n < 2 ^ 24) :
    ∃ e > 0, ∀ eps, 0 < eps → eps < e → ∀ u ∈ findAllHNFs n, ∃ G G' snf, CellData P bas n eps flag u G G' snf := by
  obtain ⟨e1, he1, h1⟩ := fineTol_exists hu.det hu.nonempty
  refine ⟨min e1 (1 / n), lt_min he1 (by positivity), fun eps h0 hlt => ?_⟩
  obtain ⟨l1, l2⟩ := lt_min_iff.mp hlt
  exact cell_data_at hu hprim horig n hn hn' (h1 eps h0 l1) (by rwa [lt_div_iff₀ (by positivity)] at l2)

/-! ## the run -/

theorem forall₂_fun {α β : Type} [DecidableEq α] {Q : α → β → Prop} : ∀ {K : List α} {Es : List β}, K.Nodup → List.Forall₂ Q K Es → (∃ _ : β, True) →
    ∃ F : α → β, Es = K.map F ∧ ∀ x ∈ K, Q x (F x)
  | [], _, _, .nil, ⟨b, _⟩ => ⟨fun _ => b, rfl, by simp⟩
  | x :: K, _, hnd, .cons (b := y) h t, hb => by
    obtain ⟨hx, hK⟩ := List.nodup_cons.mp hnd
    obtain ⟨F, hF, hQ⟩ := forall₂_fun hK t hb
    refine ⟨fun a => if a = x then y else F a, ?_, ?_⟩
    · rw [List.map_cons, if_pos rfl, hF]
      congr 1
      apply List.map_congr_left
      intro a ha
      have : ¬ a = x := fun e => hx (e ▸ ha)
      rw [if_neg this]
    · intro a ha
      by_cases e : a = x
      · subst e; simp only [if_true]; exact h
      · simp only [if_neg e]
        exact hQ a ((List.mem_cons.mp ha).resolve_left e)

theorem composed_writable {c : List ℕ} {aconcs : List ℚ} (hc : c.length ≤ 10) {z : Config} (h : Composed c aconcs 6 z) : ∀ p ∈ z, Writable p := by
  intro p hp
  have h1 := h.arrow p hp
  have h2 := h.species p hp
  unfold Writable
  refine ⟨?_, h2.1, by omega⟩
  rcases h1 with h1 | h1
  · exact Or.inl h1
  · exact Or.inr ⟨h1.1, by have := h1.2; omega⟩

theorem composed_unique {c c' : List ℕ} {aconcs : List ℚ} (hl : c.length = c'.length) {z : Config} (h : Composed c aconcs 6 z) (h' : Composed c' aconcs 6 z) : c = c' := by
  apply List.ext_getElem hl
  intro i hi hi'
  have e1 := (h.counts i hi).1
  have e2 := (h'.counts i hi').1
  rw [getD_lt hi] at e1
  rw [getD_lt hi'] at e2
  rw [← e1, e2]

/-- the contents, with or without arrows -/
theorem composed_contents' {c : List ℕ} {aconcs : List ℚ} (hlen : c.length ≤ aconcs.length) {flag : Bool}
    (hflag : flag = true ∨ ∀ i, i < c.length → arrowCount (c.getD i 0) (aconcs.getD i 0) = 0) : IsContents c.sum flag (Composed c aconcs 6) := by
  cases flag with
  | true => exact composed_contents c aconcs hlen
  | false =>
    have hna := hflag.resolve_left (by simp)
    have hc := plain_contents c false
    refine ⟨fun z hz => hc.length z ((plain_iff_composed hna z).mpr hz), fun z hz => hc.entries z ((plain_iff_composed hna z).mpr hz), ?_, ?_⟩
    · intro z z' hz hp
      exact (plain_iff_composed hna z').mp (hc.perm z z' ((plain_iff_composed hna z).mpr hz) hp)
    · intro z τ hz hτ
      exact (plain_iff_composed hna _).mp (hc.turn z τ ((plain_iff_composed hna z).mpr hz) hτ)

/-- The rows made from labellings, for a range of sizes, supercells and concentrations: if each structure (of a kind `D`) of one size is drawn by
exactly one labelling, it is described by exactly one row. -/
theorem rows_once_gen {P : M3 ℝ} {bas : List V3} {flag : Bool} (hu : Usable P bas bas flag) {lo hi k : ℕ} (hlo : 1 ≤ lo) (hk : k ≤ 10) {aconcs : List ℚ}
    (hka : k ≤ aconcs.length) {eps : ℝ} (U : ℕ → List (M3 ℤ)) (C : ℕ → List Conc) (G G' : ℕ → M3 ℤ → List Op) (snf : ℕ → M3 ℤ → SnfState)
    (hU : ∀ n, lo ≤ n → n ≤ hi → (U n).Nodup ∧ (∀ u ∈ U n, u ∈ findAllHNFs n) ∧
      ∀ M : M3 ℤ, M.det = n ∨ M.det = -n → ∃! u, u ∈ U n ∧ ∃ R s, PSym (ColLattice P.transpose) bas R s ∧ R.mulVec '' SupLat P M = SupLat P u)
    (hG : ∀ n, lo ≤ n → n ≤ hi → ∀ u ∈ U n, CellData P bas n eps flag u (G n u) (G' n u) (snf n u))
    (hC : ∀ n, lo ≤ n → n ≤ hi → (C n).Nodup ∧ ∀ c ∈ C n, c.length = k ∧ c.sum = bas.length * n ∧
      (flag = true ∨ ∀ i, i < c.length → arrowCount (c.getD i 0) (aconcs.getD i 0) = 0))
    (K : List (ℕ × M3 ℤ × Conc)) (hK : K.Nodup) (hKm : ∀ n u c, (n, u, c) ∈ K ↔ lo ≤ n ∧ n ≤ hi ∧ u ∈ U n ∧ c ∈ C n)
    (T : ℕ × M3 ℤ × Conc → List Config)
    (V : Set V3 → Decoration → Prop) (D : ℕ → M3 ℤ → Decoration → Prop)
    (hT : ∀ n u c, (n, u, c) ∈ K → (T (n, u, c)).Nodup ∧ ∀ z ∈ T (n, u, c), Composed c aconcs 6 z ∧
      ∀ ψ, Draws (CrystalSites (ColLattice P.transpose) bas) (SupLat P u) (bas.length * n)
        (sitePos (castM (snf n u).A * P.transpose⁻¹)⁻¹ (fun i => (snf n u).M i i) bas n) z ψ → V (SupLat P u) ψ)
    (hone : ∀ (n : ℕ) (M : M3 ℤ), lo ≤ n → n ≤ hi → M.det = n ∨ M.det = -n → ∀ χ, D n M χ → ∀ c ∈ C n,
      HasContents (CrystalSites (ColLattice P.transpose) bas) (SupLat P M) (bas.length * n) (Composed c aconcs 6) χ →
      ∃! uz : M3 ℤ × List (ℤ × ℕ), uz.1 ∈ U n ∧ uz.2 ∈ T (n, uz.1, c) ∧
        ∃ ψ, PeriodicOn (CrystalSites (ColLattice P.transpose) bas) (SupLat P uz.1) ψ ∧
          Draws (CrystalSites (ColLattice P.transpose) bas) (SupLat P uz.1) (bas.length * n)
            (sitePos (castM (snf n uz.1).A * P.transpose⁻¹)⁻¹ (fun i => (snf n uz.1).M i i) bas n) uz.2 ψ ∧
          SameStructure (ColLattice P.transpose) bas (SupLat P M) χ (SupLat P uz.1) ψ) :
    (K.flatMap (fun x => (T x).map (enumEntry (hnfNumbers x.2.1) (snf x.1 x.2.1)))).Nodup ∧
    (∀ row ∈ K.flatMap (fun x => (T x).map (enumEntry (hnfNumbers x.2.1) (snf x.1 x.2.1))), ∃ n, lo ≤ n ∧ n ≤ hi ∧ row.size = n ∧ ∃ c ∈ C n,
      ∃ ψ, RowDescribes P bas row ψ ∧ PeriodicOn (CrystalSites (ColLattice P.transpose) bas) (rowLattice P row) ψ ∧
        HasContents (CrystalSites (ColLattice P.transpose) bas) (rowLattice P row) (bas.length * n) (Composed c aconcs 6) ψ ∧ V (rowLattice P row) ψ) ∧
    ∀ (n : ℕ) (M : M3 ℤ), lo ≤ n → n ≤ hi → M.det = n ∨ M.det = -n → ∀ χ, D n M χ → ∀ c ∈ C n,
      HasContents (CrystalSites (ColLattice P.transpose) bas) (SupLat P M) (bas.length * n) (Composed c aconcs 6) χ →
      ∃! row, row ∈ K.flatMap (fun x => (T x).map (enumEntry (hnfNumbers x.2.1) (snf x.1 x.2.1))) ∧
        ∃ ψ, RowDescribes P bas row ψ ∧ SameStructure (ColLattice P.transpose) bas (SupLat P M) χ (rowLattice P row) ψ := by
  classical
  have hΛ := colLat_isSub P.transpose
  have hbas : 0 < bas.length := List.length_pos_iff.mpr hu.nonempty
  set pos : ℕ → M3 ℤ → ℕ → V3 := fun n u => sitePos (castM (snf n u).A * P.transpose⁻¹)⁻¹ (fun i => (snf n u).M i i) bas n with hpos
  -- facts about one labelling
  have hfact : ∀ n u c, (n, u, c) ∈ K → ∀ z ∈ T (n, u, c), Composed c aconcs 6 z ∧ (∀ p ∈ z, Writable p) ∧ z.length = bas.length * n ∧
      (rowLattice P (enumEntry (hnfNumbers u) (snf n u) z) = SupLat P u) ∧
      ∀ ψ, RowDescribes P bas (enumEntry (hnfNumbers u) (snf n u) z) ψ ↔
        Draws (CrystalSites (ColLattice P.transpose) bas) (SupLat P u) (bas.length * n) (pos n u) z ψ := by
    intro n u c hm z hz
    obtain ⟨h1, h2, h3, h4⟩ := (hKm n u c).mp hm
    obtain ⟨c1, c2, c3⟩ := (hC n h1 h2).2 c h4
    have hcz := ((hT n u c hm).2 z hz).1
    have hw := composed_writable (by omega) hcz
    have hl : z.length = bas.length * n := by
      rw [← c2]
      exact (composed_contents' (by omega) c3).length z hcz
    have hun : u ∈ findAllHNFs n := (hU n h1 h2).2.1 u h3
    refine ⟨hcz, hw, hl, rowLattice_entry (by omega) hun P _ z, fun ψ => ?_⟩
    exact row_describes hu.det (findAll_det (by omega) hun) (hG n h1 h2 u h3).smith (hG n h1 h2 u h3).number hl hw _ ψ
  have hcont : ∀ n, lo ≤ n → n ≤ hi → ∀ c ∈ C n, IsContents (bas.length * n) flag (Composed c aconcs 6) := by
    intro n h1 h2 c hc
    obtain ⟨c1, c2, c3⟩ := (hC n h1 h2).2 c hc
    rw [← c2]
    exact composed_contents' (by omega) c3
  refine ⟨?_, ?_, ?_⟩
  · rw [List.nodup_flatMap]
    constructor
    · rintro ⟨n, u, c⟩ hx
      apply List.Nodup.map_on _ (hT n u c hx).1
      intro z hz z' hz' e
      exact (entry_inj (hfact n u c hx z hz).2.1 (hfact n u c hx z' hz').2.1 e).2
    · apply hK.imp_of_mem
      rintro ⟨n, u, c⟩ ⟨n', u', c'⟩ hx hx' hne
      show List.Disjoint _ _
      intro row hr hr'
      obtain ⟨z, hz, rfl⟩ := List.mem_map.mp hr
      obtain ⟨z', hz', e⟩ := List.mem_map.mp hr'
      obtain ⟨e1, e2⟩ := entry_inj (hfact n' u' c' hx' z' hz').2.1 (hfact n u c hx z hz).2.1 e
      subst e2
      obtain ⟨h1, h2, h3, h4⟩ := (hKm n u c).mp hx
      obtain ⟨h1', h2', h3', h4'⟩ := (hKm n' u' c').mp hx'
      have hu1 := (hU n h1 h2).2.1 u h3
      have hu2 := (hU n' h1' h2').2.1 u' h3'
      have eu : u' = u := by
        rw [← (hnf_numbers_full (by omega) hu2).1, ← (hnf_numbers_full (by omega) hu1).1]
        simp only at e1
        rw [e1]
      subst eu
      have en : n' = n := by
        have d1 := findAll_det (by omega) hu1
        have d2 := findAll_det (by omega) hu2
        have := d2.symm.trans d1
        exact_mod_cast this
      subst en
      apply hne
      have : c = c' := composed_unique (by rw [((hC _ h1 h2).2 c h4).1, ((hC _ h1' h2').2 c' h4').1]) (hfact _ _ c hx z' hz).1 (hfact _ _ c' hx' z' hz').1
      rw [this]
  · intro row hrow
    obtain ⟨⟨n, u, c⟩, hx, hr⟩ := List.mem_flatMap.mp hrow
    obtain ⟨z, hz, rfl⟩ := List.mem_map.mp hr
    obtain ⟨h1, h2, h3, h4⟩ := (hKm n u c).mp hx
    obtain ⟨f1, f2, f3, f4, f5⟩ := hfact n u c hx z hz
    have hun : u ∈ findAllHNFs n := (hU n h1 h2).2.1 u h3
    obtain ⟨ψ, hd⟩ := draws_exists (hG n h1 h2 u h3).number (colLat_isSub _) hΛ (supLat_sub P u) f3
    refine ⟨n, h1, h2, ?_, c, h4, ψ, (f5 ψ).mpr hd.2, ?_, ?_, ?_⟩
    · have := findAll_det (by omega) hun
      rw [← this]
      obtain ⟨a, b, cc, d, e, f, -, -, -, -, rfl⟩ := (mem_findAllHNFs (by omega) u).mp hun
      rw [hnfMat_det]
      simp [enumEntry, hnfNumbers, hnfMat]
    · simp only
      rw [f4]
      exact draws_periodic hΛ (colLat_isSub _) (supLat_sub P u) (hG n h1 h2 u h3).number hd.2
    · simp only
      rw [f4]
      exact ⟨_, z, (hG n h1 h2 u h3).number, hd.2, f1⟩
    · simp only
      rw [f4]
      exact ((hT n u c hx).2 z hz).2 ψ hd.2
  · intro n M h1 h2 hM χ hD c hc hcχ
    obtain ⟨⟨u, z⟩, ⟨hm, hz, ψ, hper, hd, hs⟩, hun⟩ := hone n M h1 h2 hM χ hD c hc hcχ
    simp only at hm hz hper hd hs
    have hx : (n, u, c) ∈ K := (hKm n u c).mpr ⟨h1, h2, hm, hc⟩
    obtain ⟨f1, f2, f3, f4, f5⟩ := hfact n u c hx z hz
    refine ⟨enumEntry (hnfNumbers u) (snf n u) z, ⟨List.mem_flatMap.mpr ⟨(n, u, c), hx, List.mem_map_of_mem hz⟩, ψ, (f5 ψ).mpr hd, by rw [f4]; exact hs⟩, ?_⟩
    rintro row ⟨hrow, ψ', hdesc, hs'⟩
    obtain ⟨⟨n', u', c'⟩, hx', hr⟩ := List.mem_flatMap.mp hrow
    obtain ⟨z', hz', rfl⟩ := List.mem_map.mp hr
    simp only at hdesc hs' ⊢
    obtain ⟨h1', h2', h3', h4'⟩ := (hKm n' u' c').mp hx'
    obtain ⟨g1, g2, g3, g4, g5⟩ := hfact n' u' c' hx' z' hz'
    rw [g4] at hs'
    have hd' := (g5 ψ').mp hdesc
    have hnum' := (hG n' h1' h2' u' h3').number
    -- the sizes agree
    obtain ⟨pos0, z0, hp0, hd0, hz0⟩ := hcχ
    obtain ⟨R, s, hR, hRL, hRx⟩ := id hs'
    have hmv := numbering_move hR hRL hp0
    have en : n' = n := by
      have a1 := numbering_card (colLat_isSub _) hmv hnum'
      have a2 := numbering_card (colLat_isSub _) hnum' hmv
      exact Nat.eq_of_mul_eq_mul_left hbas (le_antisymm a2 a1)
    subst en
    -- the compositions agree
    obtain ⟨z'', hd'', hq''⟩ := contents_move hu (hcont _ h1 h2 c hc) (colLat_isSub _) hs' ⟨pos0, z0, hp0, hd0, hz0⟩ hnum'
    have ez : z'' = z' := draws_unique hnum' (colLat_isSub _) (fun _ _ => rfl) hd'' hd'
      (fun p hp => WfEntry.mono ((hcont _ h1 h2 c hc).entries z'' hq'' p hp))
      (fun p hp => WfEntry.mono ((hcont _ h1 h2 c' h4').entries z' g1 p hp))
    subst ez
    have ec : c' = c := composed_unique (by rw [((hC _ h1 h2).2 c hc).1, ((hC _ h1' h2').2 c' h4').1]) g1 hq''
    subst ec
    have := hun (u', z'') ⟨h3', hz', ψ', draws_periodic hΛ (colLat_isSub _) (supLat_sub P u') hnum' hd', hd', hs'⟩
    simp only [Prod.mk.injEq] at this
    obtain ⟨e1, e2⟩ := this
    subst e1 e2
    rfl

/-- The rows made from representatives of the classes, for a range of sizes, supercells and concentrations: each
structure is described by exactly one of them. -/
theorem rows_once {P : M3 ℝ} {bas : List V3} {flag : Bool} (hu : Usable P bas bas flag) {lo hi k : ℕ} (hlo : 1 ≤ lo) (hk : k ≤ 10) {aconcs : List ℚ}
    (hka : k ≤ aconcs.length) {eps : ℝ} (U : ℕ → List (M3 ℤ)) (C : ℕ → List Conc) (G G' : ℕ → M3 ℤ → List Op) (snf : ℕ → M3 ℤ → SnfState)
    (hU : ∀ n, lo ≤ n → n ≤ hi → (U n).Nodup ∧ (∀ u ∈ U n, u ∈ findAllHNFs n) ∧
      ∀ M : M3 ℤ, M.det = n ∨ M.det = -n → ∃! u, u ∈ U n ∧ ∃ R s, PSym (ColLattice P.transpose) bas R s ∧ R.mulVec '' SupLat P M = SupLat P u)
    (hG : ∀ n, lo ≤ n → n ≤ hi → ∀ u ∈ U n, CellData P bas n eps flag u (G n u) (G' n u) (snf n u))
    (hC : ∀ n, lo ≤ n → n ≤ hi → (C n).Nodup ∧ ∀ c ∈ C n, c.length = k ∧ c.sum = bas.length * n ∧
      (flag = true ∨ ∀ i, i < c.length → arrowCount (c.getD i 0) (aconcs.getD i 0) = 0))
    (K : List (ℕ × M3 ℤ × Conc)) (hK : K.Nodup) (hKm : ∀ n u c, (n, u, c) ∈ K ↔ lo ≤ n ∧ n ≤ hi ∧ u ∈ U n ∧ c ∈ C n)
    (T : ℕ × M3 ℤ × Conc → List Config)
    (hT : ∀ n u c, (n, u, c) ∈ K → IsTransversal (Composed c aconcs 6) (OpEquiv (G' n u)) (T (n, u, c))) :
    (K.flatMap (fun x => (T x).map (enumEntry (hnfNumbers x.2.1) (snf x.1 x.2.1)))).Nodup ∧
    (∀ row ∈ K.flatMap (fun x => (T x).map (enumEntry (hnfNumbers x.2.1) (snf x.1 x.2.1))), ∃ n, lo ≤ n ∧ n ≤ hi ∧ row.size = n ∧ ∃ c ∈ C n,
      ∃ ψ, RowDescribes P bas row ψ ∧ PeriodicOn (CrystalSites (ColLattice P.transpose) bas) (rowLattice P row) ψ ∧
        HasContents (CrystalSites (ColLattice P.transpose) bas) (rowLattice P row) (bas.length * n) (Composed c aconcs 6) ψ) ∧
    ∀ (n : ℕ) (M : M3 ℤ), lo ≤ n → n ≤ hi → M.det = n ∨ M.det = -n → ∀ χ, ∀ c ∈ C n,
      HasContents (CrystalSites (ColLattice P.transpose) bas) (SupLat P M) (bas.length * n) (Composed c aconcs 6) χ →
      ∃! row, row ∈ K.flatMap (fun x => (T x).map (enumEntry (hnfNumbers x.2.1) (snf x.1 x.2.1))) ∧
        ∃ ψ, RowDescribes P bas row ψ ∧ SameStructure (ColLattice P.transpose) bas (SupLat P M) χ (rowLattice P row) ψ := by
  obtain ⟨r1, r2, r3⟩ := rows_once_gen hu hlo hk hka (eps := eps) U C G G' snf hU hG hC K hK hKm T (fun _ _ => True) (fun _ _ _ => True)
    (fun n u c hx => ⟨(hT n u c hx).nodup, fun z hz => ⟨(hT n u c hx).mem z hz, fun _ _ => trivial⟩⟩) (by
      intro n M h1 h2 hM χ _ c hc hcχ
      obtain ⟨c1, c2, c3⟩ := (hC n h1 h2).2 c hc
      exact structures_once hu (n := n) (by omega) (U := U n) (G := G' n) (pos := fun u => sitePos (castM (snf n u).A * P.transpose⁻¹)⁻¹ (fun i => (snf n u).M i i) bas n) (latDim := 3) (eps := eps)
        (Rest := fun _ => True) (hU n h1 h2).2.2 (fun u hm => ⟨(hG n h1 h2 u hm).group', (hG n h1 h2 u hm).number, (hG n h1 h2 u hm).mem',
          (hG n h1 h2 u hm).isGroup', (hG n h1 h2 u hm).trans', trivial⟩) (by rw [← c2]; exact composed_contents' (by omega) c3)
        (T := fun u => T (n, u, c)) (fun u hm => hT n u c ((hKm n u c).mpr ⟨h1, h2, hm, hc⟩)) hM hcχ)
  refine ⟨r1, fun row hrow => ?_, fun n M h1 h2 hM χ c hc hcχ => r3 n M h1 h2 hM χ trivial c hc hcχ⟩
  obtain ⟨n, h1, h2, h3, c, hc, ψ, h4, h5, h6, -⟩ := r2 row hrow
  exact ⟨n, h1, h2, h3, c, hc, ψ, h4, h5, h6⟩

/-- The same for representatives of the classes of labellings that are not superperiodic: each structure without a smaller period is described
by exactly one row, and the rows describe only such structures. -/
theorem rows_primitive {P : M3 ℝ} {bas : List V3} {flag : Bool} (hu : Usable P bas bas flag) {lo hi k : ℕ} (hlo : 1 ≤ lo) (hk : k ≤ 10) {aconcs : List ℚ}
    (hka : k ≤ aconcs.length) {eps : ℝ} (U : ℕ → List (M3 ℤ)) (C : ℕ → List Conc) (G G' : ℕ → M3 ℤ → List Op) (snf : ℕ → M3 ℤ → SnfState)
    (hU : ∀ n, lo ≤ n → n ≤ hi → (U n).Nodup ∧ (∀ u ∈ U n, u ∈ findAllHNFs n) ∧
      ∀ M : M3 ℤ, M.det = n ∨ M.det = -n → ∃! u, u ∈ U n ∧ ∃ R s, PSym (ColLattice P.transpose) bas R s ∧ R.mulVec '' SupLat P M = SupLat P u)
    (hG : ∀ n, lo ≤ n → n ≤ hi → ∀ u ∈ U n, CellData P bas n eps flag u (G n u) (G' n u) (snf n u))
    (hC : ∀ n, lo ≤ n → n ≤ hi → (C n).Nodup ∧ ∀ c ∈ C n, c.length = k ∧ c.sum = bas.length * n ∧
      (flag = true ∨ ∀ i, i < c.length → arrowCount (c.getD i 0) (aconcs.getD i 0) = 0))
    (K : List (ℕ × M3 ℤ × Conc)) (hK : K.Nodup) (hKm : ∀ n u c, (n, u, c) ∈ K ↔ lo ≤ n ∧ n ≤ hi ∧ u ∈ U n ∧ c ∈ C n)
    (T : ℕ × M3 ℤ × Conc → List Config)
    (hT : ∀ n u c, (n, u, c) ∈ K → IsTransversal (fun z => Composed c aconcs 6 z ∧ ¬ Superperiodic (((G' n u).take n).map (·.1)) z) (OpEquiv (G' n u)) (T (n, u, c))) :
    (K.flatMap (fun x => (T x).map (enumEntry (hnfNumbers x.2.1) (snf x.1 x.2.1)))).Nodup ∧
    (∀ row ∈ K.flatMap (fun x => (T x).map (enumEntry (hnfNumbers x.2.1) (snf x.1 x.2.1))), ∃ n, lo ≤ n ∧ n ≤ hi ∧ row.size = n ∧ ∃ c ∈ C n,
      ∃ ψ, RowDescribes P bas row ψ ∧ PeriodicOn (CrystalSites (ColLattice P.transpose) bas) (rowLattice P row) ψ ∧
        HasContents (CrystalSites (ColLattice P.transpose) bas) (rowLattice P row) (bas.length * n) (Composed c aconcs 6) ψ ∧
        NoFurtherPeriod (ColLattice P.transpose) (CrystalSites (ColLattice P.transpose) bas) (rowLattice P row) ψ) ∧
    ∀ (n : ℕ) (M : M3 ℤ), lo ≤ n → n ≤ hi → M.det = n ∨ M.det = -n → ∀ χ,
      NoFurtherPeriod (ColLattice P.transpose) (CrystalSites (ColLattice P.transpose) bas) (SupLat P M) χ → ∀ c ∈ C n,
      HasContents (CrystalSites (ColLattice P.transpose) bas) (SupLat P M) (bas.length * n) (Composed c aconcs 6) χ →
      ∃! row, row ∈ K.flatMap (fun x => (T x).map (enumEntry (hnfNumbers x.2.1) (snf x.1 x.2.1))) ∧
        ∃ ψ, RowDescribes P bas row ψ ∧ SameStructure (ColLattice P.transpose) bas (SupLat P M) χ (rowLattice P row) ψ := by
  have hponce : ∀ n, lo ≤ n → n ≤ hi → ∀ c ∈ C n, _ := fun n h1 h2 c hc =>
    primitive_once hu (n := n) (by omega) (U := U n) (G := G' n) (pos := fun u => sitePos (castM (snf n u).A * P.transpose⁻¹)⁻¹ (fun i => (snf n u).M i i) bas n) (latDim := 3) (eps := eps)
        (Rest := fun _ => True) (hU n h1 h2).2.2 (fun u hm => ⟨(hG n h1 h2 u hm).group', (hG n h1 h2 u hm).number, (hG n h1 h2 u hm).mem',
          (hG n h1 h2 u hm).isGroup', (hG n h1 h2 u hm).trans', trivial⟩)
        (Q := Composed c aconcs 6) (by
          obtain ⟨c1, c2, c3⟩ := (hC n h1 h2).2 c hc
          rw [← c2]; exact composed_contents' (by omega) c3)
        (T := fun u => T (n, u, c)) (fun u hm => hT n u c ((hKm n u c).mpr ⟨h1, h2, hm, hc⟩))
  exact rows_once_gen hu hlo hk hka (eps := eps) U C G G' snf hU hG hC K hK hKm T
    (fun L ψ => NoFurtherPeriod (ColLattice P.transpose) (CrystalSites (ColLattice P.transpose) bas) L ψ)
    (fun n M χ => NoFurtherPeriod (ColLattice P.transpose) (CrystalSites (ColLattice P.transpose) bas) (SupLat P M) χ)
    (fun n u c hx => ⟨(hT n u c hx).nodup, fun z hz => ⟨((hT n u c hx).mem z hz).1, fun ψ hd => by
      obtain ⟨h1, h2, hm, hc⟩ := (hKm n u c).mp hx
      exact (hponce n h1 h2 c hc).1 u hm z hz ψ hd⟩⟩)
    (fun n M h1 h2 hM χ hD c hc hcχ => (hponce n h1 h2 c hc).2 M hM χ hD hcχ)

end Phenum
