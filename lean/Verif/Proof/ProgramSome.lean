import Verif.Props.Program
import Verif.Props.Distribution
/-
Calls that ask for a number of structures: the requests written to enum.in, and the structures delivered for each of them.
-/
namespace Phenum
open Spec

section
variable {l : List ℤ} {U : ℕ → List (Matrix (Fin 3) (Fin 3) ℤ)} {C : ℕ → List Conc} {cnt : ℕ → Matrix (Fin 3) (Fin 3) ℤ → Conc → ℕ} {k : ℕ}

/-- the key of a supercell and a composition -/
def keyOf (x : ℕ × Matrix (Fin 3) (Fin 3) ℤ × Conc) : DKey := (x.1, some (hnfNumbers x.2.1), some x.2.2)

/-- the tables of the sizes `l` -/
def tablesOf (l : List ℤ) (U : ℕ → List (Matrix (Fin 3) (Fin 3) ℤ)) (C : ℕ → List Conc) (cnt : ℕ → Matrix (Fin 3) (Fin 3) ℤ → Conc → ℕ) : List PolyaTable :=
  l.map (fun s => countTable s.toNat (U s.toNat) (C s.toNat) (cnt s.toNat))

/-- what is in the tables -/
structure TablesFacts (l : List ℤ) (U : ℕ → List (Matrix (Fin 3) (Fin 3) ℤ)) (C : ℕ → List Conc) (cnt : ℕ → Matrix (Fin 3) (Fin 3) ℤ → Conc → ℕ)
    (K : List (ℕ × Matrix (Fin 3) (Fin 3) ℤ × Conc)) : Prop where
  ok : ∀ t ∈ tablesOf l U C cnt, TableOk t
  sizes : ((tablesOf l U C cnt).map (·.size)).Nodup
  nodup : K.Nodup
  mem : ∀ n u c, (n, u, c) ∈ K ↔ (n : ℤ) ∈ l ∧ u ∈ U n ∧ c ∈ C n
  full : ∀ x ∈ K, getFullHNF (hnfNumbers x.2.1) = x.2.1 ∧ (hnfNumbers x.2.1).length = 6
  avail : ∀ x ∈ K, available .all (entries .none (tablesOf l U C cnt)) (keyOf x) = cnt x.1 x.2.1 x.2.2
  keys : ∀ key, 0 < available .all (entries .none (tablesOf l U C cnt)) key → ∃ x ∈ K, key = keyOf x
  total : grandTotal (entries .none (tablesOf l U C cnt)) = (K.map (fun x => cnt x.1 x.2.1 x.2.2)).sum
  list : entries .none (tablesOf l U C cnt) = K.map (fun x => (x.1, hnfNumbers x.2.1, x.2.2, cnt x.1 x.2.1 x.2.2))

theorem tables_facts (hl : l.Nodup) (hpos : ∀ s ∈ l, 1 ≤ s) (hU : ∀ s ∈ l, (U s.toNat).Nodup ∧ ∀ u ∈ U s.toNat, u ∈ findAllHNFs s.toNat)
    (hC : ∀ s ∈ l, (C s.toNat).Nodup) : ∃ K, TablesFacts l U C cnt K := by
  set T : ℕ → PolyaTable := fun s => countTable s (U s) (C s) (cnt s) with hT
  have htables : tablesOf l U C cnt = l.map (fun s => T s.toNat) := rfl
  have hs1 : ∀ s ∈ l, 1 ≤ s.toNat := fun s hs => by have := hpos s hs; omega
  have hcast : ∀ s ∈ l, ((s.toNat : ℕ) : ℤ) = s := fun s hs => by have := hpos s hs; omega
  have hnumInj : ∀ s ∈ l, ∀ u ∈ U s.toNat, ∀ v ∈ U s.toNat, hnfNumbers u = hnfNumbers v → u = v := by
    intro s hs u hu v hv h
    rw [← (hnf_numbers_full (hs1 s hs) ((hU s hs).2 u hu)).1, h, (hnf_numbers_full (hs1 s hs) ((hU s hs).2 v hv)).1]
  have hwt : ∀ s ∈ l, TableOk (T s.toNat) ∧ ∀ h c v, (s.toNat, h, c, v) ∈ tableEntries .none (T s.toNat) ↔
      h ∈ (U s.toNat).map hnfNumbers ∧ c ∈ C s.toNat ∧ v = cnt s.toNat (getFullHNF h) c := by
    intro s hs
    exact C33_written_table s.toNat ((U s.toNat).map hnfNumbers) (C s.toNat) _
      ((hU s hs).1.map_on (fun u hu v hv => hnumInj s hs u hu v hv)) (hC s hs)
  have hok : ∀ t ∈ tablesOf l U C cnt, TableOk t := by
    intro t ht
    obtain ⟨s, hs, rfl⟩ := List.mem_map.mp ht
    exact (hwt s hs).1
  have hnatnd : (l.map Int.toNat).Nodup := hl.map_on (fun a ha b hb h => by rw [← hcast a ha, ← hcast b hb, h])
  have hsz : ((tablesOf l U C cnt).map (·.size)).Nodup := by
    rw [htables, List.map_map]
    exact hnatnd
  have hent : ∀ e, e ∈ entries .none (tablesOf l U C cnt) ↔ (e.1 : ℤ) ∈ l ∧ e.2.1 ∈ (U e.1).map hnfNumbers ∧ e.2.2.1 ∈ C e.1 ∧
      e.2.2.2 = cnt e.1 (getFullHNF e.2.1) e.2.2.1 := by
    rintro ⟨n, h, c, v⟩
    unfold entries
    rw [List.mem_flatMap]
    constructor
    · rintro ⟨t, ht, he⟩
      obtain ⟨s, hs, rfl⟩ := List.mem_map.mp ht
      have hn : n = s.toNat := entries_size (hwt s hs).1 _ he
      subst hn
      have := ((hwt s hs).2 h c v).mp he
      exact ⟨by simp only; rw [hcast s hs]; exact hs, this⟩
    · rintro ⟨h1, h2⟩
      simp only at h1 h2
      refine ⟨T n, List.mem_map.mpr ⟨(n : ℤ), h1, by simp [hT]⟩, ?_⟩
      have := (hwt _ h1).2 h c v
      simp only [Int.toNat_natCast] at this
      exact this.mpr h2
  have htypes : ((entries .none (tablesOf l U C cnt)).map (typeOf .all)).Nodup := by
    have hsz' := hsz
    unfold entries
    rw [List.map_flatMap, List.nodup_flatMap]
    refine ⟨fun t ht => tableEntries_types (hok t ht) _, ?_⟩
    rw [List.Nodup, List.pairwise_map] at hsz'
    refine List.Pairwise.imp_of_mem ?_ hsz'
    intro a b ha hb hab
    rw [Function.onFun, List.disjoint_left]
    intro x hx hy
    obtain ⟨e, he, rfl⟩ := List.mem_map.mp hx
    obtain ⟨e', he', h⟩ := List.mem_map.mp hy
    have h1 := entries_size (hok a ha) _ he
    have h2 := entries_size (hok b hb) _ he'
    have h3 : (typeOf .all e').1 = (typeOf .all e).1 := by rw [h]
    change e'.1 = e.1 at h3
    exact hab (by rw [← h1, ← h2, h3])
  have hfull : ∀ n : ℕ, (n : ℤ) ∈ l → ∀ u ∈ U n, getFullHNF (hnfNumbers u) = u ∧ (hnfNumbers u).length = 6 := by
    intro n hn u hu
    have := hs1 _ hn
    have h := (hU _ hn).2
    simp only [Int.toNat_natCast] at this h
    exact hnf_numbers_full this (h u hu)
  set E := entries .none (tablesOf l U C cnt) with hE
  have hKmem : ∀ (n : ℕ) u c, (n, u, c) ∈ E.map (fun e => (e.1, getFullHNF e.2.1, e.2.2.1)) ↔ (n : ℤ) ∈ l ∧ u ∈ U n ∧ c ∈ C n := by
    intro n u c
    rw [List.mem_map]
    constructor
    · rintro ⟨e, he, h⟩
      obtain ⟨h1, h2, h3, -⟩ := (hent e).mp he
      obtain ⟨u', hu', e2⟩ := List.mem_map.mp h2
      simp only [Prod.mk.injEq] at h
      rw [← e2, (hfull _ h1 _ hu').1] at h
      obtain ⟨rfl, rfl, rfl⟩ := h
      exact ⟨h1, hu', h3⟩
    · rintro ⟨h1, h2, h3⟩
      refine ⟨(n, hnfNumbers u, c, cnt n u c), (hent _).mpr ⟨h1, List.mem_map_of_mem h2, h3, ?_⟩, ?_⟩
      · simp only; rw [(hfull n h1 u h2).1]
      · simp only; rw [(hfull n h1 u h2).1]
  refine ⟨E.map (fun e => (e.1, getFullHNF e.2.1, e.2.2.1)), hok, hsz, ?_, hKmem, ?_, ?_, ?_, ?_, ?_⟩
  · apply htypes.of_map.map_on
    intro e he e' he' h
    obtain ⟨h1, h2, h3, h4⟩ := (hent e).mp he
    obtain ⟨g1, g2, g3, g4⟩ := (hent e').mp he'
    simp only [Prod.mk.injEq] at h
    obtain ⟨u, hu, e1⟩ := List.mem_map.mp h2
    obtain ⟨v, hv, e2⟩ := List.mem_map.mp g2
    have e3 : e.2.1 = e'.2.1 := by
      have := h.2.1
      rw [← e1, ← e2, (hfull _ h1 _ hu).1, (hfull _ g1 _ hv).1] at this
      rw [← e1, ← e2, this]
    have e4 : e.2.2.2 = e'.2.2.2 := by rw [h4, g4, h.1, h.2.1, h.2.2]
    exact Prod.ext h.1 (Prod.ext e3 (Prod.ext h.2.2 e4))
  · rintro ⟨n, u, c⟩ hx
    obtain ⟨h1, h2, -⟩ := (hKmem n u c).mp hx
    exact hfull n h1 u h2
  · rintro ⟨n, u, c⟩ hx
    obtain ⟨h1, h2, h3⟩ := (hKmem n u c).mp hx
    have he : (n, hnfNumbers u, c, cnt n u c) ∈ E := by
      refine (hent _).mpr ⟨h1, List.mem_map_of_mem h2, h3, ?_⟩
      simp only
      rw [(hfull n h1 u h2).1]
    exact available_types htypes he
  · intro key hkey
    obtain ⟨e, he, hk, -⟩ := available_pos hkey
    obtain ⟨h1, h2, h3, -⟩ := (hent e).mp he
    obtain ⟨u, hu, hu'⟩ := List.mem_map.mp h2
    refine ⟨(e.1, u, e.2.2.1), (hKmem _ _ _).mpr ⟨h1, hu, h3⟩, ?_⟩
    rw [← hk]
    unfold keyOf typeOf
    simp only [hu']
  · unfold grandTotal
    rw [List.map_map]
    congr 1
    apply List.map_congr_left
    intro e he
    exact ((hent e).mp he).2.2.2
  · rw [List.map_map]
    refine (List.map_id E).symm.trans ?_
    apply List.map_congr_left
    intro e he
    obtain ⟨h1, h2, h3, h4⟩ := (hent e).mp he
    obtain ⟨u, hu, e1⟩ := List.mem_map.mp h2
    have e2 : hnfNumbers (getFullHNF e.2.1) = e.2.1 := by rw [← e1, (hfull _ h1 _ hu).1]
    simp only [id, Function.comp]
    rw [e2, ← h4]

/-- a system of enum.in: the supercell, the composition and the number of structures asked for -/
def sysOfRequest (x : (ℕ × Matrix (Fin 3) (Fin 3) ℤ × Conc) × ℕ) : List ℤ × List ℤ × ℤ :=
  (hnfNumbers x.1.2.1, x.1.2.2.map (fun c : ℕ => (c : ℤ)), (x.2 : ℤ))

/-- a distribution written to enum.in and read again -/
theorem requests_ok {K : List (ℕ × Matrix (Fin 3) (Fin 3) ℤ × Conc)} (hF : TablesFacts l U C cnt K)
    (hk : ∀ x ∈ K, x.2.2.length = k) {D : List (DKey × ℕ)} (hD : ∀ p ∈ D, 0 < available .all (entries .none (tablesOf l U C cnt)) p.1) :
    ∃ V : List ((ℕ × Matrix (Fin 3) (Fin 3) ℤ × Conc) × ℕ), D = V.map (fun x => (keyOf x.1, x.2)) ∧ (∀ x ∈ V, x.1 ∈ K) ∧
      readEnum (printDist .all D) = .ok (V.map sysOfRequest) := by
  have key : ∀ D : List (DKey × ℕ), (∀ p ∈ D, 0 < available .all (entries .none (tablesOf l U C cnt)) p.1) →
      ∃ V : List ((ℕ × Matrix (Fin 3) (Fin 3) ℤ × Conc) × ℕ), D = V.map (fun x => (keyOf x.1, x.2)) ∧ ∀ x ∈ V, x.1 ∈ K := by
    intro D
    induction D with
    | nil => exact fun _ => ⟨[], rfl, by simp⟩
    | cons p D ih =>
      intro h
      obtain ⟨V, h1, h2⟩ := ih (fun q hq => h q (List.mem_cons_of_mem _ hq))
      obtain ⟨x, hx, e⟩ := hF.keys _ (h p List.mem_cons_self)
      refine ⟨(x, p.2) :: V, ?_, ?_⟩
      · rw [List.map_cons, ← h1]
        simp only [← e]
      · intro y hy
        rcases List.mem_cons.mp hy with rfl | hy
        · exact hx
        · exact h2 y hy
  obtain ⟨V, h1, h2⟩ := key D hD
  refine ⟨V, h1, h2, ?_⟩
  show readEnum (printAll (D.map (fun p => ((p.1.1, p.1.2.1.getD [], p.1.2.2.getD []), p.2)))) = _
  rw [h1, C30_enum_in_round_trip _ k]
  · rw [List.map_map, List.map_map]
    rfl
  · intro q hq
    rw [List.map_map] at hq
    obtain ⟨x, hx, rfl⟩ := List.mem_map.mp hq
    exact (hF.full _ (h2 x hx)).2
  · intro q hq
    rw [List.map_map] at hq
    obtain ⟨x, hx, rfl⟩ := List.mem_map.mp hq
    exact hk _ (h2 x hx)

end

/-! ## the structures delivered -/

/-- inequivalent objects are part of a list of representatives -/
theorem extend_transversal {β : Type} {Pr : β → Prop} {R : β → β → Prop} (hrefl : ∀ x, Pr x → R x x)
    (hsymm : ∀ x y, Pr x → Pr y → R x y → R y x)
    (htrans : ∀ x y z, Pr x → Pr y → Pr z → R x y → R y z → R x z) {L full : List β} (hmem : ∀ z ∈ L, Pr z)
    (hpw : L.Pairwise (fun z w => ¬ R z w)) (h : IsTransversal Pr R full) : ∃ T, L.Sublist T ∧ IsTransversal Pr R T := by
  classical
  have hpw' : ∀ x ∈ L, ∀ y ∈ L, R x y → x = y := by
    intro x hx y hy hxy
    by_contra hne
    obtain ⟨i, hi, rfl⟩ := List.getElem_of_mem hx
    obtain ⟨j, hj, rfl⟩ := List.getElem_of_mem hy
    rw [List.pairwise_iff_getElem] at hpw
    rcases lt_trichotomy i j with h | h | h
    · exact hpw i j hi hj h hxy
    · subst h; exact hne rfl
    · exact hpw j i hj hi h (hsymm _ _ (hmem _ hx) (hmem _ hy) hxy)
  have hnd : L.Nodup := hpw.imp_of_mem (fun {a b} ha _ hab e => hab (e ▸ hrefl a (hmem a ha)))
  refine ⟨L ++ full.filter (fun w => decide (∀ z ∈ L, ¬ R z w)), List.sublist_append_left _ _, ?_, ?_, ?_⟩
  · refine hnd.append (h.nodup.filter _) ?_
    rw [List.disjoint_left]
    intro x hx hx'
    rw [List.mem_filter, decide_eq_true_eq] at hx'
    exact hx'.2 x hx (hrefl x (hmem x hx))
  · intro w hw
    rcases List.mem_append.mp hw with hw | hw
    · exact hmem w hw
    · exact h.mem w (List.mem_filter.mp hw).1
  · intro x hx
    by_cases hL : ∃ z ∈ L, R z x
    · obtain ⟨z, hz, hzx⟩ := hL
      refine ⟨z, ⟨List.mem_append_left _ hz, hzx⟩, ?_⟩
      rintro y ⟨hy, hyx⟩
      rcases List.mem_append.mp hy with hy | hy
      · exact hpw' y hy z hz (htrans _ _ _ (hmem y hy) hx (hmem z hz) hyx (hsymm _ _ (hmem z hz) hx hzx))
      · rw [List.mem_filter, decide_eq_true_eq] at hy
        have hyp := h.mem y hy.1
        exact absurd (htrans _ _ _ (hmem z hz) hx hyp hzx (hsymm _ _ hyp hx hyx)) (hy.2 z hz)
    · have hL : ∀ z ∈ L, ¬ R z x := fun z hz hr => hL ⟨z, hz, hr⟩
      obtain ⟨w, ⟨hw, hwx⟩, hu⟩ := h.unique x hx
      refine ⟨w, ⟨List.mem_append_right _ (List.mem_filter.mpr ⟨hw, ?_⟩), hwx⟩, ?_⟩
      · rw [decide_eq_true_eq]
        intro z hz hzw
        exact hL z hz (htrans _ _ _ (hmem z hz) (h.mem w hw) hx hzw hwx)
      · rintro y ⟨hy, hyx⟩
        rcases List.mem_append.mp hy with hy | hy
        · exact absurd hyx (hL y hy)
        · exact hu y ⟨(List.mem_filter.mp hy).1, hyx⟩

/-- the structures delivered for a request: part of a list of representatives -/
theorem cell_request {c : List ℕ} (h2 : 2 ≤ c.length) (hpos : 1 ≤ c.sum) (aconcs : List ℚ) (hlen : c.length ≤ aconcs.length)
    {G G' : List Op} (hG : IsOpGroup c.sum 6 G) (hG' : IsOpGroup c.sum 6 G') (hnd' : G'.Nodup)
    (hmem : ∀ σ, σ ∈ G.map (·.1) ↔ σ ∈ G'.map (·.1)) (hflag : G' = G ∨ NoArrows aconcs c)
    {L : List Config} (hL : IsTransversal (Composed c aconcs 6) (OpEquiv G) L) (wanted nB : ℕ) (rnd : EnumRandom) (hsh : ∀ l, (rnd.shuffle l).Perm l)
    (hmod : Modest c wanted) (hmod2 : NoArrows aconcs c ∨ c.sum < 12 ∨ 100 < wanted) :
    ∃ S T, enumSys G' c aconcs wanted nB true false rnd = some (.ok S) ∧ S.Sublist T ∧ T.length = L.length ∧
      IsTransversal (Composed c aconcs 6) (OpEquiv G') T ∧ S.length = delivered wanted L.length := by
  have hc := composed_contents c aconcs hlen
  have hrefl : ∀ x, Composed c aconcs 6 x → OpEquiv G' x x := fun x hx => hG'.opEquiv_refl (hc.length x hx) (composed_lt hx)
  have hsymm : ∀ x y, Composed c aconcs 6 x → Composed c aconcs 6 y → OpEquiv G' x y → OpEquiv G' y x :=
    fun x y hx hy h => hG'.opEquiv_symm (hc.length x hx) (composed_lt hx) h
  have htrans : ∀ x y z, Composed c aconcs 6 x → Composed c aconcs 6 y → Composed c aconcs 6 z → OpEquiv G' x y → OpEquiv G' y z → OpEquiv G' x z :=
    fun x y z hx hy hz h h' => hG'.opEquiv_trans (hc.length x hx) (composed_lt hx) h h'
  by_cases hna : NoArrows aconcs c
  · have hP' := opGroup_sites hG'
    have hop : ∀ x y, Composed c aconcs 6 x → (OpEquiv G x y ↔ OpEquiv G' x y) := by
      intro x y hx
      have hpx := (plain_iff_composed hna x).mpr hx
      rw [opEquiv_plain hG.sites hpx, opEquiv_plain hG'.sites hpx]
      unfold Spec.Equiv
      constructor
      · rintro ⟨σ, hσ, e⟩; exact ⟨σ, (hmem σ).mp hσ, e⟩
      · rintro ⟨σ, hσ, e⟩; exact ⟨σ, (hmem σ).mpr hσ, e⟩
    have hL' : IsTransversal (Composed c aconcs 6) (OpEquiv G') L := by
      refine ⟨hL.nodup, hL.mem, fun x hx => ?_⟩
      obtain ⟨w, ⟨hw, hwx⟩, hu⟩ := hL.unique x hx
      exact ⟨w, ⟨hw, (hop w x (hL.mem w hw)).mp hwx⟩, fun y hy => hu y ⟨hy.1, (hop y x (hL.mem y hy.1)).mpr hy.2⟩⟩
    obtain ⟨tot, hp, hrun⟩ := supercell_plain hG' hnd' h2 hpos aconcs hlen hna
    obtain ⟨T0, -, h3, h4⟩ := hrun (max tot 101) 0 ⟨id, fun _ => 0, fun _ => [], fun _ _ => 0, fun _ => true, fun _ => true, fun _ _ => true⟩
      (fun l => List.Perm.refl _) (Or.inr (lt_of_lt_of_le (by decide) (le_max_right _ _))) (le_max_left _ _)
    have hT0 : IsTransversal (Composed c aconcs 6) (OpEquiv G') T0 :=
      ⟨h4.nodup, fun x hx => (plain_iff_composed hna x).mp (h4.mem x hx), fun x hx => h4.unique x ((plain_iff_composed hna x).mpr hx)⟩
    have e0 : tot = L.length := by
      rw [← h3]
      exact le_antisymm (transversal_length hsymm htrans hT0 hL') (transversal_length hsymm htrans hL' hT0)
    have hp2 : ∀ g ∈ G', ∃ d, g.2.Perm (List.range d) := fun g hg => ⟨6, hG'.arrows g hg⟩
    obtain ⟨S, full, e1, e2, e3, e4, e5⟩ := C43_request G' c aconcs wanted nB rnd h2 hlen hpos hna hP' (sites_balanced hG' hnd') hp2 hsh hmod
    have hfl : full.length = L.length := by
      have := ((C13_polya_counts_orbits c G' hpos hP' (sites_balanced hG' hnd') hp2).2 full e4).symm.trans hp
      rw [← e0]
      exact_mod_cast Except.ok.inj (Option.some.inj this)
    have hSc : ∀ z ∈ S, Composed c aconcs 6 z := fun z hz => (plain_iff_composed hna z).mp (e2 z hz)
    obtain ⟨T, t1, t2⟩ := extend_transversal hrefl hsymm htrans hSc
      (e3.imp_of_mem (fun {a b} ha _ h he => h ((opEquiv_plain hG'.sites (e2 a ha)).mp he))) hL'
    refine ⟨S, T, e1, t1, ?_, t2, by rw [e5, hfl]⟩
    exact le_antisymm (transversal_length hsymm htrans t2 hL') (transversal_length hsymm htrans hL' t2)
  · have hGG : G' = G := hflag.resolve_right hna
    subst hGG
    have har : ∃ i, i < c.length ∧ 0 < arrowCount (c.getD i 0) (aconcs.getD i 0) := by
      by_contra hne
      apply hna
      intro i hi
      by_contra h0
      exact hne ⟨i, hi, Nat.pos_of_ne_zero h0⟩
    obtain ⟨S, full, e1, e2, e3, e4, e5⟩ := C43_request_arrows G' c aconcs wanted nB rnd h2 hlen har hG' (balanced_of_nodup hnd') hsh hmod (hmod2.resolve_left hna)
    have hfl : full.length = L.length := le_antisymm (transversal_length hsymm htrans e4 hL) (transversal_length hsymm htrans hL e4)
    obtain ⟨T, t1, t2⟩ := extend_transversal hrefl hsymm htrans e2 e3 hL
    refine ⟨S, T, e1, t1, ?_, t2, by rw [e5, hfl]⟩
    exact le_antisymm (transversal_length hsymm htrans t2 hL) (transversal_length hsymm htrans hL t2)

end Phenum
