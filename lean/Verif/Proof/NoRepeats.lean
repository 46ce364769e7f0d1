import Verif.Proof.RotGroup
import Verif.Proof.Burnside
/-
When the list of permutations made by the code has no repetitions.
-/
namespace Phenum
open Spec

theorem dropRepeats_sublist {α : Type} [DecidableEq α] (l : List α) : (dropRepeats l).Sublist l := by
  fun_induction dropRepeats l with
  | case1 => exact List.Sublist.refl _
  | case2 => exact List.Sublist.refl _
  | case3 a l ih => exact ih.trans (List.sublist_cons_self _ _)
  | case4 a b l h ih => exact ih.cons₂ a

theorem dropRepeats_sorted {α : Type} [DecidableEq α] [PartialOrder α] (l : List α) (h : l.Pairwise (· ≤ ·)) :
    (dropRepeats l).Pairwise (· < ·) := by
  fun_induction dropRepeats l with
  | case1 => simp
  | case2 => simp
  | case3 a l ih => exact ih (List.pairwise_cons.mp h).2
  | case4 a b l hab ih =>
    rw [List.pairwise_cons] at h ⊢
    refine ⟨fun x hx => ?_, ih h.2⟩
    rw [mem_dropRepeats] at hx
    rcases List.mem_cons.mp hx with rfl | hx
    · exact lt_of_le_of_ne (h.1 x (by simp)) hab
    · have h1 := h.1 b (by simp)
      have h2 := (List.pairwise_cons.mp h.2).1 x hx
      exact lt_of_lt_of_le (lt_of_le_of_ne h1 hab) h2

theorem cleanPerms_sites_nodup (perms : List (List ℕ × List ℕ)) : ((cleanPerms false perms).map (·.1)).Nodup := by
  unfold cleanPerms
  simp only [Bool.false_eq_true, if_false, List.map_map]
  rw [show ((fun x : List ℕ × List ℕ => x.1) ∘ fun p : List ℕ => (p, List.range 6)) = id from rfl, List.map_id]
  by_cases h : perms.length > 1
  · rw [if_pos h]
    exact (dropRepeats_sorted _ (lexSort_pairwise _)).imp (fun h => h.ne)
  · rw [if_neg h]
    match perms, h with
    | [], _ => simp
    | [a], _ => simp
    | a :: b :: l, h => simp at h

theorem cleanPerms_arrows_perm {N : ℕ} {perms : List (List ℕ × List ℕ)} (h1 : ∀ p ∈ perms, p.1.length = N)
    (h2 : ∀ p ∈ perms, p.2.length = 6) : ∃ l, l.Sublist perms ∧ (cleanPerms true perms).Perm l := by
  unfold cleanPerms
  simp only [if_true]
  by_cases h : perms.length > 1
  · rw [if_pos h]
    obtain ⟨l, hl, e⟩ := List.sublist_map_iff.mp (dropRepeats_sublist (perms.map (fun p : List ℕ × List ℕ => p.1 ++ p.2)))
    refine ⟨l, hl, ?_⟩
    simp only [e]
    have hnr : (perms.map (fun p : List ℕ × List ℕ => p.1.length)).headD 0 = N := by
      match perms, h with
      | a :: b :: l, _ => exact h1 a (by simp)
    rw [hnr]
    refine ((List.mergeSort_perm (l.map (fun p : List ℕ × List ℕ => p.1 ++ p.2)) _).map _).trans ?_
    rw [List.map_map]
    apply List.Perm.of_eq
    conv_rhs => rw [← List.map_id l]
    apply List.map_congr_left
    intro p hp
    have hp' := hl.subset hp
    have a := h1 p hp'
    have b := h2 p hp'
    simp only [Function.comp, id]
    apply Prod.ext
    · simp only
      rw [List.take_left' a]
    · simp only
      rw [List.length_append, a, b, Nat.add_sub_cancel, List.drop_left' a]
  · rw [if_neg h]
    exact ⟨perms, List.Sublist.refl _, List.Perm.refl _⟩

section
variable {K : Type} [Field K] [LinearOrder K] [IsStrictOrderedRing K]

theorem turns_rot_unique {R R' : M3 K} {τ : List ℕ} (h : TurnsArrows R τ) (h' : TurnsArrows R' τ) : R = R' := by
  have key : ∀ k a, IsArrowDir k a → R.mulVec (fun i => (a i : K)) = R'.mulVec (fun i => (a i : K)) := by
    intro k a ha
    have hk : k < 6 := by
      unfold IsArrowDir at ha
      rcases ha with ⟨rfl, -⟩ | ⟨rfl, -⟩ | ⟨rfl, -⟩ | ⟨rfl, -⟩ | ⟨rfl, -⟩ | ⟨rfl, -⟩ <;> decide
    have hk1 : k < τ.length := by rw [h.length]; exact hk
    have e := List.getElem?_eq_getElem hk1
    have huni : ∀ {k a b}, IsArrowDir k a → IsArrowDir k b → a = b := by
      intro k a b ha hb
      unfold IsArrowDir at ha hb
      rcases ha with ⟨rfl, rfl⟩ | ⟨rfl, rfl⟩ | ⟨rfl, rfl⟩ | ⟨rfl, rfl⟩ | ⟨rfl, rfl⟩ | ⟨rfl, rfl⟩ <;> simp at hb <;> exact hb.symm
    obtain ⟨a1, b1, ha1, hb1, e1⟩ := (h.entries k _ hk).mp e
    obtain ⟨a2, b2, ha2, hb2, e2⟩ := (h'.entries k _ hk).mp e
    rw [← huni ha1 ha] at *
    rw [← huni ha1 ha2, ← huni hb1 hb2] at e2
    rw [e1, e2]
  have k0 := key 0 ![1, 0, 0] (by simp [IsArrowDir])
  have k2 := key 2 ![0, 1, 0] (by simp [IsArrowDir])
  have k4 := key 4 ![0, 0, 1] (by simp [IsArrowDir])
  ext i j
  have e0 := congrFun k0 i
  have e2 := congrFun k2 i
  have e4 := congrFun k4 i
  simp [Matrix.mulVec, dotProduct, Fin.sum_univ_three] at e0 e2 e4
  fin_cases j
  · exact e0
  · exact e2
  · exact e4

theorem trans_entry0 {Λ : Set (Fin 3 → K)} (hΛ : IsSub Λ) {N : ℕ} {pos : ℕ → Fin 3 → K} {t t' : Fin 3 → K}
    {σ σ' : List ℕ} (h : Induces Λ N pos 1 t σ) (h' : Induces Λ N pos 1 t' σ') (hN : 0 < N) (e : σ[0]? = σ'[0]?) : t - t' ∈ Λ := by
  have h0 : 0 < σ.length := by rw [h.length]; exact hN
  have e1 := List.getElem?_eq_getElem h0
  have e2 : σ'[0]? = some σ[0] := by rw [← e, e1]
  have a := ((h.entries 0 _ hN).mp e1).2
  have b := ((h'.entries 0 _ hN).mp e2).2
  have := hΛ.add _ a _ (hΛ.neg _ b)
  convert this using 1
  abel

/-- the translations are different -/
theorem trans_nodup {Λ : Set (Fin 3 → K)} (hΛ : IsSub Λ) {N : ℕ} {pos : ℕ → Fin 3 → K} (hN : 0 < N) {ms : List GVec} (hms : ms.Nodup)
    {tp : GVec → List ℕ} {v : GVec → Fin 3 → K} (htp : ∀ x, Induces Λ N pos 1 (v x) (tp x))
    (hv : ∀ x ∈ ms, ∀ y ∈ ms, v x - v y ∈ Λ → x = y) : ((ms.map tp).map (fun t => t[0]?)).Nodup := by
  rw [List.map_map]
  apply List.Nodup.map_on _ hms
  intro x hx y hy e
  exact hv x hx y hy (trans_entry0 hΛ (htp x) (htp y) hN e)

/-- Two motions whose shifts do not differ by a lattice vector, unless they are equal, and that agree up to translations
induce the same permutation, if site 0 is the origin. -/
theorem coset_same {Λ L : Set (Fin 3 → K)} (hΛ : IsSub Λ) (hL : IsSub L) (hLΛ : L ⊆ Λ) {N : ℕ} {pos : ℕ → Fin 3 → K} (hap : Apart L N pos)
    (hN : 0 < N) (h0 : pos 0 = 0) {R R' : M3 K} {s s' v v' : Fin 3 → K} {σ σ' τ τ' : List ℕ}
    (h : Induces L N pos R s σ) (h' : Induces L N pos R' s' σ') (hR : Keeps L R) (hR' : Keeps L R')
    (ht : Induces L N pos 1 v τ) (ht' : Induces L N pos 1 v' τ') (hv : R.mulVec v ∈ Λ) (hv' : R'.mulVec v' ∈ Λ)
    (hs : s - s' ∈ Λ → s = s') (e : permute σ τ = permute σ' τ') : σ = σ' := by
  have c := ht.comp hL h hR
  have c' := ht'.comp hL h' hR'
  rw [← e] at c'
  rw [mul_one] at c c'
  have hp := c.perm hL hap
  have key : ∀ j, j < N → (R.mulVec (pos j) + (R.mulVec v + s)) - (R'.mulVec (pos j) + (R'.mulVec v' + s')) ∈ L := by
    intro j hj
    obtain ⟨i, hi⟩ := List.mem_iff_getElem?.mp (hp.mem_iff.mpr (List.mem_range.mpr hj))
    have hiN : i < N := by
      rw [← c.length]; exact (List.getElem?_eq_some_iff.mp hi).1
    have a := ((c.entries i j hiN).mp hi).2
    have b := ((c'.entries i j hiN).mp hi).2
    have := hL.add _ a _ (hL.neg _ b)
    convert this using 1
    abel
  have k0 := key 0 hN
  rw [h0, Matrix.mulVec_zero, Matrix.mulVec_zero, zero_add, zero_add] at k0
  have hss : s = s' := by
    apply hs
    have := hΛ.add _ (hΛ.add _ (hLΛ k0) _ (hΛ.neg _ hv)) _ hv'
    convert this using 1
    abel
  subst hss
  have hpos : ∀ j, j < N → R.mulVec (pos j) - R'.mulVec (pos j) ∈ L := by
    intro j hj
    have := hL.add _ (key j hj) _ (hL.neg _ k0)
    convert this using 1
    abel
  apply List.ext_getElem?
  intro i
  by_cases hi : i < N
  · have hlt : i < σ.length := by rw [h.length]; exact hi
    have e : σ[i]? = some σ[i] := List.getElem?_eq_getElem hlt
    rw [e]
    obtain ⟨h1, h2⟩ := (h.entries i _ hi).mp e
    symm
    refine (h'.entries i _ hi).mpr ⟨h1, ?_⟩
    have := hL.add _ h2 _ (hL.neg _ (hpos _ h1))
    convert this using 1
    abel
  · rw [List.getElem?_eq_none (by rw [h.length]; omega), List.getElem?_eq_none (by rw [h'.length]; omega)]

theorem compose_nodup {Λ : Set (Fin 3 → K)} (hΛ : IsSub Λ) {N : ℕ} {pos : ℕ → Fin 3 → K} (hap : Apart Λ N pos) (hN : 0 < N)
    {ms : List GVec} (hms : ms.Nodup)
    {tp : GVec → List ℕ} {v : GVec → Fin 3 → K} (htp : ∀ x, Induces Λ N pos 1 (v x) (tp x))
    (hv : ∀ x ∈ ms, ∀ y ∈ ms, v x - v y ∈ Λ → x = y) (C : List (List ℕ × List ℕ)) (hC : C.Nodup)
    (hperm : ∀ r ∈ C, r.1.Perm (List.range N))
    (hdis : ∀ r ∈ C, ∀ r' ∈ C, r ≠ r' → r.2 ≠ r'.2 ∨ ∀ x ∈ ms, ∀ x' ∈ ms, permute r.1 (tp x) ≠ permute r'.1 (tp x')) :
    (C.flatMap (fun r => (ms.map tp).map (fun t => (permute r.1 t, r.2)))).Nodup := by
  have hT := trans_nodup hΛ hN hms htp hv
  have htlen : ∀ t ∈ ms.map tp, t.Perm (List.range N) := by
    intro t ht
    obtain ⟨x, -, rfl⟩ := List.mem_map.mp ht
    exact (htp x).perm hΛ hap
  have hlt : ∀ r ∈ C, ∀ t ∈ ms.map tp, ∀ j ∈ r.1, j < t.length := by
    intro r hr t ht j hj
    rw [(htlen t ht).length_eq, List.length_range]
    exact List.mem_range.mp ((hperm r hr).mem_iff.mp hj)
  rw [List.nodup_flatMap]
  refine ⟨?_, ?_⟩
  · intro r hr
    apply List.Nodup.map_on _ (List.Nodup.of_map _ hT)
    intro t ht t' ht' e
    rw [Prod.mk.injEq] at e
    exact permute_inj_right (hperm r hr) (by rw [(htlen t ht).length_eq, List.length_range]) (by rw [(htlen t' ht').length_eq, List.length_range]) e.1
  · rw [List.nodup_iff_pairwise_ne] at hC
    refine hC.imp_of_mem ?_
    intro r r' hr hr' hne g hg hg'
    obtain ⟨t, ht, rfl⟩ := List.mem_map.mp hg
    obtain ⟨t', ht', e⟩ := List.mem_map.mp hg'
    rw [Prod.mk.injEq] at e
    rcases hdis r hr r' hr' hne with h | h
    · exact h e.2.symm
    · obtain ⟨x, hx, rfl⟩ := List.mem_map.mp ht
      obtain ⟨x', hx', rfl⟩ := List.mem_map.mp ht'
      exact h x hx x' hx' e.1.symm

end

/-- a list without repetitions is balanced -/
theorem balanced_of_nodup {α : Type} [DecidableEq α] {H : List α} (h : H.Nodup) : Balanced H := by
  refine ⟨1, fun g hg => ?_⟩
  have := List.count_eq_one_of_mem h hg
  rw [← this, List.count]
  congr 1

/-- so are the site permutations of a group of paired operations -/
theorem sites_balanced {n dim : ℕ} {H : List (List ℕ × List ℕ)} (hH : IsOpGroup n dim H) (hnd : H.Nodup) : Balanced (H.map (·.1)) := by
  classical
  have hcount : ∀ σ, (H.map (·.1)).countP (fun h => decide (h = σ)) = (H.toFinset.filter (fun g => g.1 = σ)).card := by
    intro σ
    rw [List.countP_map, List.countP_eq_length_filter]
    have : H.toFinset.filter (fun g => g.1 = σ) = (H.filter (fun g => decide (g.1 = σ))).toFinset := by
      ext g; simp
    rw [this, List.toFinset_card_of_nodup (hnd.filter _)]
    rfl
  refine ⟨(H.toFinset.filter (fun g => g.1 = List.range n)).card, ?_⟩
  intro σ hσ
  obtain ⟨g0, hg0, rfl⟩ := List.mem_map.mp hσ
  rw [hcount]
  apply le_antisymm
  · obtain ⟨g1, hg1, e1, -⟩ := hH.inv g0 hg0
    apply Finset.card_le_card_of_injOn (fun h => (permute g1.1 h.1, permute h.2 g1.2))
    · intro h hh
      simp only [Finset.coe_filter, List.mem_toFinset, Set.mem_ofPred_eq] at hh ⊢
      exact ⟨hH.mul h hh.1 g1 hg1, by rw [hh.2, e1]⟩
    · intro h hh h' hh' e
      simp only [Finset.coe_filter, List.mem_toFinset, Set.mem_ofPred_eq] at hh hh'
      simp only [Prod.mk.injEq] at e
      exact Prod.ext (hh.2.trans hh'.2.symm) (permute_inj_left (hH.arrows h hh.1) (hH.arrows h' hh'.1) (hH.arrows g1 hg1) e.2)
  · apply Finset.card_le_card_of_injOn (fun h => (permute h.1 g0.1, permute g0.2 h.2))
    · intro h hh
      simp only [Finset.coe_filter, List.mem_toFinset, Set.mem_ofPred_eq] at hh ⊢
      refine ⟨hH.mul g0 hg0 h hh.1, ?_⟩
      have := permute_range g0.1
      rw [(hH.sites g0 hg0).length_eq, List.length_range] at this
      rw [hh.2, this]
    · intro h hh h' hh' e
      simp only [Finset.coe_filter, List.mem_toFinset, Set.mem_ofPred_eq] at hh hh'
      simp only [Prod.mk.injEq] at e
      refine Prod.ext (hh.2.trans hh'.2.symm) (permute_inj_right (hH.arrows g0 hg0) ?_ ?_ e.2)
      · rw [(hH.arrows h hh.1).length_eq, List.length_range]
      · rw [(hH.arrows h' hh'.1).length_eq, List.length_range]

end Phenum
