import Verif.Model.Phonons
import Verif.Proof.Arrows
import Mathlib.Algebra.BigOperators.Group.Finset.Basic
import Mathlib.Algebra.BigOperators.Group.Finset.Piecewise
import Mathlib.Algebra.BigOperators.Group.List.Basic
import Mathlib.Data.Finset.Card
/-
The orbit counting lemma for lists of operations.
-/
namespace Phenum
open Spec

theorem sum_swap {γ β : Type} (H : List γ) (X : Finset β) (F : γ → β → Nat) :
    (H.map (fun g => ∑ x ∈ X, F g x)).sum = ∑ x ∈ X, (H.map (fun g => F g x)).sum := by
  induction H with
  | nil => simp
  | cons g H ih => simp [ih, Finset.sum_add_distrib]

theorem countP_sum {γ : Type} (H : List γ) (p : γ → Bool) : H.countP p = (H.map (fun g => if p g then 1 else 0)).sum := by
  induction H with
  | nil => rfl
  | cons g H ih => rw [List.countP_cons, ih, List.map_cons, List.sum_cons, Nat.add_comm]

/-- orbit counting -/
theorem burnside {γ β : Type} [DecidableEq β] (H : List γ) (ac : γ → β → β) (X : Finset β) (L : List β)
    (hX : ∀ g ∈ H, ∀ x ∈ X, ac g x ∈ X)
    (hcount : ∀ x ∈ X, ∀ h ∈ H, H.countP (fun g => decide (ac g x = ac h x)) =
      H.countP (fun g => decide (ac g (ac h x) = ac h x)))
    (hL : L.Nodup) (hLX : ∀ w ∈ L, w ∈ X) (htr : ∀ x ∈ X, ∃! w, w ∈ L ∧ ∃ g ∈ H, ac g w = x) :
    (H.map (fun g => (X.filter (fun x => ac g x = x)).card)).sum = H.length * L.length := by
  have e1 : ∀ g, (X.filter (fun x => ac g x = x)).card = ∑ x ∈ X, if ac g x = x then 1 else 0 := by
    intro g; rw [Finset.card_filter]
  simp only [e1]
  rw [sum_swap]
  have e2 : ∀ x ∈ X, (H.map (fun g => if ac g x = x then 1 else 0)).sum =
      ∑ w ∈ L.toFinset, H.countP (fun g => decide (ac g w = x)) := by
    intro x hx
    obtain ⟨w, ⟨hw, h, hh, rfl⟩, huniq⟩ := htr x hx
    rw [Finset.sum_eq_single w]
    · rw [hcount w (hLX w hw) h hh, countP_sum]
      simp
    · intro w' hw' hne
      rw [List.countP_eq_zero]
      intro g hg hc
      apply hne
      apply huniq w'
      exact ⟨List.mem_toFinset.mp hw', g, hg, of_decide_eq_true hc⟩
    · intro hc; exact absurd (List.mem_toFinset.mpr hw) hc
  rw [Finset.sum_congr rfl e2, Finset.sum_comm]
  have e3 : ∀ w ∈ L.toFinset, ∑ x ∈ X, H.countP (fun g => decide (ac g w = x)) = H.length := by
    intro w hw
    have hwX := hLX w (List.mem_toFinset.mp hw)
    simp only [countP_sum]
    rw [← sum_swap]
    have : H.map (fun g => ∑ x ∈ X, if decide (ac g w = x) = true then 1 else 0) = H.map (fun _ => 1) := by
      apply List.map_congr_left
      intro g hg
      simp [hX g hg w hwX]
    rw [this]; simp
  rw [Finset.sum_congr rfl e3, Finset.sum_const, List.toFinset_card_of_nodup hL, smul_eq_mul, Nat.mul_comm]

/-- in a list with constant multiplicities an injective self-map that preserves the list gives inequalities of counts -/
theorem countP_le_of_inj {γ : Type} [DecidableEq γ] (H : List γ) (m : Nat) (hm : ∀ g ∈ H, H.countP (fun h => decide (h = g)) = m)
    (f : γ → γ) (hf : ∀ g ∈ H, f g ∈ H) (hinj : ∀ g ∈ H, ∀ g' ∈ H, f g = f g' → g = g') (p q : γ → Bool)
    (hpq : ∀ g ∈ H, p g = true → q (f g) = true) : H.countP p ≤ H.countP q := by
  have card : ∀ p : γ → Bool, H.countP p = m * (H.toFinset.filter (fun g => p g = true)).card := by
    intro p
    rw [countP_sum, Finset.sum_list_map_count]
    rw [Finset.card_filter, Finset.mul_sum]
    apply Finset.sum_congr rfl
    intro g hg
    rw [← hm g (List.mem_toFinset.mp hg), List.count_eq_countP]
    rw [List.countP_congr (q := fun h => decide (h = g)) (by intro h _; simp)]
    split <;> simp
  rw [card, card]
  apply Nat.mul_le_mul_left
  apply Finset.card_le_card_of_injOn f
  · intro g hg
    simp only [Finset.coe_filter, List.mem_toFinset, Set.mem_ofPred_eq] at hg ⊢
    exact ⟨hf g hg.1, hpq g hg.1 hg.2⟩
  · intro g hg g' hg' e
    simp only [Finset.coe_filter, List.mem_toFinset, Set.mem_ofPred_eq] at hg hg'
    exact hinj g hg.1 g' hg'.1 e

theorem permute_inj_left {n : Nat} {σ σ' τ : List Nat} (hσ : σ.Perm (List.range n)) (hσ' : σ'.Perm (List.range n))
    (hτ : τ.Perm (List.range n)) (h : permute σ τ = permute σ' τ) : σ = σ' := by
  have hl := perm_range_length hτ
  have h1 : ∀ j ∈ σ, j < τ.length := by rw [hl]; exact perm_range_lt hσ
  have h2 : ∀ j ∈ σ', j < τ.length := by rw [hl]; exact perm_range_lt hσ'
  have hnd : τ.Nodup := hτ.nodup_iff.mpr List.nodup_range
  apply List.ext_getElem (by rw [perm_range_length hσ, perm_range_length hσ'])
  intro i hi hi'
  have e1 := permute_getElem σ τ h1 i hi
  have e2 := permute_getElem σ' τ h2 i hi'
  have : τ[σ[i]]'(h1 _ (List.getElem_mem _)) = τ[σ'[i]]'(h2 _ (List.getElem_mem _)) := by
    rw [← e1, ← e2]; simp only [h]
  exact hnd.getElem_inj_iff.mp this

theorem permute_inj_right {n : Nat} {α : Type} {σ : List Nat} {x y : List α} (hσ : σ.Perm (List.range n))
    (hx : x.length = n) (hy : y.length = n) (h : permute σ x = permute σ y) : x = y := by
  have h1 : ∀ j ∈ σ, j < x.length := by rw [hx]; exact perm_range_lt hσ
  have h2 : ∀ j ∈ σ, j < y.length := by rw [hy]; exact perm_range_lt hσ
  apply List.ext_getElem (by omega)
  intro j hj hj'
  obtain ⟨i, hi, rfl⟩ := List.getElem_of_mem (hσ.mem_iff.mpr (List.mem_range.mpr (by omega : j < n)))
  rw [← permute_getElem σ x h1 i hi, ← permute_getElem σ y h2 i hi]
  simp only [h]

/-- stabiliser and transporter have the same size: paired operations -/
theorem opCount {n dim : Nat} {H : List Op} (hH : IsOpGroup n dim H) {m : Nat} (hm : ∀ g ∈ H, H.countP (fun h => decide (h = g)) = m)
    {x : Config} (hx : x.length = n) (hxd : ∀ s ∈ x, s.1 < dim) {h : Op} (hh : h ∈ H) :
    H.countP (fun g => decide (act g x = act h x)) = H.countP (fun g => decide (act g (act h x) = act h x)) := by
  have hyl := hH.act_length hh hx
  have hyd := hH.act_lt hh hx hxd
  have inj : ∀ k ∈ H, ∀ g ∈ H, ∀ g' ∈ H,
      (permute g.1 k.1, permute k.2 g.2) = (permute g'.1 k.1, permute k.2 g'.2) → g = g' := by
    intro k hk g hg g' hg' e
    have e1 := (Prod.mk.inj e).1
    have e2 := (Prod.mk.inj e).2
    exact Prod.ext (permute_inj_left (hH.sites g hg) (hH.sites g' hg') (hH.sites k hk) e1)
      (permute_inj_right (hH.arrows k hk) (perm_range_length (hH.arrows g hg))
        (perm_range_length (hH.arrows g' hg')) e2)
  apply Nat.le_antisymm
  · obtain ⟨k, hk, hkx⟩ := hH.opEquiv_symm hx hxd ⟨h, hh, rfl⟩
    apply countP_le_of_inj H m hm (fun g => (permute g.1 k.1, permute k.2 g.2)) (fun g hg => hH.mul k hk g hg)
      (inj k hk)
    intro g hg hp
    rw [decide_eq_true_eq] at hp ⊢
    rw [← hH.act_mul hk hg hyl hyd, hkx, hp]
  · apply countP_le_of_inj H m hm (fun g => (permute g.1 h.1, permute h.2 g.2)) (fun g hg => hH.mul h hh g hg)
      (inj h hh)
    intro g hg hp
    rw [decide_eq_true_eq] at hp ⊢
    rw [← hH.act_mul hh hg hx hxd, hp]

/-- stabiliser and transporter have the same size: site permutations -/
theorem siteCount {n : Nat} {G : List (List Nat)} (hG : IsPermGroup n G) {m : Nat} (hm : ∀ g ∈ G, G.countP (fun h => decide (h = g)) = m)
    {α : Type} [DecidableEq α] {x : List α} (hx : x.length = n) {h : List Nat} (hh : h ∈ G) :
    G.countP (fun g => decide (permute g x = permute h x)) =
      G.countP (fun g => decide (permute g (permute h x) = permute h x)) := by
  have hyl := hG.permute_length' hh x hx
  apply Nat.le_antisymm
  · obtain ⟨k, hk, hkx⟩ := hG.equiv_symm hx ⟨h, hh, rfl⟩
    apply countP_le_of_inj G m hm (fun g => permute g k) (fun g hg => hG.mul k hk g hg)
      (fun g hg g' hg' e => permute_inj_left (hG.perm g hg) (hG.perm g' hg') (hG.perm k hk) e)
    intro g hg hp
    rw [decide_eq_true_eq] at hp ⊢
    rw [← hG.permute_mul hk hg _ hyl, hkx, hp]
  · apply countP_le_of_inj G m hm (fun g => permute g h) (fun g hg => hG.mul h hh g hg)
      (fun g hg g' hg' e => permute_inj_left (hG.perm g hg) (hG.perm g' hg') (hG.perm h hh) e)
    intro g hg hp
    rw [decide_eq_true_eq] at hp ⊢
    rw [← hG.permute_mul hh hg _ hx, hp]

end Phenum
