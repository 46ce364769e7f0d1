import Verif.Model.Closure
import Verif.Proof.Loop
import Verif.Proof.Group
import Mathlib.Data.Finset.Card
import Mathlib.Data.Fintype.Card
import Mathlib.Data.Fintype.EquivFin
import Mathlib.Data.Fintype.Pigeonhole
import Mathlib.Data.List.Permutation
import Mathlib.Data.Finset.Prod
import Mathlib.Data.List.Perm.Lattice
import Mathlib.Data.Set.Finite.Basic
import Mathlib.Logic.Function.Iterate
/-
Closing a finite set under left multiplication by generators.
-/
namespace Phenum
open Spec

section
variable {α : Type} [DecidableEq α]

/-- `ap` is a left-cancellative product on the finite set `U`. -/
structure IsMul (ap : α → α → Py α) (f : α → α → α) (U : Finset α) : Prop where
  ok : ∀ a ∈ U, ∀ b ∈ U, ap a b = .ok (f a b)
  mem : ∀ a ∈ U, ∀ b ∈ U, f a b ∈ U
  inj : ∀ a ∈ U, ∀ x ∈ U, ∀ y ∈ U, f a x = f a y → x = y

/-- contained in every set that contains the generators and is closed under multiplying by them -/
def Reach (f : α → α → α) (gens : List α) (x : α) : Prop :=
  ∀ P : α → Prop, (∀ i ∈ gens, P i) → (∀ i ∈ gens, ∀ h, P h → P (f i h)) → P x

theorem Reach.gen {f : α → α → α} {gens : List α} {i : α} (h : i ∈ gens) : Reach f gens i := fun _ h1 _ => h1 i h

theorem Reach.mul {f : α → α → α} {gens : List α} {i x : α} (h : i ∈ gens) (hx : Reach f gens x) : Reach f gens (f i x) :=
  fun P h1 h2 => h2 i h x (hx P h1 h2)

theorem mem_addNew {l : List α} {x y : α} : y ∈ addNew l x ↔ y ∈ l ∨ y = x := by
  unfold addNew
  split
  · constructor
    · exact Or.inl
    · rintro (h | rfl)
      · exact h
      · assumption
  · simp

theorem nodup_addNew {l : List α} {x : α} (h : l.Nodup) : (addNew l x).Nodup := by
  unfold addNew
  split
  · exact h
  · rename_i hx
    rw [List.nodup_append]
    refine ⟨h, by simp, ?_⟩
    intro a ha b hb e
    rw [List.mem_singleton] at hb
    exact hx (hb ▸ e ▸ ha)

variable {ap : α → α → Py α} {f : α → α → α} {U : Finset α} (H : IsMul ap f U) {gens : List α} (hg : ∀ i ∈ gens, i ∈ U)
include H

omit [DecidableEq α] in
theorem IsMul.iter_mem {i : α} (hi : i ∈ U) {c : α} (hc : c ∈ U) (k : ℕ) : (f i)^[k] c ∈ U := by
  induction k with
  | zero => exact hc
  | succ k ih => rw [Function.iterate_succ_apply']; exact H.mem i hi _ ih

omit [DecidableEq α] in
theorem IsMul.period {i : α} (hi : i ∈ U) {c : α} (hc : c ∈ U) : ∃ m, 0 < m ∧ (f i)^[m] c = c := by
  obtain ⟨a, b, hab, e⟩ := Finite.exists_ne_map_eq_of_infinite (fun k : ℕ => (⟨(f i)^[k] c, H.iter_mem hi hc k⟩ : U))
  have e' : (f i)^[a] c = (f i)^[b] c := congrArg Subtype.val e
  have key : ∀ a b, a < b → (f i)^[a] c = (f i)^[b] c → (f i)^[b - a] c = c := by
    intro a
    induction a with
    | zero => intro b _ e; exact e.symm
    | succ a ih =>
      intro b hb e
      obtain ⟨b, rfl⟩ : ∃ b', b = b' + 1 := ⟨b - 1, by omega⟩
      rw [Function.iterate_succ_apply', Function.iterate_succ_apply'] at e
      have := ih b (by omega) (H.inj i hi _ (H.iter_mem hi hc a) _ (H.iter_mem hi hc b) e)
      rwa [Nat.add_sub_add_right]
  rcases Nat.lt_or_gt_of_ne hab with h | h
  · exact ⟨b - a, by omega, key a b h e'⟩
  · exact ⟨a - b, by omega, key b a h e'.symm⟩

/-- what is kept about the collected elements -/
def Coll (f : α → α → α) (U : Finset α) (gens g : List α) : Prop := g.Nodup ∧ ∀ x ∈ g, x ∈ U ∧ Reach f gens x

omit H in
theorem Coll.add {g : List α} (h : Coll f U gens g) {x : α} (hx : x ∈ U) (hr : Reach f gens x) : Coll f U gens (addNew g x) := by
  refine ⟨nodup_addNew h.1, fun y hy => ?_⟩
  rcases mem_addNew.mp hy with h' | rfl
  · exact h.2 y h'
  · exact ⟨hx, hr⟩

include hg in
theorem orbitLoop_ok {i c : α} (hi : i ∈ gens) (hc : c ∈ U) (hr : Reach f gens c) :
    ∀ d g, (∃ k, 0 < k ∧ d = (f i)^[k] c) → Coll f U gens g →
    ∃ s, orbitLoop ap i c (d, g) = some (.ok s) ∧ Coll f U gens s.2 ∧ ∀ x ∈ g, x ∈ s.2 := by
  obtain ⟨m, hm, hper⟩ := H.period (hg i hi) hc
  have hreach : ∀ k, Reach f gens ((f i)^[k] c) := by
    intro k
    induction k with
    | zero => exact hr
    | succ k ih => rw [Function.iterate_succ_apply']; exact ih.mul hi
  have key : ∀ j k g, (k + j) % m = 0 → Coll f U gens g →
      ∃ s, orbitLoop ap i c ((f i)^[k] c, g) = some (.ok s) ∧ Coll f U gens s.2 ∧ ∀ x ∈ g, x ∈ s.2 := by
    intro j
    induction j with
    | zero =>
      intro k g hk hg'
      unfold orbitLoop
      rw [pyWhile_unfold]
      have : (f i)^[k] c = c := by
        obtain ⟨q, rfl⟩ := Nat.dvd_of_mod_eq_zero hk
        rw [Function.iterate_mul]
        exact Function.iterate_fixed hper q
      rw [if_neg (by simpa using this)]
      exact ⟨_, rfl, hg', fun x h => h⟩
    | succ j ih =>
      intro k g hk hg'
      unfold orbitLoop
      rw [pyWhile_unfold]
      by_cases e : (f i)^[k] c = c
      · rw [if_neg (by simpa using e)]
        exact ⟨_, rfl, hg', fun x h => h⟩
      · rw [if_pos (by simpa using e), H.ok i (hg i hi) _ (H.iter_mem (hg i hi) hc k)]
        have e2 : f i ((f i)^[k] c) = (f i)^[k + 1] c := (Function.iterate_succ_apply' _ _ _).symm
        obtain ⟨s, h1, h2, h3⟩ := ih (k + 1) (addNew g ((f i)^[k + 1] c)) (by rw [← hk]; congr 1; omega)
          (hg'.add (H.iter_mem (hg i hi) hc _) (hreach _))
        refine ⟨s, ?_, h2, fun x hx => h3 x (mem_addNew.mpr (Or.inl hx))⟩
        rw [e2]
        exact h1
  rintro d g ⟨k, hk, rfl⟩ hg'
  exact key (m * k - k) k g (by
    have : k ≤ m * k := Nat.le_mul_of_pos_left k hm
    rw [Nat.add_sub_cancel' this]; exact Nat.mul_mod_right m k) hg'

include hg in
theorem pairLoop_ok : ∀ (pairs : List (α × α)) (_ : ∀ p ∈ pairs, p.1 ∈ gens ∧ p.2 ∈ gens) (g : List α), Coll f U gens g →
    ∃ g', pairLoop ap pairs g = some (.ok g') ∧ Coll f U gens g' ∧ (∀ x ∈ g, x ∈ g') ∧ ∀ p ∈ pairs, f p.1 p.2 ∈ g'
  | [], _, g, h => ⟨g, rfl, h, fun _ h => h, by simp⟩
  | (i, j) :: rest, hp, g, h => by
    obtain ⟨hi, hj⟩ := hp (i, j) (by simp)
    have hc : f i j ∈ U := H.mem i (hg i hi) j (hg j hj)
    have hrc : Reach f gens (f i j) := (Reach.gen hj).mul hi
    have hd : f i (f i j) ∈ U := H.mem i (hg i hi) _ hc
    obtain ⟨s, h1, h2, h3⟩ := orbitLoop_ok H hg hi hc hrc (f i (f i j)) (addNew (addNew g (f i j)) (f i (f i j)))
      ⟨1, by decide, rfl⟩ ((h.add hc hrc).add hd (hrc.mul hi))
    obtain ⟨g', i1, i2, i3, i4⟩ := pairLoop_ok rest (fun p hp' => hp p (by simp [hp'])) s.2 h2
    have h4 : ∀ x ∈ addNew g (f i j), x ∈ g' := fun x hx => i3 x (h3 x (mem_addNew.mpr (Or.inl hx)))
    refine ⟨g', ?_, i2, fun x hx => h4 x (mem_addNew.mpr (Or.inl hx)), ?_⟩
    · simp only [pairLoop, pairStep, H.ok i (hg i hi) j (hg j hj), H.ok i (hg i hi) _ hc, h1, i1]
    · intro p hp'
      rcases List.mem_cons.mp hp' with rfl | hp'
      · exact h4 _ (mem_addNew.mpr (Or.inr rfl))
      · exact i4 p hp'

include hg in
theorem newElems_ok {g : List α} (hcoll : Coll f U gens g) : ∀ (pairs : List (α × α))
    (_ : ∀ p ∈ pairs, p.1 ∈ gens ∧ p.2 ∈ g) (g2 : List α), Coll f U gens (g ++ g2) →
    ∃ g2', newElems ap g pairs g2 = .ok g2' ∧ Coll f U gens (g ++ g2') ∧ (∀ x ∈ g2, x ∈ g2') ∧
      ∀ p ∈ pairs, f p.1 p.2 ∈ g ++ g2'
  | [], _, g2, h => ⟨g2, rfl, h, fun _ h => h, by simp⟩
  | (i, x) :: rest, hp, g2, h => by
    obtain ⟨hi, hx⟩ := hp (i, x) (by simp)
    have hd : f i x ∈ U := H.mem i (hg i hi) x (hcoll.2 x hx).1
    have hr : Reach f gens (f i x) := (hcoll.2 x hx).2.mul hi
    have hstep : Coll f U gens (g ++ if f i x ∉ g ∧ f i x ∉ g2 then g2 ++ [f i x] else g2) := by
      split
      · rename_i hn
        have := h.add hd hr
        unfold addNew at this
        rw [if_neg (by simpa using hn)] at this
        rwa [← List.append_assoc]
      · exact h
    obtain ⟨g2', i1, i2, i3, i4⟩ := newElems_ok hcoll rest (fun p hp' => hp p (by simp [hp'])) _ hstep
    have hsub : ∀ y ∈ g2, y ∈ g2' := fun y hy => i3 y (by split <;> simp [hy])
    refine ⟨g2', ?_, i2, hsub, ?_⟩
    · simp only [newElems, H.ok i (hg i hi) x (hcoll.2 x hx).1]
      exact i1
    · intro p hp'
      rcases List.mem_cons.mp hp' with rfl | hp'
      · rw [List.mem_append]
        by_cases h1 : f i x ∈ g
        · exact Or.inl h1
        · by_cases h2 : f i x ∈ g2
          · exact Or.inr (hsub _ h2)
          · exact Or.inr (i3 _ (by rw [if_pos ⟨h1, h2⟩]; simp))
      · exact i4 p hp'

include hg in
theorem closeLoop_ok (g0 : List α) (h0 : Coll f U gens g0) :
    ∃ s, closeLoop ap gens (true, g0) = some (.ok s) ∧ Coll f U gens s.2 ∧ (∀ x ∈ g0, x ∈ s.2) ∧
      ∀ i ∈ gens, ∀ h ∈ s.2, f i h ∈ s.2 := by
  have hcard : ∀ g, Coll f U gens g → g.length ≤ U.card := by
    intro g h
    rw [← List.toFinset_card_of_nodup h.1]
    apply Finset.card_le_card
    intro x hx
    exact (h.2 x (List.mem_toFinset.mp hx)).1
  obtain ⟨s, h1, ⟨h2, h3, h4⟩, h5⟩ := pyWhile_total (fun s : Bool × List α => s.1) (fun s => do
      let group2 ← newElems ap s.2 (gens.flatMap (fun i => s.2.map (fun h => (i, h)))) []
      .ok (!group2.isEmpty, s.2 ++ group2))
    (fun s => Coll f U gens s.2 ∧ (∀ x ∈ g0, x ∈ s.2) ∧ (s.1 = false → ∀ i ∈ gens, ∀ h ∈ s.2, f i h ∈ s.2))
    (fun s => 2 * (U.card - s.2.length) + s.1.toNat) (by
      rintro ⟨b, g⟩ ⟨hc, hs, -⟩ hb
      simp only at hb hc hs
      subst hb
      obtain ⟨g2, i1, i2, -, i4⟩ := newElems_ok H hg hc (gens.flatMap (fun i => g.map (fun h => (i, h)))) (by
        rintro ⟨i, x⟩ hp
        rw [List.mem_flatMap] at hp
        obtain ⟨i', hi', hp⟩ := hp
        obtain ⟨x', hx', e⟩ := List.mem_map.mp hp
        cases e
        exact ⟨hi', hx'⟩) [] (by simpa using hc)
      refine ⟨(!g2.isEmpty, g ++ g2), by simp only [i1]; rfl, ⟨i2, fun x hx => by simp [hs x hx], ?_⟩, ?_⟩
      · intro he i hi h hh
        have hnil : g2 = [] := by simpa using he
        subst hnil
        simp only [List.append_nil] at hh i4 ⊢
        exact i4 (i, h) (List.mem_flatMap.mpr ⟨i, hi, List.mem_map.mpr ⟨h, hh, rfl⟩⟩)
      · have hl := hcard _ i2
        rw [List.length_append] at hl
        simp only [List.length_append, Bool.toNat_true]
        cases g2 with
        | nil => simp
        | cons a t => simp only [List.length_cons] at hl ⊢; simp; omega)
    (true, g0) ⟨h0, fun _ h => h, by simp⟩
  exact ⟨s, h1, h2, h3, h4 (by simpa using h5)⟩

include hg in
theorem closeUp_ok (pairs : List (α × α)) (hp : ∀ p ∈ pairs, p.1 ∈ gens ∧ p.2 ∈ gens) :
    ∃ L, closeUp ap gens pairs = some (.ok L) ∧ L.Nodup ∧ (∀ x ∈ L, x ∈ U ∧ Reach f gens x) ∧
      (∀ i ∈ gens, ∀ h ∈ L, f i h ∈ L) ∧ ∀ p ∈ pairs, f p.1 p.2 ∈ L := by
  obtain ⟨g, h1, h2, -, h4⟩ := pairLoop_ok H hg pairs hp [] ⟨List.nodup_nil, by simp⟩
  obtain ⟨s, i1, i2, i3, i4⟩ := closeLoop_ok H hg g h2
  exact ⟨s.2, by simp only [closeUp, h1, i1], i2.1, i2.2, i4, fun p hp' => i3 _ (h4 p hp')⟩

/-- A non-empty finite set closed under an associative, left cancellative product with right identity `e` contains
`e` and inverses. -/
theorem closed_is_group {S : List α} (hS : ∀ x ∈ S, x ∈ U) (hne : S ≠ []) (hmul : ∀ x ∈ S, ∀ y ∈ S, f x y ∈ S) {e : α}
    (heU : e ∈ U) (hid : ∀ x ∈ U, f x e = x) : e ∈ S ∧ ∀ x ∈ S, ∃ y ∈ S, f x y = e := by
  have hsurj : ∀ x ∈ S, ∀ z ∈ S, ∃ y ∈ S, f x y = z := by
    intro x hx z hz
    have hinj : Set.InjOn (f x) (S.toFinset : Set α) := by
      intro a ha b hb e
      exact H.inj x (hS x hx) a (hS a (by simpa using ha)) b (hS b (by simpa using hb)) e
    have hmaps : ∀ a ∈ S.toFinset, f x a ∈ S.toFinset := by
      intro a ha
      rw [List.mem_toFinset] at ha ⊢
      exact hmul x hx a ha
    have := Finset.surj_on_of_inj_on_of_card_le (s := S.toFinset) (t := S.toFinset) (fun a _ => f x a) (fun a ha => hmaps a ha)
      (fun a b ha hb e => hinj (by simpa using ha) (by simpa using hb) e) (le_refl _) z (by simpa using hz)
    obtain ⟨y, hy, e⟩ := this
    exact ⟨y, by simpa using hy, e.symm⟩
  have he : e ∈ S := by
    obtain ⟨x, hx⟩ := List.exists_mem_of_ne_nil S hne
    obtain ⟨y, hy, e'⟩ := hsurj x hx x hx
    have : y = e := H.inj x (hS x hx) y (hS y hy) e heU (by rw [e', hid x (hS x hx)])
    rwa [← this]
  exact ⟨he, fun x hx => hsurj x hx e he⟩

include hg in
/-- The closure is closed under the product, if the latter is associative. -/
theorem closeUp_mul {L : List α} (hL : ∀ x ∈ L, x ∈ U ∧ Reach f gens x) (hc : ∀ i ∈ gens, ∀ h ∈ L, f i h ∈ L)
    (hassoc : ∀ a ∈ U, ∀ b ∈ U, ∀ c ∈ U, f (f a b) c = f a (f b c)) : ∀ x ∈ L, ∀ y ∈ L, f x y ∈ L := by
  intro x hx
  have := (hL x hx).2 (fun x => x ∈ U ∧ ∀ y ∈ L, f x y ∈ L) (fun i hi => ⟨hg i hi, hc i hi⟩) (by
    rintro i hi h ⟨hU, hh⟩
    refine ⟨H.mem i (hg i hi) h hU, fun y hy => ?_⟩
    rw [hassoc i (hg i hi) h hU y (hL y hy).1]
    exact hc i hi _ (hh y hy))
  exact this.2

end

/-- all permutations of the positions below `n` -/
def permsOf (n : ℕ) : Finset (List ℕ) := (List.range n).permutations.toFinset

theorem mem_permsOf {n : ℕ} {σ : List ℕ} : σ ∈ permsOf n ↔ σ.Perm (List.range n) := by
  unfold permsOf
  rw [List.mem_toFinset, List.mem_permutations]

theorem permute_inj {n : ℕ} {a x y : List ℕ} (ha : a.Perm (List.range n)) (hx : x.length = n) (hy : y.length = n)
    (e : permute a x = permute a y) : x = y := by
  apply List.ext_getElem (by omega)
  intro j h1 h2
  have hj : j ∈ a := ha.mem_iff.mpr (by simpa [← hx] using h1)
  obtain ⟨k, hk, rfl⟩ := List.getElem_of_mem hj
  have e1 := permute_getElem? a x (by rw [hx]; exact perm_range_lt ha) k
  have e2 := permute_getElem? a y (by rw [hy]; exact perm_range_lt ha) k
  rw [e, e2, List.getElem?_eq_getElem hk] at e1
  simp only [Option.bind_some] at e1
  rw [List.getElem?_eq_getElem h1, List.getElem?_eq_getElem h2] at e1
  exact (Option.some.inj e1).symm

theorem permute_mem_permsOf {n : ℕ} {a b : List ℕ} (ha : a.Perm (List.range n)) (hb : b.Perm (List.range n)) :
    (permute a b).Perm (List.range n) := by
  refine (permute_perm a b ?_).trans hb
  rw [perm_range_length hb]; exact ha

theorem permute_assoc' {n : ℕ} {a b c : List ℕ} (ha : a.Perm (List.range n)) (hb : b.Perm (List.range n))
    (hc : c.Perm (List.range n)) : permute (permute a b) c = permute a (permute b c) := by
  have hb' : ∀ j ∈ b, j < c.length := by rw [perm_range_length hc]; exact perm_range_lt hb
  have ha' : ∀ j ∈ a, j < b.length := by rw [perm_range_length hb]; exact perm_range_lt ha
  exact (permute_permute b a c hb' ha').symm

theorem permute_one {n : ℕ} {a : List ℕ} (ha : a.Perm (List.range n)) : permute a (List.range n) = a := by
  apply List.ext_getElem?
  intro j
  rw [permute_getElem? a _ (by rw [List.length_range]; exact perm_range_lt ha)]
  cases h : a[j]? with
  | none => rfl
  | some v =>
    have : v < n := perm_range_lt ha v (List.mem_of_getElem? h)
    simp [this]

theorem isMul_permute {n : ℕ} (hn : 2 ≤ n) : IsMul igetApply permute (permsOf n) where
  ok := by
    intro a ha b hb
    rw [mem_permsOf] at ha hb
    unfold igetApply
    rw [if_neg (by rw [perm_range_length ha]; omega),
      pyGather_eq a b (by rw [perm_range_length hb]; exact perm_range_lt ha)]
  mem := by
    intro a ha b hb
    rw [mem_permsOf] at *
    exact permute_mem_permsOf ha hb
  inj := by
    intro a ha x hx y hy e
    rw [mem_permsOf] at *
    exact permute_inj ha (perm_range_length hx) (perm_range_length hy) e

/-- the componentwise product used by `_group` -/
def opMul (a b : Op) : Op := (permute a.1 b.1, permute a.2 b.2)

theorem isMul_op {n d : ℕ} : IsMul opApply opMul (permsOf n ×ˢ permsOf d) where
  ok := by
    intro a ha b hb
    rw [Finset.mem_product, mem_permsOf, mem_permsOf] at ha hb
    unfold opApply opMul
    rw [pyGather_eq a.1 b.1 (by rw [perm_range_length hb.1]; exact perm_range_lt ha.1),
      pyGather_eq a.2 b.2 (by rw [perm_range_length hb.2]; exact perm_range_lt ha.2)]
    rfl
  mem := by
    intro a ha b hb
    rw [Finset.mem_product, mem_permsOf, mem_permsOf] at *
    exact ⟨permute_mem_permsOf ha.1 hb.1, permute_mem_permsOf ha.2 hb.2⟩
  inj := by
    intro a ha x hx y hy e
    rw [Finset.mem_product, mem_permsOf, mem_permsOf] at *
    unfold opMul at e
    simp only [Prod.mk.injEq] at e
    exact Prod.ext (permute_inj ha.1 (perm_range_length hx.1) (perm_range_length hy.1) e.1)
      (permute_inj ha.2 (perm_range_length hx.2) (perm_range_length hy.2) e.2)

/-- the product of operations under which symmetry groups are closed (`IsOpGroup`), written so that the left factor acts
on the sites first -/
def opComp (a b : Op) : Op := (permute a.1 b.1, permute b.2 a.2)

end Phenum

namespace Phenum
open Spec

theorem left_inverses {α : Type} {f : α → α → α} {e : α} {S : List α} (hass : ∀ x ∈ S, ∀ y ∈ S, ∀ z ∈ S, f (f x y) z = f x (f y z))
    (h1 : ∀ x ∈ S, f x e = x) (h2 : ∀ x ∈ S, f e x = x) (hinv : ∀ x ∈ S, ∃ y ∈ S, f x y = e) :
    ∀ x ∈ S, ∃ y ∈ S, f y x = e := by
  intro x hx
  obtain ⟨y, hy, e1⟩ := hinv x hx
  obtain ⟨z, hz, e2⟩ := hinv y hy
  have : x = z := by
    have := hass x hx y hy z hz
    rw [e1, e2, h1 x hx, h2 z hz] at this
    exact this.symm
  exact ⟨y, hy, by rw [this]; exact e2⟩

theorem one_permute {n : ℕ} {a : List ℕ} (ha : a.Perm (List.range n)) : permute (List.range n) a = a := by
  have := permute_range a
  rwa [perm_range_length ha] at this

theorem isMul_opComp {n d : ℕ} : IsMul (fun a b => .ok (opComp a b)) opComp (permsOf n ×ˢ permsOf d) where
  ok := fun _ _ _ _ => rfl
  mem := by
    intro a ha b hb
    rw [Finset.mem_product, mem_permsOf, mem_permsOf] at *
    exact ⟨permute_mem_permsOf ha.1 hb.1, permute_mem_permsOf hb.2 ha.2⟩
  inj := by
    intro a ha x hx y hy e
    rw [Finset.mem_product, mem_permsOf, mem_permsOf] at *
    unfold opComp at e
    simp only [Prod.mk.injEq] at e
    refine Prod.ext (permute_inj ha.1 (perm_range_length hx.1) (perm_range_length hy.1) e.1) ?_
    have hnd : a.2.Nodup := ha.2.nodup_iff.mpr List.nodup_range
    have hx2 : ∀ j ∈ x.2, j < a.2.length := by rw [perm_range_length ha.2]; exact perm_range_lt hx.2
    have hy2 : ∀ j ∈ y.2, j < a.2.length := by rw [perm_range_length ha.2]; exact perm_range_lt hy.2
    apply List.ext_getElem (by rw [perm_range_length hx.2, perm_range_length hy.2])
    intro j h1 h2
    have e1 := permute_getElem? x.2 a.2 hx2 j
    have e2 := permute_getElem? y.2 a.2 hy2 j
    rw [e.2, e2, List.getElem?_eq_getElem h1, List.getElem?_eq_getElem h2] at e1
    simp only [Option.bind_some] at e1
    have := (List.getElem?_inj (hy2 _ (List.getElem_mem h2)) hnd).mp e1
    exact this.symm

theorem aGroupLoop_ok : ∀ (l : List (List ℕ × Op)) (_ : ∀ p ∈ l, ∀ j ∈ p.1, j < p.2.1.length) (g : List Op), g.Nodup →
    ∃ L, aGroupLoop l g = .ok L ∧ L.Nodup ∧ ∀ x, x ∈ L ↔ x ∈ g ∨ ∃ p ∈ l, x = (permute p.1 p.2.1, p.2.2)
  | [], _, g, h => ⟨g, rfl, h, by simp⟩
  | (i, j) :: rest, hp, g, h => by
    obtain ⟨L, h1, h2, h3⟩ := aGroupLoop_ok rest (fun p hp' => hp p (by simp [hp'])) (addNew g (permute i j.1, j.2)) (nodup_addNew h)
    refine ⟨L, ?_, h2, ?_⟩
    · simp only [aGroupLoop, pyGather_eq i j.1 (hp (i, j) (by simp))]
      exact h1
    · intro x
      rw [h3, mem_addNew]
      simp only [List.mem_cons, exists_eq_or_imp, or_assoc]

end Phenum
