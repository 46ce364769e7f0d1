import Verif.Proof.Cycles
import Verif.Proof.PolyaSeq
import Mathlib.Algebra.BigOperators.Ring.Finset
import Mathlib.Data.Finset.Card
/-
The generating function of the configurations fixed by an operation is a product over the cycles.
-/
namespace Phenum
open Spec
set_option linter.unusedSectionVars false

variable {α : Type} [DecidableEq α] [Inhabited α]

theorem pyProduct_nodup {β : Type} (ls : List (List β)) (h : ∀ l ∈ ls, l.Nodup) : (pyProduct ls).Nodup := by
  induction ls with
  | nil => simp [pyProduct]
  | cons l ls ih =>
    have hl := h l (by simp)
    have ih' := ih (fun l' hl' => h l' (List.mem_cons_of_mem _ hl'))
    simp only [pyProduct]
    rw [List.nodup_flatMap]
    refine ⟨fun a _ => ih'.map (fun x y e => (List.cons_inj_right a).mp e), ?_⟩
    apply List.Pairwise.imp _ hl
    intro a b hab s hs hs'
    obtain ⟨r, -, rfl⟩ := List.mem_map.mp hs
    obtain ⟨r', -, e⟩ := List.mem_map.mp hs'
    exact hab (List.cons.inj e).1.symm

theorem pyProduct_card {β : Type} (ls : List (List β)) : (pyProduct ls).length = (ls.map List.length).prod := by
  induction ls with
  | nil => simp [pyProduct]
  | cons l ls ih =>
    simp only [pyProduct, List.map_cons, List.prod_cons, List.length_flatMap, List.length_map, ih]
    simp

/-- all words of length `n` over `A` -/
def words (A : List α) (n : Nat) : List (List α) := pyProduct (List.replicate n A)

theorem mem_words {A : List α} {n : Nat} {z : List α} : z ∈ words A n ↔ z.length = n ∧ ∀ s ∈ z, s ∈ A := by
  unfold words
  rw [mem_pyProduct]
  constructor
  · intro h
    refine ⟨by simpa using h.length_eq, ?_⟩
    intro s hs
    obtain ⟨i, hi, rfl⟩ := List.getElem_of_mem hs
    have hl := h.length_eq
    have := List.Forall₂.get h hi (by omega)
    simpa using this
  · rintro ⟨rfl, h⟩
    rw [List.forall₂_iff_get]
    refine ⟨by simp, ?_⟩
    intro i h1 h2
    simpa using h _ (List.getElem_mem h1)

theorem words_nodup {A : List α} (hA : A.Nodup) (n : Nat) : (words A n).Nodup :=
  pyProduct_nodup _ (fun l hl => by rw [(List.mem_replicate.mp hl).2]; exact hA)

theorem words_length (A : List α) (n : Nat) : (words A n).length = A.length ^ n := by
  unfold words; rw [pyProduct_card]; simp

/-- the values on the cycles -/
def blocks (cs : List (List Nat)) (z : List α) : List (List α) := cs.map (fun c => c.map (fun j => z.getD j default))

theorem blocks_flatten (cs : List (List Nat)) (z : List α) :
    (blocks cs z).flatten = cs.flatten.map (fun j => z.getD j default) := by
  unfold blocks
  rw [List.map_flatten]

theorem range_map_getD (z : List α) : (List.range z.length).map (fun j => z.getD j default) = z := by
  apply List.ext_getElem (by simp)
  intro i h1 h2
  simp [h2]

theorem blocks_perm {cs : List (List Nat)} {z : List α} (h : cs.flatten.Perm (List.range z.length)) :
    (blocks cs z).flatten.Perm z := by
  rw [blocks_flatten]
  have := h.map (fun j => z.getD j default)
  rwa [range_map_getD] at this

theorem blocks_inj {n : Nat} {cs : List (List Nat)} (h : cs.flatten.Perm (List.range n)) {z w : List α}
    (hz : z.length = n) (hw : w.length = n) (e : blocks cs z = blocks cs w) : z = w := by
  have e2 := congrArg List.flatten e
  rw [blocks_flatten, blocks_flatten] at e2
  rw [List.map_inj_left] at e2
  apply List.ext_getElem (by omega)
  intro i h1 h2
  have := e2 i (h.mem_iff.mpr (List.mem_range.mpr (by omega)))
  simpa [h1, h2] using this

theorem blocks_image {n : Nat} {cs : List (List Nat)} (h : cs.flatten.Perm (List.range n)) {A : List α} (hA : A.Nodup) :
    (words A n).toFinset.image (blocks cs) = (pyProduct (cs.map (fun c => words A c.length))).toFinset := by
  apply Finset.eq_of_subset_of_card_le
  · intro Z hZ
    obtain ⟨z, hz, rfl⟩ := Finset.mem_image.mp hZ
    rw [List.mem_toFinset, mem_words] at hz
    rw [List.mem_toFinset, mem_pyProduct]
    unfold blocks
    rw [List.forall₂_iff_get]
    refine ⟨by simp, ?_⟩
    intro i h1 h2
    simp only [List.get_eq_getElem, List.getElem_map]
    rw [mem_words]
    refine ⟨by simp, ?_⟩
    intro s hs
    obtain ⟨j, hj, rfl⟩ := List.mem_map.mp hs
    have hi : i < cs.length := by simpa using h1
    have : j ∈ cs.flatten := List.mem_flatten.mpr ⟨cs[i], List.getElem_mem hi, hj⟩
    have hjn : j < z.length := by rw [hz.1]; exact List.mem_range.mp (h.mem_iff.mp this)
    apply hz.2
    simp [hjn]
  · rw [Finset.card_image_of_injOn, List.toFinset_card_of_nodup (words_nodup hA n),
      List.toFinset_card_of_nodup (pyProduct_nodup _ _), pyProduct_card, words_length]
    · have hn : (cs.map List.length).sum = n := by
        rw [← List.length_flatten, h.length_eq, List.length_range]
      rw [← hn, List.map_map]
      clear h hn
      induction cs with
      | nil => simp
      | cons c cs ih =>
        simp only [List.map_cons, List.prod_cons, List.sum_cons, Function.comp]
        rw [pow_add, words_length]
        exact Nat.mul_le_mul_left _ ih
    · intro l hl
      obtain ⟨c, -, rfl⟩ := List.mem_map.mp hl
      exact words_nodup hA _
    · intro z hz w hw e
      simp only [List.coe_toFinset, Set.mem_ofPred_eq, mem_words] at hz hw
      exact blocks_inj h hz.1 hw.1 e

/-- `h` reproduces itself when moved one step around its cycle -/
def rotFix (T : α → α) (h : List α) : Prop :=
  ∀ i (hi : i < h.length), h[i] = T (h[(i + 1) % h.length]'(Nat.mod_lt _ (by omega)))

instance (T : α → α) (h : List α) : Decidable (rotFix T h) := by unfold rotFix; infer_instance

theorem fixed_iff_blocks {n : Nat} {σ : List Nat} (hσ : σ.Perm (List.range n)) {cs : List (List Nat)}
    (hd : CycleDecomp σ cs) (T : α → α) {z : List α} (hz : z.length = n) :
    (permute σ z).map T = z ↔ ∀ b ∈ blocks cs z, rotFix T b := by
  have hn := perm_range_length hσ
  obtain ⟨hp, hc⟩ := hd
  rw [hn] at hp
  have hlt : ∀ j ∈ σ, j < z.length := by rw [hz]; exact perm_range_lt hσ
  -- pointwise form
  have pw : (permute σ z).map T = z ↔ ∀ j < n, z.getD j default = T (z.getD (pf σ j) default) := by
    have hpl : (permute σ z).length = n := by rw [permute_length _ _ hlt, hn]
    have hent : ∀ j (hj : j < n), (permute σ z)[j]'(by omega) = z.getD (pf σ j) default := by
      intro j hj
      rw [permute_getElem σ z hlt j (by omega)]
      have h1 := pf_get hσ hj
      rw [List.getElem?_eq_getElem (by omega), Option.some_inj] at h1
      have h2 := pf_lt hσ hj
      simp [h1, hz, h2]
    constructor
    · intro e j hj
      have : ((permute σ z).map T)[j]'(by simp; omega) = z[j]'(by omega) := by simp only [e]
      rw [List.getElem_map, hent j hj] at this
      rw [this]; simp [hz, hj]
    · intro e
      apply List.ext_getElem (by simp; omega)
      intro j h1 h2
      rw [List.getElem_map, hent j (by omega), ← e j (by omega)]
      simp [h2]
  rw [pw]
  constructor
  · intro e b hb
    obtain ⟨c, hcm, rfl⟩ := List.mem_map.mp hb
    have hcyc := hc c hcm
    intro i hi
    rw [List.length_map] at hi
    simp only [List.getElem_map, List.length_map]
    have hcl : ∀ j ∈ c, j < n := fun j hj => List.mem_range.mp
      (hp.mem_iff.mp (List.mem_flatten.mpr ⟨c, hcm, hj⟩))
    rw [e _ (hcl _ (List.getElem_mem hi))]
    have h := hcyc.2 i hi
    rw [pf_get hσ (hcl _ (List.getElem_mem _)), Option.some_inj] at h
    rw [h]
  · intro e j hj
    obtain ⟨c, hcm, hjc⟩ := List.mem_flatten.mp (hp.mem_iff.mpr (List.mem_range.mpr hj))
    obtain ⟨i, hi, rfl⟩ := List.getElem_of_mem hjc
    have h := (hc c hcm).2 i hi
    rw [pf_get hσ hj, Option.some_inj] at h
    have hb := e _ (List.mem_map.mpr ⟨c, hcm, rfl⟩) i (by simpa using hi)
    simp only [List.getElem_map, List.length_map] at hb
    rw [hb, h]

/-- one cycle: the whole block is determined by one entry -/
theorem one_cycle {R : Type} [CommSemiring R] {A : List α} (hA : A.Nodup) (T : α → α) (hT : ∀ a ∈ A, T a ∈ A)
    (x : α → R) (hx : ∀ a ∈ A, x (T a) = x a) (r : Nat) (hr : 1 ≤ r) :
    ((words A r).map (fun h => if rotFix T h then (h.map x).prod else 0)).sum =
      (A.map (fun a => if T^[r] a = a then x a ^ r else 0)).sum := by
  have hTi : ∀ m, ∀ a ∈ A, T^[m] a ∈ A := by
    intro m
    induction m with
    | zero => exact fun a h => h
    | succ m ih => intro a h; rw [Function.iterate_succ_apply']; exact hT _ (ih a h)
  have hxi : ∀ m, ∀ a ∈ A, x (T^[m] a) = x a := by
    intro m
    induction m with
    | zero => exact fun a h => rfl
    | succ m ih => intro a h; rw [Function.iterate_succ_apply', hx _ (hTi m a h), ih a h]
  rw [← List.sum_toFinset _ (words_nodup hA r), ← List.sum_toFinset _ hA, ← Finset.sum_filter, ← Finset.sum_filter]
  -- entries of a block fixed under rotation
  have ent : ∀ (h : List α) (hl : h.length = r), rotFix T h → ∀ i (hi : i < r), h[i]'(by omega) = T^[r - i] (h[0]'(by omega)) := by
    intro h hl hf
    have : ∀ d, ∀ i (hi : i < r), r - i = d → h[i]'(by omega) = T^[d] (h[0]'(by omega)) := by
      intro d
      induction d with
      | zero => intro i hi hd; omega
      | succ d ih =>
        intro i hi hd
        rw [hf i (by omega), Function.iterate_succ_apply']
        congr 1
        by_cases hi1 : i + 1 = r
        · have hd0 : d = 0 := by omega
          subst hd0
          simp [hl, hi1]
        · have := ih (i + 1) (by omega) (by omega)
          rw [← this]
          congr 1
          rw [hl, Nat.mod_eq_of_lt (by omega)]
    exact fun i hi => this _ i hi rfl
  apply Finset.sum_bij' (fun h _ => h.getD 0 default)
    (fun a _ => (List.range r).map (fun i => T^[r - i] a))
  · intro h hh
    simp only [Finset.mem_filter, List.mem_toFinset, mem_words] at hh ⊢
    obtain ⟨⟨hl, hm⟩, hf⟩ := hh
    have h0 : h.getD 0 default = h[0]'(by omega) := by simp [show 0 < h.length by omega]
    rw [h0]
    refine ⟨hm _ (List.getElem_mem _), ?_⟩
    have := ent h hl hf 0 (by omega)
    rw [Nat.sub_zero] at this
    exact this.symm
  · intro a ha
    simp only [Finset.mem_filter, List.mem_toFinset, mem_words] at ha ⊢
    obtain ⟨hm, hf⟩ := ha
    refine ⟨⟨by simp, ?_⟩, ?_⟩
    · intro s hs
      obtain ⟨i, -, rfl⟩ := List.mem_map.mp hs
      exact hTi _ a hm
    · intro i hi
      rw [List.length_map, List.length_range] at hi
      simp only [List.getElem_map, List.getElem_range, List.length_map, List.length_range]
      rw [← Function.iterate_succ_apply' T]
      by_cases hi1 : i + 1 = r
      · rw [hi1, Nat.mod_self, Nat.sub_zero, Nat.succ_eq_add_one, Function.iterate_succ_apply', hf,
          show r - i = 1 by omega]
        rfl
      · rw [Nat.mod_eq_of_lt (by omega), Nat.succ_eq_add_one, show r - (i + 1) + 1 = r - i by omega]
  · intro h hh
    simp only [Finset.mem_filter, List.mem_toFinset, mem_words] at hh
    obtain ⟨⟨hl, hm⟩, hf⟩ := hh
    apply List.ext_getElem (by simp [hl])
    intro i h1 h2
    simp only [List.getElem_map, List.getElem_range]
    rw [ent h hl hf i (by omega)]
    simp [show 0 < h.length by omega]
  · intro a ha
    simp only [Finset.mem_filter, List.mem_toFinset] at ha
    simp only [List.getD_eq_getElem?_getD, List.getElem?_map, List.getElem?_range (show 0 < r by omega),
      Option.map_some, Option.getD_some, Nat.sub_zero]
    exact ha.2
  · intro h hh
    simp only [Finset.mem_filter, List.mem_toFinset, mem_words] at hh
    obtain ⟨⟨hl, hm⟩, hf⟩ := hh
    have h0 : h.getD 0 default = h[0]'(by omega) := by simp [show 0 < h.length by omega]
    rw [h0]
    have hall : h.map x = List.replicate r (x (h[0]'(by omega))) := by
      apply List.ext_getElem (by simp [hl])
      intro i h1 h2
      rw [List.getElem_map, List.getElem_replicate, ent h hl hf i (by simpa [hl] using h1)]
      exact hxi _ _ (hm _ (List.getElem_mem _))
    rw [hall, List.prod_replicate]

/-- The generating function of the fixed configurations. -/
theorem fixed_gen {R : Type} [CommSemiring R] {n : Nat} {σ : List Nat} (hσ : σ.Perm (List.range n))
    {cs : List (List Nat)} (hd : CycleDecomp σ cs) {A : List α} (hA : A.Nodup) (T : α → α) (hT : ∀ a ∈ A, T a ∈ A)
    (x : α → R) (hx : ∀ a ∈ A, x (T a) = x a) :
    ((words A n).map (fun z => if (permute σ z).map T = z then (z.map x).prod else 0)).sum =
      (cs.map (fun c => (A.map (fun a => if T^[c.length] a = a then x a ^ c.length else 0)).sum)).prod := by
  have hp : cs.flatten.Perm (List.range n) := by
    have := hd.1; rwa [perm_range_length hσ] at this
  have h1 : ∀ z ∈ words A n, (if (permute σ z).map T = z then (z.map x).prod else 0) =
      ((blocks cs z).map (fun h => if rotFix T h then (h.map x).prod else 0)).prod := by
    intro z hz
    have hzl := (mem_words.mp hz).1
    have hfx := fixed_iff_blocks hσ hd T hzl
    by_cases hf : (permute σ z).map T = z
    · rw [if_pos hf]
      have hb := hfx.mp hf
      have hpm : (blocks cs z).flatten.Perm z := blocks_perm (by rw [hzl]; exact hp)
      rw [← (hpm.map x).prod_eq, List.map_flatten, List.prod_flatten, List.map_map]
      congr 1
      apply List.map_congr_left
      intro h hh
      rw [if_pos (hb h hh)]
      rfl
    · rw [if_neg hf]
      have : ∃ b ∈ blocks cs z, ¬ rotFix T b := by
        by_contra hc
        push Not at hc
        exact hf (hfx.mpr hc)
      obtain ⟨b, hb, hnb⟩ := this
      symm
      apply List.prod_eq_zero
      exact List.mem_map.mpr ⟨b, hb, if_neg hnb⟩
  rw [← List.sum_toFinset _ (words_nodup hA n), Finset.sum_congr rfl (fun z hz => h1 z (List.mem_toFinset.mp hz)),
    ← Finset.sum_image (f := fun Z : List (List α) => (Z.map (fun h => if rotFix T h then (h.map x).prod else 0)).prod)
      (g := blocks cs)]
  · rw [blocks_image hp hA, List.sum_toFinset]
    · have := pyProduct_sum (R := R) (fun (_ : List Nat) (h : List α) => if rotFix T h then (h.map x).prod else 0)
        (fun c => words A c.length) cs
      rw [List.map_congr_left (f := fun Z : List (List α) =>
        (Z.map (fun h => if rotFix T h then (h.map x).prod else 0)).prod)
        (g := fun s => ((cs.zip s).map (fun p => if rotFix T p.2 then (p.2.map x).prod else 0)).prod), this]
      · congr 1
        apply List.map_congr_left
        intro c hc
        apply one_cycle hA T hT x hx
        exact List.length_pos_iff.mpr (hd.2 c hc).1
      · intro s hs
        have hl := pyProduct_length _ s hs
        rw [List.length_map] at hl
        congr 1
        conv_lhs => rw [← List.map_snd_zip (l₁ := cs) (l₂ := s) (by omega)]
        rw [List.map_map]
        rfl
    · apply pyProduct_nodup
      intro l hl
      obtain ⟨c, -, rfl⟩ := List.mem_map.mp hl
      exact words_nodup hA _
  · intro z hz w hw e
    simp only [List.coe_toFinset, Set.mem_ofPred_eq, mem_words] at hz hw
    exact blocks_inj hp hz.1 hw.1 e

end Phenum
