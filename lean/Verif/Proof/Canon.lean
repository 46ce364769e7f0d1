import Verif.Proof.Decode
import Verif.Proof.Group
import Mathlib.Tactic.Push
/-
Lexicographic comparison of digit vectors, canonical labellings, and the per-level test `perm`.
-/
namespace Phenum
open Spec

/-! ### Lexicographic order on digit functions -/

/-- equal below level `m` -/
def Agree (m : Nat) (f g : Nat → Nat) : Prop := ∀ j < m, f j = g j

/-- lexicographically smaller, comparing levels below `m` -/
def llt (m : Nat) (f g : Nat → Nat) : Prop := ∃ j < m, Agree j f g ∧ f j < g j

theorem Agree.symm {m f g} (h : Agree m f g) : Agree m g f := fun j hj => (h j hj).symm
theorem Agree.trans {m f g h} (h1 : Agree m f g) (h2 : Agree m g h) : Agree m f h :=
  fun j hj => (h1 j hj).trans (h2 j hj)
theorem Agree.refl (m f) : Agree m f f := fun _ _ => rfl
theorem Agree.mono {m l f g} (h : Agree m f g) (hl : l ≤ m) : Agree l f g := fun j hj => h j (by omega)

theorem llt_tri (m : Nat) (f g : Nat → Nat) : llt m f g ∨ Agree m f g ∨ llt m g f := by
  induction m with
  | zero => exact Or.inr (Or.inl (fun j hj => by omega))
  | succ m ih =>
    rcases ih with ⟨j, hj, h1, h2⟩ | h | ⟨j, hj, h1, h2⟩
    · exact Or.inl ⟨j, by omega, h1, h2⟩
    · rcases Nat.lt_trichotomy (f m) (g m) with h' | h' | h'
      · exact Or.inl ⟨m, by omega, h, h'⟩
      · refine Or.inr (Or.inl (fun j hj => ?_))
        by_cases e : j = m
        · rw [e]; exact h'
        · exact h j (by omega)
      · exact Or.inr (Or.inr ⟨m, by omega, h.symm, h'⟩)
    · exact Or.inr (Or.inr ⟨j, by omega, h1, h2⟩)

theorem llt.not_agree {m f g} (h : llt m f g) : ¬ Agree m f g := by
  obtain ⟨j, hj, -, h2⟩ := h
  intro h; have := h j hj; omega

theorem llt.asymm {m f g} (h : llt m f g) : ¬ llt m g f := by
  obtain ⟨j, hj, h1, h2⟩ := h
  rintro ⟨l, hl, h3, h4⟩
  rcases Nat.lt_trichotomy j l with h | h | h
  · have := h3 j h; omega
  · subst h; omega
  · have := h1 l h; omega

theorem llt.irrefl {m f} : ¬ llt m f f := fun h => h.not_agree (Agree.refl m f)

theorem llt.trans {m f g h} (h1 : llt m f g) (h2 : llt m g h) : llt m f h := by
  obtain ⟨j, hj, a1, a2⟩ := h1
  obtain ⟨l, hl, b1, b2⟩ := h2
  rcases Nat.lt_trichotomy j l with c | c | c
  · exact ⟨j, hj, a1.trans (b1.mono (by omega)), by rw [← b1 j c]; exact a2⟩
  · subst c; exact ⟨j, hj, a1.trans b1, by omega⟩
  · exact ⟨l, hl, (a1.mono (by omega)).trans b1, by rw [a1 l c]; exact b2⟩

theorem llt.mono {m l f g} (h : llt m f g) (hl : m ≤ l) : llt l f g := by
  obtain ⟨j, hj, r⟩ := h; exact ⟨j, by omega, r⟩

theorem llt.congr_left {m f f' g} (h : llt m f g) (e : Agree m f f') : llt m f' g := by
  obtain ⟨j, hj, a1, a2⟩ := h
  exact ⟨j, hj, (e.mono (by omega)).symm.trans a1, by rw [← e j hj]; exact a2⟩

theorem llt.congr_right {m f g g'} (h : llt m f g) (e : Agree m g g') : llt m f g' := by
  obtain ⟨j, hj, a1, a2⟩ := h
  exact ⟨j, hj, a1.trans (e.mono (by omega)), by rw [← e j hj]; exact a2⟩

/-! ### Cutting a labelling at a level -/

/-- digits of a labelling as a function -/
def dg (x : List Nat) : Nat → Nat := fun i => digit i x

/-- colours above `c` become 0 -/
def cut (c : Nat) (x : List Nat) : List Nat := x.map (fun v => if v > c then 0 else v)

theorem cutAbove_eq (i : Nat) (x : List Nat) : cutAbove i x = cut (i + 1) x := rfl

theorem levelMask_cut (i : Nat) (x : List Nat) (h : ∀ v ∈ x, 1 ≤ v) :
    levelMask i (cut (i + 1) x) = levelRow i x := by
  induction x with
  | nil => rfl
  | cons v x ih =>
    have ih := ih (fun w hw => h w (List.mem_cons_of_mem _ hw))
    have hv := h v (by simp)
    unfold levelMask cut levelRow at ih ⊢
    rw [List.map_cons, List.filterMap_cons]
    rcases Nat.lt_trichotomy v (i + 1) with h1 | h1 | h1
    · rw [List.filter_cons_of_neg (by simp; omega), ← ih]
      have e : (if v > i + 1 then 0 else v) = v := if_neg (by omega)
      simp only [e, if_neg (show ¬ v = 0 by omega), if_neg (show ¬ v = i + 1 by omega)]
    · rw [List.filter_cons_of_pos (by simp; omega), List.map_cons, ← ih]
      have e : (if v > i + 1 then 0 else v) = v := if_neg (by omega)
      simp only [e, if_neg (show ¬ v = 0 by omega), if_pos h1]
    · rw [List.filter_cons_of_pos (by simp; omega), List.map_cons, ← ih]
      have e : (if v > i + 1 then 0 else v) = 0 := if_pos h1
      simp only [e, if_true, if_neg (show ¬ v = i + 1 by omega)]

theorem cut_cut (c d : Nat) (h : c ≤ d) (x : List Nat) : cut c (cut d x) = cut c x := by
  unfold cut
  rw [List.map_map]
  apply List.map_congr_left
  intro v _
  simp only [Function.comp]
  split_ifs <;> first | rfl | omega

theorem cut_mergeZ (c : Nat) (a b : List Nat) (ha : ∀ v ∈ a, v ≤ c) (h : a.count 0 ≤ b.length) :
    cut c (mergeZ a b) = mergeZ a (cut c b) := by
  induction a generalizing b with
  | nil => rfl
  | cons x a ih =>
    have ha' : ∀ v ∈ a, v ≤ c := fun w hw => ha w (List.mem_cons_of_mem _ hw)
    by_cases hx : x = 0
    · subst hx
      rw [List.count_cons_self] at h
      cases b with
      | nil => simp at h
      | cons y b =>
        have := ih b ha' (by simpa using h)
        rw [mergeZ_zero]
        unfold cut at this ⊢
        rw [List.map_cons, List.map_cons, mergeZ_zero, this]
    · rw [List.count_cons_of_ne hx] at h
      have := ih b ha' h
      have hxc := ha x (by simp)
      rw [mergeZ_pos x hx, mergeZ_pos x hx, ← this]
      unfold cut
      rw [List.map_cons, if_neg (by omega)]

theorem cut_eq_of_digits (m : Nat) (cs : List Nat) (col : Nat) (x y : List Nat) (hm : m ≤ cs.length)
    (hx : Lab col cs x) (hy : Lab col cs y)
    (h : ∀ j < m, digit (col + j) x = digit (col + j) y) : cut (col + m) x = cut (col + m) y := by
  induction m generalizing cs col x y with
  | zero =>
    have key : ∀ z, Lab col cs z → cut (col + 0) z = List.replicate z.length 0 := by
      intro z hz
      unfold cut
      rw [List.eq_replicate_iff]
      refine ⟨by simp, ?_⟩
      intro b hb
      obtain ⟨v, hv, rfl⟩ := List.mem_map.mp hb
      exact if_pos (hz.1 v hv).1
    rw [key x hx, key y hy, lab_length hx, lab_length hy]
  | succ m ih =>
    cases cs with
    | nil => simp at hm
    | cons c cs =>
      have hlen : x.length = y.length := by rw [lab_length hx, lab_length hy]
      have h0 := h 0 (by omega)
      rw [Nat.add_zero] at h0
      have hrow : rowOf (col + 1) x = rowOf (col + 1) y := by
        rw [← invhashRow_lab hx, ← invhashRow_lab hy, h0, hlen]
      have ht := ih cs (col + 1) _ _ (by simpa using hm) (lab_tail hx) (lab_tail hy) (by
        intro j hj
        have := h (j + 1) (by omega)
        unfold digit at this ⊢
        rw [levelRow_filter _ _ (by omega), levelRow_filter _ _ (by omega)]
        rw [show col + 1 + j = col + (j + 1) by omega]
        exact this)
      have hgx : ∀ v ∈ x, col + 1 ≤ v := fun v hv => (hx.1 v hv).1
      have hgy : ∀ v ∈ y, col + 1 ≤ v := fun v hv => (hy.1 v hv).1
      have hle : ∀ v ∈ rowOf (col + 1) x, v ≤ col + (m + 1) := by
        intro v hv
        obtain ⟨w, -, rfl⟩ := List.mem_map.mp hv
        split <;> omega
      rw [← mergeZ_row (col + 1) (by omega) x hgx, ← mergeZ_row (col + 1) (by omega) y hgy,
        cut_mergeZ _ _ _ hle (by rw [rowOf_count_zero _ (by omega) _ hgx]),
        cut_mergeZ _ _ _ (by rw [← hrow]; exact hle) (by rw [rowOf_count_zero _ (by omega) _ hgy]), hrow,
        show col + (m + 1) = col + 1 + m by omega, ht]

section
variable {concs : List Nat}

theorem lab_ge {x : List Nat} (h : IsLabelling concs x) : ∀ v ∈ x, 1 ≤ v := fun v hv => (h.1 v hv).1

theorem lab_len {x : List Nat} (h : IsLabelling concs x) : x.length = concs.sum :=
  lab_length ((lab_zero _ _).mp h)

theorem digit_of_cut {x y : List Nat} (hx : IsLabelling concs x) (hy : IsLabelling concs y) (i : Nat)
    (h : cut (i + 1) x = cut (i + 1) y) : Agree (i + 1) (dg x) (dg y) := by
  intro j hj
  have : cut (j + 1) x = cut (j + 1) y := by
    rw [← cut_cut (j + 1) (i + 1) (by omega) x, h, cut_cut _ _ (by omega)]
  unfold dg digit
  rw [← levelMask_cut j x (lab_ge hx), this, levelMask_cut j y (lab_ge hy)]

theorem cut_iff {x y : List Nat} (hx : IsLabelling concs x) (hy : IsLabelling concs y) (i : Nat)
    (hi : i < concs.length) : cut (i + 1) x = cut (i + 1) y ↔ Agree (i + 1) (dg x) (dg y) := by
  constructor
  · exact digit_of_cut hx hy i
  · intro h
    have := cut_eq_of_digits (i + 1) concs 0 x y (by omega) ((lab_zero _ _).mp hx) ((lab_zero _ _).mp hy)
      (fun j hj => by rw [Nat.zero_add]; exact h j hj)
    rwa [Nat.zero_add] at this

theorem digits_eq_of_agree {x y : List Nat} (k : Nat) (h : Agree k (dg x) (dg y)) :
    digits k x = digits k y := by
  apply List.ext_getElem?
  intro i
  by_cases hi : i < k
  · rw [digits_getElem? _ _ _ hi, digits_getElem? _ _ _ hi]; exact congrArg _ (h i hi)
  · rw [List.getElem?_eq_none (by rw [digits_length]; omega),
      List.getElem?_eq_none (by rw [digits_length]; omega)]

theorem dg_ext {x y : List Nat} (hx : IsLabelling concs x) (hy : IsLabelling concs y)
    (h : Agree concs.length (dg x) (dg y)) : x = y := by
  have h1 := invhash_digits hx
  rw [digits_eq_of_agree _ h, invhash_digits hy] at h1
  cases h1; rfl

theorem isLabelling_perm {x y : List Nat} (h : x.Perm y) (hy : IsLabelling concs y) :
    IsLabelling concs x :=
  ⟨fun v hv => hy.1 v (h.mem_iff.mp hv), fun i hi => by rw [h.count_eq]; exact hy.2 i hi⟩

variable {G : List (List Nat)} (hG : IsPermGroup concs.sum G)
include hG

theorem lab_permute {x : List Nat} (hx : IsLabelling concs x) {σ : List Nat} (hσ : σ ∈ G) :
    IsLabelling concs (permute σ x) :=
  isLabelling_perm (hG.permute_perm' hσ x (lab_len hx)) hx

/-- The digits of an image below level `m` depend only on the digits below `m`. -/
theorem agree_permute {x y : List Nat} (hx : IsLabelling concs x) (hy : IsLabelling concs y) {m : Nat}
    (hm : m ≤ concs.length) (h : Agree m (dg x) (dg y)) {σ : List Nat} (hσ : σ ∈ G) :
    Agree m (dg (permute σ x)) (dg (permute σ y)) := by
  cases m with
  | zero => intro j hj; omega
  | succ m =>
    rw [← cut_iff (lab_permute hG hx hσ) (lab_permute hG hy hσ) m hm]
    have := (cut_iff hx hy m hm).mpr h
    unfold cut at this ⊢
    rw [← permute_map, this, permute_map]

end

/-! ### Canonical labellings -/

/-- no image is smaller on the levels below `m` -/
def PC (G : List (List Nat)) (m : Nat) (x : List Nat) : Prop :=
  ∀ σ ∈ G, ¬ llt m (dg (permute σ x)) (dg x)

theorem PC.mono {G m l x} (h : PC G m x) (hl : l ≤ m) : PC G l x :=
  fun σ hσ hc => h σ hσ (hc.mono hl)

section
variable {concs : List Nat} {G : List (List Nat)} (hG : IsPermGroup concs.sum G)
include hG

theorem PC_congr {x y : List Nat} (hx : IsLabelling concs x) (hy : IsLabelling concs y) {m : Nat}
    (hm : m ≤ concs.length) (h : Agree m (dg x) (dg y)) (hp : PC G m x) : PC G m y := by
  intro σ hσ hc
  exact hp σ hσ ((hc.congr_left (agree_permute hG hx hy hm h hσ).symm).congr_right h.symm)

omit hG in
theorem PC_zeros {x : List Nat} {m : Nat} (k : Nat) (hz : ∀ j, m ≤ j → j < k → dg x j = 0)
    (hp : PC G m x) : PC G k x := by
  rintro σ hσ ⟨j, hj, h1, h2⟩
  by_cases h : j < m
  · exact hp σ hσ ⟨j, h, h1, h2⟩
  · rw [hz j (by omega) hj] at h2; omega

omit hG in
theorem PC_succ {x : List Nat} {m : Nat} (hp : PC G m x) :
    PC G (m + 1) x ↔ ∀ σ ∈ G, Agree m (dg (permute σ x)) (dg x) → dg x m ≤ dg (permute σ x) m := by
  constructor
  · intro h σ hσ ha
    by_contra hc
    exact h σ hσ ⟨m, by omega, ha, by omega⟩
  · rintro h σ hσ ⟨j, hj, h1, h2⟩
    by_cases e : j = m
    · subst e; have := h σ hσ h1; omega
    · exact hp σ hσ ⟨j, by omega, h1, h2⟩

/-- equivalent canonical labellings are equal -/
theorem canon_unique {x y : List Nat} (hx : IsLabelling concs x) (hy : IsLabelling concs y)
    (cx : PC G concs.length x) (cy : PC G concs.length y) (h : Equiv G x y) : x = y := by
  obtain ⟨τ, hτ, h'⟩ := hG.equiv_symm (lab_len hx) h
  obtain ⟨σ, hσ, rfl⟩ := h
  apply dg_ext hx hy
  rcases llt_tri concs.length (dg x) (dg (permute σ x)) with h1 | h1 | h1
  · exfalso
    apply cy τ hτ
    rw [h']; exact h1
  · exact h1
  · exact absurd h1 (cx σ hσ)

end

end Phenum
