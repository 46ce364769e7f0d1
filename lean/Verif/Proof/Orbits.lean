import Verif.Spec.Orbits
import Verif.Proof.PolyaArrows
/-
Existence of representatives; decorated configurations; the dictionary of one operation.
-/
namespace Phenum
open Spec

theorem exists_transversal {β : Type} [DecidableEq β] (X : Finset β) (P : β → Prop) (hP : ∀ x, x ∈ X ↔ P x)
    (R : β → β → Prop) (hr : ∀ x, P x → R x x) (hs : ∀ x y, P x → P y → R x y → R y x)
    (ht : ∀ x y z, P x → P y → P z → R x y → R y z → R x z) : ∃ L, IsTransversal P R L := by
  let s : Setoid {x // x ∈ X} :=
    ⟨fun a b => R a.1 b.1, fun a => hr a.1 ((hP _).mp a.2), fun {a b} h => hs _ _ ((hP _).mp a.2) ((hP _).mp b.2) h,
      fun {a b c} h h' => ht _ _ _ ((hP _).mp a.2) ((hP _).mp b.2) ((hP _).mp c.2) h h'⟩
  let rep : {x // x ∈ X} → {x // x ∈ X} := fun x => (Quotient.mk s x).out
  have hrep : ∀ x, R (rep x).1 x.1 := fun x => Quotient.exact (s := s) (Quotient.out_eq (Quotient.mk s x))
  refine ⟨(X.attach.image (fun x => (rep x).1)).toList, Finset.nodup_toList _, ?_, ?_⟩
  · intro w hw
    rw [Finset.mem_toList, Finset.mem_image] at hw
    obtain ⟨x, -, rfl⟩ := hw
    exact (hP _).mp (rep x).2
  · intro x hx
    have hxX := (hP x).mpr hx
    refine ⟨(rep ⟨x, hxX⟩).1, ⟨?_, hrep ⟨x, hxX⟩⟩, ?_⟩
    · rw [Finset.mem_toList, Finset.mem_image]
      exact ⟨⟨x, hxX⟩, Finset.mem_attach _ _, rfl⟩
    · rintro w ⟨hw, hwx⟩
      rw [Finset.mem_toList, Finset.mem_image] at hw
      obtain ⟨y, -, rfl⟩ := hw
      have : Quotient.mk s y = Quotient.mk s ⟨x, hxX⟩ := by
        rw [← Quotient.out_eq (Quotient.mk s y)]
        exact Quotient.sound (s := s) hwx
      show (Quotient.mk s y).out.1 = (Quotient.mk s ⟨x, hxX⟩).out.1
      rw [this]

/-! decorated configurations as words -/

/-- erased colours for a decoration pattern -/
def pattern (k : Nat) (carries : Nat → Bool) : List Site :=
  (List.range k).map (fun i => if carries (i + 1) then ((0 : Int), i + 1) else (-1, i + 1))

theorem pattern_length (k : Nat) (carries : Nat → Bool) : (pattern k carries).length = k := by simp [pattern]

theorem pattern_get {k : Nat} {carries : Nat → Bool} {i : Nat} (hi : i < (pattern k carries).length) :
    (pattern k carries)[i] = if carries (i + 1) then ((0 : Int), i + 1) else (-1, i + 1) := by simp [pattern]

theorem pattern_nodup (k : Nat) (carries : Nat → Bool) : (pattern k carries).Nodup := by
  apply List.Nodup.map _ List.nodup_range
  intro a b h
  have := congrArg Prod.snd h
  simp only at this
  split at this <;> split at this <;> simpa using this

theorem pattern_fix (k : Nat) (carries : Nat → Bool) : ∀ s ∈ pattern k carries, erase1 s = s := by
  intro s hs
  obtain ⟨i, -, rfl⟩ := List.mem_map.mp hs
  split <;> simp [erase1]

theorem mem_pattern {k : Nat} {carries : Nat → Bool} (s : Site) :
    s ∈ pattern k carries ↔ (1 ≤ s.2 ∧ s.2 ≤ k) ∧ s.1 = if carries s.2 then 0 else -1 := by
  unfold pattern
  rw [List.mem_map]
  constructor
  · rintro ⟨i, hi, rfl⟩
    rw [List.mem_range] at hi
    split <;> simp_all <;> omega
  · rintro ⟨⟨h1, h2⟩, h3⟩
    refine ⟨s.2 - 1, List.mem_range.mpr (by omega), ?_⟩
    rw [show s.2 - 1 + 1 = s.2 by omega]
    obtain ⟨a, v⟩ := s
    simp only at h3 ⊢
    rw [h3]
    split <;> rfl

theorem mem_confs_pattern {concs : List Nat} {carries : Nat → Bool} {dim : Nat} (z : Config) :
    z ∈ confs (siteVals (pattern concs.length carries) dim) (ecol (pattern concs.length carries)) concs ↔
      IsDecorated concs (fun v => carries v = true) dim z := by
  have hpf := pattern_fix concs.length carries
  have hnd := pattern_nodup concs.length carries
  -- site values
  have hsite : ∀ s : Site, s ∈ siteVals (pattern concs.length carries) dim ↔
      (1 ≤ s.2 ∧ s.2 ≤ concs.length) ∧ (carries s.2 = true → 0 ≤ s.1 ∧ s.1 < dim) ∧ (¬ carries s.2 = true → s.1 = -1) := by
    intro s
    rw [mem_siteVals hpf, mem_pattern, erase1_snd]
    obtain ⟨a, v⟩ := s
    unfold erase1
    by_cases hc : carries v = true
    · by_cases ha : a < 0
      · simp [hc, ha]; omega
      · simp [hc, ha]; omega
    · by_cases ha : a < 0
      · simp [hc, ha]; omega
      · simp [hc, ha]; omega
  have hcol : ∀ s ∈ siteVals (pattern concs.length carries) dim, ecol (pattern concs.length carries) s = s.2 := by
    intro s hs
    have h1 := ((hsite s).mp hs).1
    have h2 := ((mem_siteVals hpf dim s).mp hs).1
    have hj : s.2 - 1 < (pattern concs.length carries).length := by rw [pattern_length]; omega
    have := (ecol_iff hnd h2 hj).mpr (by
      rw [pattern_get hj, show s.2 - 1 + 1 = s.2 by omega]
      have h3 := (mem_pattern _).mp h2
      rw [erase1_snd] at h3
      apply Prod.ext
      · rw [h3.2]; split <;> rfl
      · rw [erase1_snd]; split <;> rfl)
    omega
  have hcnt : (∀ s ∈ z, s ∈ siteVals (pattern concs.length carries) dim) → ∀ j : Nat,
      z.countP (fun a => decide (ecol (pattern concs.length carries) a = j + 1)) = (z.map (·.2)).count (j + 1) := by
    intro hz j
    rw [List.count_eq_countP, List.countP_map]
    apply List.countP_congr
    intro a ha
    simp only [Function.comp, decide_eq_true_eq, beq_iff_eq, hcol a (hz a ha)]
  unfold confs
  rw [Finset.mem_filter, List.mem_toFinset, mem_words]
  constructor
  · rintro ⟨⟨h1, h2⟩, h3⟩
    refine ⟨⟨?_, ?_⟩, fun s hs => ((hsite s).mp (h2 s hs)).2⟩
    · intro v hv
      obtain ⟨s, hs, rfl⟩ := List.mem_map.mp hv
      exact ((hsite s).mp (h2 s hs)).1
    · intro i hi
      rw [← h3 i hi, hcnt h2]
  · rintro ⟨h1, h2⟩
    have hz : ∀ s ∈ z, s ∈ siteVals (pattern concs.length carries) dim := fun s hs =>
      (hsite s).mpr ⟨h1.1 s.2 (List.mem_map_of_mem hs), h2 s hs⟩
    refine ⟨⟨by rw [← lab_len h1, List.length_map], hz⟩, ?_⟩
    intro j hj
    rw [hcnt hz, h1.2 j hj]

/-! the dictionary of one operation lists each key once with its multiplicity -/

theorem mem_bumpKey (key : Nat × Nat) (d : List ((Nat × Nat) × Nat)) (hnd : (d.map (·.1)).Nodup)
    (f : Nat × Nat → Nat) (hf : ∀ k v, (k, v) ∈ d ↔ v = f k ∧ 1 ≤ f k) :
    ((bumpKey key d).map (·.1)).Nodup ∧ ∀ k v, (k, v) ∈ bumpKey key d ↔
      v = (f k + if k = key then 1 else 0) ∧ 1 ≤ (f k + if k = key then 1 else 0) := by
  have keys : ∀ (d : List ((Nat × Nat) × Nat)), (d.map (·.1)).Nodup → ((bumpKey key d).map (·.1)).Nodup ∧
      (∀ k, k ∈ (bumpKey key d).map (·.1) ↔ k = key ∨ k ∈ d.map (·.1)) ∧
      (∀ k v, k ≠ key → ((k, v) ∈ bumpKey key d ↔ (k, v) ∈ d)) ∧
      (∀ v, (key, v) ∈ bumpKey key d ↔ (key ∉ d.map (·.1) ∧ v = 1) ∨ ∃ w, (key, w) ∈ d ∧ v = w + 1) := by
    intro d hnd
    induction d with
    | nil =>
      simp [bumpKey]
      intro a b v h h'; exact absurd h' h
    | cons x d ih =>
      obtain ⟨k0, v0⟩ := x
      rw [List.map_cons, List.nodup_cons] at hnd
      obtain ⟨i1, i2, i3, i4⟩ := ih hnd.2
      simp only [bumpKey]
      split
      · rename_i he
        subst he
        refine ⟨?_, ?_, ?_, ?_⟩
        · rw [List.map_cons, List.nodup_cons]; exact hnd
        · intro k; simp
        · intro k v hk; simp [hk]
        · intro v
          have hno : ∀ w, (k0, w) ∉ d := fun w hw => hnd.1 (List.mem_map.mpr ⟨_, hw, rfl⟩)
          simp only [List.mem_cons, Prod.mk.injEq, true_and, List.map_cons, true_or, not_true_eq_false, false_and,
            false_or, hno, or_false]
          constructor
          · rintro rfl; exact ⟨v0, rfl, rfl⟩
          · rintro ⟨w, rfl, rfl⟩; rfl
      · rename_i hne
        refine ⟨?_, ?_, ?_, ?_⟩
        · rw [List.map_cons, List.nodup_cons]
          refine ⟨?_, i1⟩
          rw [i2]
          rintro (h | h)
          · exact hne h
          · exact hnd.1 h
        · intro k
          rw [List.map_cons, List.mem_cons, i2, List.map_cons, List.mem_cons]
          tauto
        · intro k v hk
          rw [List.mem_cons, List.mem_cons, i3 k v hk]
        · intro v
          rw [List.mem_cons, i4, List.map_cons, List.mem_cons]
          have h1 : ¬ ((key, v) = (k0, v0)) := fun h => hne (Prod.mk.inj h).1.symm
          have h2 : ¬ (key = k0) := fun h => hne h.symm
          simp only [h1, h2, false_or, List.mem_cons, Prod.mk.injEq, false_and]
  obtain ⟨k1, k2, k3, k4⟩ := keys d hnd
  refine ⟨k1, ?_⟩
  intro k v
  by_cases hk : k = key
  · subst hk
    rw [k4, if_pos rfl]
    have hmem : k ∈ d.map (·.1) ↔ 1 ≤ f k := by
      rw [List.mem_map]
      constructor
      · rintro ⟨⟨k', v'⟩, h1, rfl⟩; exact ((hf _ _).mp h1).2
      · intro h; exact ⟨(k, f k), (hf _ _).mpr ⟨rfl, h⟩, rfl⟩
    rw [hmem]
    simp only [hf]
    constructor
    · rintro (⟨h1, rfl⟩ | ⟨w, ⟨rfl, h1⟩, rfl⟩)
      · omega
      · omega
    · rintro ⟨rfl, h2⟩
      by_cases h : 1 ≤ f k
      · exact Or.inr ⟨f k, ⟨rfl, h⟩, rfl⟩
      · exact Or.inl ⟨h, by omega⟩
  · rw [k3 k v hk, hf, if_neg hk, Nat.add_zero]

theorem mem_bumpAll (coef : Nat → Nat) (lens : List Nat) (d : List ((Nat × Nat) × Nat)) (hnd : (d.map (·.1)).Nodup)
    (f : Nat × Nat → Nat) (hf : ∀ k v, (k, v) ∈ d ↔ v = f k ∧ 1 ≤ f k) :
    ((lens.foldl (fun d r => bumpKey (r, coef r) d) d).map (·.1)).Nodup ∧
    ∀ k v, (k, v) ∈ lens.foldl (fun d r => bumpKey (r, coef r) d) d ↔
      v = f k + lens.countP (fun r => decide (k = (r, coef r))) ∧
        1 ≤ f k + lens.countP (fun r => decide (k = (r, coef r))) := by
  induction lens generalizing d f with
  | nil =>
    refine ⟨hnd, fun k v => ?_⟩
    simpa using hf k v
  | cons r lens ih =>
    rw [List.foldl_cons]
    obtain ⟨h1, h2⟩ := mem_bumpKey (r, coef r) d hnd f hf
    obtain ⟨i1, i2⟩ := ih _ h1 _ h2
    refine ⟨i1, ?_⟩
    intro k v
    rw [i2, List.countP_cons]
    have : (f k + if k = (r, coef r) then 1 else 0) + lens.countP (fun r => decide (k = (r, coef r))) =
        f k + (lens.countP (fun r => decide (k = (r, coef r))) + if decide (k = (r, coef r)) = true then 1 else 0) := by
      simp only [decide_eq_true_eq]; omega
    rw [this]

end Phenum
