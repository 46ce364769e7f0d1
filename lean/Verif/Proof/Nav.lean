import Verif.Proof.Perm
/-
The navigation part of the tree search.
-/
namespace Phenum
open Spec

/-- a list as a digit function -/
def fn (b : List Nat) : Nat → Nat := fun j => b.getD j 0

theorem fn_of_lt {b : List Nat} {j : Nat} (h : j < b.length) : b[j]? = some (fn b j) := by
  simp [fn, h]

theorem pyGet_fn {b : List Nat} {j : Nat} (h : j < b.length) : pyGet b j = .ok (fn b j) := by
  unfold pyGet; rw [fn_of_lt h]

theorem pySet_ok {α : Type} {b : List α} {j : Nat} (h : j < b.length) (v : α) : pySet b j v = .ok (b.set j v) := by
  unfold pySet; rw [if_pos h]

theorem fn_set (b : List Nat) (j v l : Nat) (h : j < b.length) :
    fn (b.set j v) l = if l = j then v else fn b l := by
  unfold fn
  simp only [List.getD_eq_getElem?_getD]
  by_cases e : l = j
  · subst e; simp [h]
  · rw [List.getElem?_set_ne (by omega), if_neg e]

theorem fn_digits (k : Nat) (x : List Nat) (j : Nat) (h : j < k) : fn (digits k x) j = dg x j := by
  unfold fn
  simp [List.getD_eq_getElem?_getD, digits_getElem? k j x h, dg]

theorem eq_of_fn {b c : List Nat} (hl : b.length = c.length) (h : ∀ j < b.length, fn b j = fn c j) : b = c := by
  apply List.ext_getElem?
  intro i
  by_cases hi : i < b.length
  · rw [fn_of_lt hi, fn_of_lt (by omega), h i hi]
  · rw [List.getElem?_eq_none (by omega), List.getElem?_eq_none (by omega)]

/-- result of the back-tracking loop -/
theorem backtrack_spec (C : List Nat) (i : Nat) (b : List Nat) (b0 : Nat) (hC : C.length = b.length)
    (hi : i < b.length) (hpos : ∀ j < b.length, 0 < fn C j) :
    ∃ j ≤ i, ∃ b' : List Nat, b'.length = b.length ∧
      (∀ l, j < l → l ≤ i → fn b l + 1 = fn C l) ∧
      ((backtrack C i b b0 = .ok ⟨b', j, b0, false⟩ ∧ (j = 0 → i = 0) ∧ (j ≠ 0 → fn b j + 1 ≠ fn C j) ∧
          ∀ l, fn b' l = if j < l ∧ l ≤ i then 0 else fn b l) ∨
       (backtrack C i b b0 = .ok ⟨b', 0, 0, true⟩ ∧ j = 0 ∧ i ≠ 0 ∧
          ∀ l, fn b' l = if l = 0 then fn b 0 + 1 else if l ≤ i then 0 else fn b l)) := by
  induction i generalizing b with
  | zero =>
    refine ⟨0, le_refl _, b, rfl, fun l h1 h2 => by omega, Or.inl ⟨rfl, fun _ => rfl, fun h => absurd rfl h, ?_⟩⟩
    intro l
    rw [if_neg (by omega)]
  | succ i ih =>
    have hp := hpos (i + 1) hi
    have hun : backtrack C (i + 1) b b0 =
        if ((fn b (i + 1) : Nat) : Int) = ((fn C (i + 1) : Nat) : Int) - 1 then
          (if i = 0 then .ok ⟨(b.set (i + 1) 0).set 0 (fn b 0 + 1), 0, 0, true⟩
            else backtrack C i (b.set (i + 1) 0) b0)
        else .ok ⟨b, i + 1, b0, false⟩ := by
      rw [backtrack, pyGet_fn hi, pyGet_fn (by omega : i + 1 < C.length)]
      simp only [bind, Except.bind]
      split
      · rw [pySet_ok hi]
        simp only []
        split
        · rw [pyGet_fn (by simp; omega : 0 < (b.set (i + 1) 0).length)]
          simp only []
          rw [pySet_ok (by simp; omega), fn_set _ _ _ _ hi, if_neg (by omega)]
        · rfl
      · rfl
    rw [hun]
    by_cases hc : ((fn b (i + 1) : Nat) : Int) = ((fn C (i + 1) : Nat) : Int) - 1
    · rw [if_pos hc]
      have hc' : fn b (i + 1) + 1 = fn C (i + 1) := by omega
      by_cases h0 : i = 0
      · subst h0
        rw [if_pos rfl]
        refine ⟨0, by omega, _, ?_, ?_, Or.inr ⟨rfl, rfl, by omega, ?_⟩⟩
        · simp
        · intro l h1 h2
          have : l = 0 + 1 := by omega
          rw [this]; exact hc'
        · intro l
          rw [fn_set _ _ _ _ (by simp; omega), fn_set _ _ _ _ hi]
          by_cases e : l = 0
          · simp [e]
          · rw [if_neg e, if_neg e]
            by_cases e1 : l = 0 + 1
            · rw [if_pos e1, if_pos (by omega)]
            · rw [if_neg e1, if_neg (by omega)]
      · rw [if_neg h0]
        have hset : ∀ l, fn (b.set (i + 1) 0) l = if l = i + 1 then 0 else fn b l :=
          fun l => fn_set _ _ _ _ hi
        obtain ⟨j, hj, b', h1, h2, h3⟩ := ih (b.set (i + 1) 0) (by simpa using hC) (by simp; omega)
          (by simpa using hpos)
        refine ⟨j, by omega, b', by simpa using h1, ?_, ?_⟩
        · intro l hl1 hl2
          by_cases e : l = i + 1
          · rw [e]; exact hc'
          · have := h2 l hl1 (by omega)
            rwa [hset, if_neg e] at this
        · rcases h3 with ⟨a1, a2, a3, a4⟩ | ⟨a1, a2, a3, a4⟩
          · left
            refine ⟨a1, fun h => absurd (a2 h) h0, ?_, ?_⟩
            · intro hj0
              have := a3 hj0
              rwa [hset, if_neg (by omega)] at this
            · intro l
              rw [a4, hset]
              by_cases e : j < l ∧ l ≤ i
              · rw [if_pos e, if_pos ⟨e.1, by omega⟩]
              · rw [if_neg e]
                by_cases e1 : l = i + 1
                · rw [if_pos e1, if_pos ⟨by omega, by omega⟩]
                · rw [if_neg e1, if_neg (by omega)]
          · right
            refine ⟨a1, a2, by omega, ?_⟩
            intro l
            rw [a4, hset, hset, if_neg (by omega : ¬ 0 = i + 1)]
            by_cases e : l = 0
            · simp [e]
            · rw [if_neg e, if_neg e]
              by_cases e1 : l = i + 1
              · subst e1; simp
              · rw [if_neg e1]
                by_cases e2 : l ≤ i
                · rw [if_pos e2, if_pos (by omega)]
                · rw [if_neg e2, if_neg (by omega)]
    · rw [if_neg hc]
      refine ⟨i + 1, le_refl _, b, rfl, fun l h1 h2 => by omega, Or.inl ⟨rfl, by omega, fun _ => by omega, ?_⟩⟩
      intro l
      rw [if_neg (by omega)]

theorem skipDead_spec (order : List Int) (b top : Nat) (hb : b ≤ top) (htop : top < order.length)
    (hlive : order[top]? ≠ some (-1)) :
    ∃ t, b ≤ t ∧ t ≤ top ∧ skipDead order b = .ok t ∧ order[t]? ≠ some (-1) ∧
      ∀ l, b ≤ l → l < t → order[l]? = some (-1) := by
  generalize hd : top - b = d
  induction d generalizing b with
  | zero =>
    have : b = top := by omega
    subst this
    refine ⟨b, le_refl _, le_refl _, ?_, hlive, fun l h1 h2 => by omega⟩
    rw [skipDead]
    split
    · next h => rw [List.getElem?_eq_none_iff] at h; omega
    · next v h =>
      rw [if_neg]; rintro rfl; exact hlive h
  | succ d ih =>
    have hlt : b < order.length := by omega
    by_cases hdead : order[b]? = some (-1)
    · obtain ⟨t, h1, h2, h3, h4, h5⟩ := ih (b + 1) (by omega) (by omega)
      refine ⟨t, by omega, h2, ?_, h4, ?_⟩
      · rw [skipDead]
        split
        · next h => rw [hdead] at h; cases h
        · next v h =>
          rw [hdead] at h; cases h
          rw [if_pos rfl]; exact h3
      · intro l hl1 hl2
        by_cases e : l = b
        · rw [e]; exact hdead
        · exact h5 l (by omega) hl2
    · refine ⟨b, le_refl _, by omega, ?_, hdead, fun l h1 h2 => by omega⟩
      rw [skipDead]
      split
      · next h => rw [List.getElem?_eq_none_iff] at h; omega
      · next v h =>
        rw [if_neg]; rintro rfl; exact hdead h

/-- going down one level -/
theorem bNav_down (C : List Nat) (u i b0 : Nat) (b : List Nat) (order : List Int) (hC : C.length = b.length)
    (hu : u = 0 ∨ b0 = 0) (hi : i + 2 < b.length) (hz : fn b (i + 1) = 0) (hc : 2 ≤ fn C (i + 1)) :
    bNav C u i b0 b order =
      if b.length ≤ i + 3 then .ok ⟨b.set (i + 1) 1, i + 1, 1, false⟩ else .ok ⟨b, i + 1, 0, false⟩ := by
  have hb0 : (if u = 0 ∧ i + 2 < b.length then 0 else b0) = 0 := by
    rcases hu with h | h
    · rw [if_pos ⟨h, hi⟩]
    · split <;> first | rfl | exact h
  have hbt : ∀ c, backtrack C (i + 1) b c = .ok ⟨b, i + 1, c, false⟩ := by
    intro c
    rw [backtrack, pyGet_fn (by omega), pyGet_fn (by omega)]
    simp only [bind, Except.bind]
    rw [if_neg (by rw [hz]; omega)]
  unfold bNav
  simp only [hb0]
  simp only [true_and, if_pos (show i + 1 < b.length by omega)]
  rw [hbt]
  simp only [bind, Except.bind]
  by_cases hl : b.length ≤ i + 1 + 2
  · rw [if_pos (show b.length ≤ i + 3 by omega)]
    simp only [if_pos hl, if_true]
    rw [pyGet_fn (by omega)]
    simp only []
    rw [pySet_ok (by omega), hz]
    simp
  · rw [if_neg (show ¬ b.length ≤ i + 3 by omega)]
    simp only [if_neg hl]
    simp

/-- advancing at level `i`, back-tracking if the level is exhausted -/
theorem bNav_up (C : List Nat) (u i : Nat) (b : List Nat) (order : List Int) (top : Nat)
    (hC : C.length = b.length) (hu : ¬ (u = 0 ∧ i + 2 < b.length)) (hi : i < b.length) (hi0 : i ≠ 0)
    (hpos : ∀ j < b.length, fn b j < fn C j) (htop : top = fn C 0) (hord : order.length = top + 1)
    (hlive : order[top]? ≠ some (-1)) :
    (∃ j, 1 ≤ j ∧ j ≤ i ∧ (∀ l, j < l → l ≤ i → fn b l + 1 = fn C l) ∧ fn b j + 1 < fn C j ∧
      ∃ b' : List Nat, b'.length = b.length ∧ bNav C u i 1 b order = .ok ⟨b', j, 1, false⟩ ∧
        ∀ l, fn b' l = if l = j then fn b j + 1 else if j < l ∧ l ≤ i then 0 else fn b l) ∨
    ((∀ l, 0 < l → l ≤ i → fn b l + 1 = fn C l) ∧ ∃ t, fn b 0 + 1 ≤ t ∧ t ≤ top ∧
      order[t]? ≠ some (-1) ∧ (∀ l, fn b 0 + 1 ≤ l → l < t → order[l]? = some (-1)) ∧
      ∃ b' : List Nat, b'.length = b.length ∧ bNav C u i 1 b order = .ok ⟨b', 0, 0, true⟩ ∧
        ∀ l, fn b' l = if l = 0 then t else if l ≤ i then 0 else fn b l) := by
  obtain ⟨j, hj, b', h1, h2, h3⟩ := backtrack_spec C i b 1 hC hi (fun j hj => by have := hpos j hj; omega)
  have hun : bNav C u i 1 b order = (backtrack C i b 1).bind (fun nav => do
      let branch ← if nav.b0 = 1 then do
          let x ← pyGet nav.branch nav.i
          pySet nav.branch nav.i (x + 1)
        else .ok nav.branch
      let branch ← if nav.i = 0 then do
          let x ← pyGet branch 0
          let x' ← skipDead order x
          pySet branch 0 x'
        else .ok branch
      .ok ⟨branch, nav.i, nav.b0, nav.reset⟩) := by
    unfold bNav
    simp only [if_neg hu]
    simp only [Nat.one_ne_zero, false_and, if_false]
    rfl
  rcases h3 with ⟨a1, a2, a3, a4⟩ | ⟨a1, a2, a3, a4⟩
  · left
    have hj0 : j ≠ 0 := fun h => hi0 (a2 h)
    have hjl : j < b'.length := by omega
    refine ⟨j, by omega, hj, h2, ?_, b'.set j (fn b' j + 1), by simpa using h1, ?_, ?_⟩
    · have := a3 hj0; have := hpos j (by omega); omega
    · rw [hun, a1]
      simp only [Except.bind, bind, if_true]
      rw [pyGet_fn hjl]
      simp only []
      rw [pySet_ok hjl]
      simp only [if_neg hj0]
    · intro l
      rw [fn_set _ _ _ _ hjl, a4, a4]
      by_cases e : l = j
      · rw [if_pos e, if_pos e, if_neg (by omega)]
      · rw [if_neg e, if_neg e]
  · right
    have hb'0 : fn b' 0 = fn b 0 + 1 := by rw [a4]; simp
    have hp0 := hpos 0 (by omega)
    obtain ⟨t, t1, t2, t3, t4, t5⟩ := skipDead_spec order (fn b 0 + 1) top (by omega) (by omega) hlive
    refine ⟨fun l l1 l2 => h2 l (by omega) l2, t, t1, t2, t4, t5, b'.set 0 t, by simpa using h1, ?_, ?_⟩
    · rw [hun, a1]
      simp only [Except.bind, bind, if_true]
      rw [if_neg (by omega), pyGet_fn (by omega), hb'0]
      simp only []
      rw [t3]
      simp only []
      rw [pySet_ok (by omega)]
    · intro l
      rw [fn_set _ _ _ _ (by omega), a4]
      by_cases e : l = 0
      · rw [if_pos e, if_pos e]
      · rw [if_neg e, if_neg e, if_neg e]

/-- the first level when there are at most two species -/
theorem bNav_zero (C : List Nat) (u b0 : Nat) (b : List Nat) (order : List Int) (top : Nat)
    (hC : C.length = b.length) (hl1 : 1 ≤ b.length) (hl2 : b.length ≤ 2) (hb0 : b0 = 0)
    (hpos : ∀ j < b.length, fn b j < fn C j) (hlast : b.length = 2 → fn C 1 = 1)
    (htop : top = fn C 0) (hord : order.length = top + 1) (hlive : order[top]? ≠ some (-1)) :
    ∃ t, fn b 0 + 1 ≤ t ∧ t ≤ top ∧ order[t]? ≠ some (-1) ∧
      (∀ l, fn b 0 + 1 ≤ l → l < t → order[l]? = some (-1)) ∧
      bNav C u 0 b0 b order = .ok ⟨b.set 0 t, 0, if b.length = 1 then 1 else 0, decide (b.length = 2)⟩ := by
  have hp0 := hpos 0 (by omega)
  obtain ⟨t, t1, t2, t3, t4, t5⟩ := skipDead_spec order (fn b 0 + 1) top (by omega) (by omega) hlive
  refine ⟨t, t1, t2, t4, t5, ?_⟩
  subst hb0
  unfold bNav
  have e0 : (if u = 0 ∧ 0 + 2 < b.length then 0 else 0) = 0 := by split <;> rfl
  simp only [e0, true_and]
  by_cases h1 : b.length = 1
  · simp only [h1, Nat.zero_add, Nat.lt_irrefl, if_false, if_true]
    rw [if_pos (by omega), backtrack]
    simp only [bind, Except.bind, if_true]
    rw [pyGet_fn (by omega)]
    simp only []
    rw [pySet_ok (by omega)]
    simp only []
    rw [pyGet_fn (by simp; omega), fn_set _ _ _ _ (by omega), if_pos rfl]
    simp only []
    rw [t3]
    simp only []
    rw [pySet_ok (by simp; omega)]
    simp
  · have h2 : b.length = 2 := by omega
    have hb1 : fn b 1 = 0 := by have := hpos 1 (by omega); rw [hlast h2] at this; omega
    have hbt : backtrack C 1 b 1 = .ok ⟨(b.set 1 0).set 0 (fn b 0 + 1), 0, 0, true⟩ := by
      rw [backtrack, pyGet_fn (by omega), pyGet_fn (by omega)]
      simp only [bind, Except.bind]
      rw [if_pos (by rw [hb1, hlast h2]; rfl), pySet_ok (by omega)]
      simp only [if_true]
      rw [pyGet_fn (by simp; omega), fn_set _ _ _ _ (by omega), if_neg (by omega)]
      simp only []
      rw [pySet_ok (by simp; omega)]
    have hset : b.set 1 0 = b := by
      apply eq_of_fn (by simp)
      intro j hj
      rw [fn_set _ _ _ _ (by omega)]
      split
      · next h => rw [h, hb1]
      · rfl
    rw [hset] at hbt
    simp only [h2, Nat.zero_add, if_pos (show 1 < 2 by omega), if_pos (show 2 ≤ 1 + 2 by omega)]
    rw [hbt]
    simp only [bind, Except.bind]
    rw [if_neg (by omega)]
    simp only [if_true]
    rw [pyGet_fn (by simp; omega), fn_set _ _ _ _ (by omega), if_pos rfl]
    simp only []
    rw [t3]
    simp only []
    rw [pySet_ok (by simp; omega)]
    simp

end Phenum
