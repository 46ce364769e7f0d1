import Verif.Proof.Combined
import Verif.Proof.Super
import Verif.Proof.Subset
/-
Superperiodic structures with arrows.
-/
namespace Phenum
open Spec

/-- the test of the code for one operation -/
def codeSuper1 (z : Config) (t : Op) : Prop :=
  (t.1 ≠ List.range t.1.length ∨ t.2 ≠ List.range t.2.length) ∧ permute t.1 (z.map (·.2)) = z.map (·.2) ∧ arr (act t z) = arr z

instance (z : Config) (t : Op) : Decidable (codeSuper1 z t) := by unfold codeSuper1; infer_instance

theorem arrowNotSuper_eq {n dim : Nat} (T : List Op) (hT : OpsOk n dim T) {z : Config} (hz : z.length = n)
    (hlt : ∀ s ∈ z, s.1 < dim) : arrowNotSuper z (arr z) T = .ok (decide (∀ t ∈ T, ¬ codeSuper1 z t)) := by
  induction T with
  | nil => simp [arrowNotSuper]
  | cons t T ih =>
    have ht := hT t (by simp)
    have ih := ih (fun g hg => hT g (by simp [hg]))
    rw [arrowNotSuper]
    have hcons : ∀ P : Prop, [Decidable P] → (codeSuper1 z t ↔ P) →
        (decide (∀ t' ∈ t :: T, ¬ codeSuper1 z t')) = if P then false else decide (∀ t' ∈ T, ¬ codeSuper1 z t') := by
      intro P _ hP
      by_cases h : P
      · rw [if_pos h, decide_eq_false_iff_not]
        intro hc
        exact hc t (by simp) (hP.mpr h)
      · rw [if_neg h, decide_eq_decide]
        constructor
        · intro hc t' ht'; exact hc t' (by simp [ht'])
        · intro hc t' ht'
          rcases List.mem_cons.mp ht' with rfl | h'
          · exact fun h2 => h (hP.mp h2)
          · exact hc t' h'
    by_cases hc : t.1 ≠ List.range t.1.length ∨ t.2 ≠ List.range t.2.length
    · simp only [if_pos hc, bind, Except.bind]
      rw [pyGather_eq t.1 (z.map (·.2)) (by rw [List.length_map, hz]; exact perm_range_lt ht.1),
        pyGather_eq t.1 (z.map (·.1)) (by rw [List.length_map, hz]; exact perm_range_lt ht.1)]
      simp only []
      rw [permute_map t.1 z (·.1), permuteArrows_eq t.2 (permute t.1 z) (by
        intro s hs
        rw [perm_range_length ht.2]
        exact hlt s ((permute_perm t.1 z (by rw [hz]; exact ht.1)).mem_iff.mp hs))]
      simp only []
      rw [hcons (z.map (·.2) = permute t.1 (z.map (·.2)) ∧ arr (act t z) = arr z) (by
        unfold codeSuper1
        constructor
        · rintro ⟨-, h1, h2⟩; exact ⟨h1.symm, h2⟩
        · rintro ⟨h1, h2⟩; exact ⟨hc, h1.symm, h2⟩)]
      have hact : arr (act t z) = arr (List.map (turn t.2) (permute t.1 z)) := rfl
      simp only [hact]
      split
      · rfl
      · exact ih
    · simp only [if_neg hc, bind, Except.bind]
      rw [ih, hcons False (by unfold codeSuper1; constructor <;> [exact fun h => hc h.1; exact fun h => h.elim]), if_neg (by simp)]

theorem addArrowsLoop_super {dim : Nat} {col : Config} (hd : 0 < dim) (H : List Op) (hH : OpsOk col.length dim H)
    (tr : List Op) (hT : OpsOk col.length dim tr) (ms : List Nat) (hms : ∀ m ∈ ms, m < dim ^ nArr col) (surv : List Config) :
    addArrowsLoop col H dim tr none none false (nArr col) ms surv =
      .ok (surv ++ ((ms.map (fillNo col dim)).filter (fun z => decide (AMin dim H z))).filter (fun z => decide (∀ t ∈ tr, ¬ codeSuper1 z t))) := by
  induction ms generalizing surv with
  | nil => simp [addArrowsLoop]
  | cons m ms ih =>
    have ih := ih (fun m' hm' => hms m' (by simp [hm']))
    obtain ⟨h1, h2, h3, h4⟩ := fillNo_spec hd (hms m (by simp))
    have hlen : (fillNo col dim m).length = col.length := by
      have := congrArg List.length h2.1; simpa [erase_eq] using this
    rw [addArrowsLoop, ← h3, arrowUnique_eq H hH h2, fillArrows_arr h2.1]
    simp only [bind, Except.bind]
    have hdec : decide (∀ g ∈ H, m ≤ ahash (arr (act g (fillNo col dim m))) dim)
        = decide (AMin dim H (fillNo col dim m)) := by
      rw [decide_eq_decide]; unfold AMin; rw [h4]
    rw [hdec, List.map_cons, List.filter_cons]
    by_cases hm : AMin dim H (fillNo col dim m)
    · simp only [hm, decide_true, if_true, Bool.false_eq_true, if_false]
      rw [arrowNotSuper_eq tr hT hlen h2.2]
      simp only [List.filter_cons]
      by_cases hs : ∀ t ∈ tr, ¬ codeSuper1 (fillNo col dim m) t
      · simp only [decide_eq_true hs, Bool.and_self, if_true]
        rw [if_neg (by simp), ih]
        simp
      · simp only [decide_eq_false hs, Bool.and_false, Bool.false_eq_true, if_false]
        rw [ih]
    · simp only [hm, decide_false, Bool.false_eq_true, if_false]
      rw [ih]

theorem addArrows_super {dim : Nat} {col : Config} (hd : 0 < dim) (H : List Op) (hH : OpsOk col.length dim H)
    (tr : List Op) (hT : OpsOk col.length dim tr) :
    addArrows col H dim tr none none false =
      .ok ((arrowReps col dim H).filter (fun z => decide (∀ t ∈ tr, ¬ codeSuper1 z t))) := by
  unfold addArrows
  simp only []
  rw [howManyArrows_fst, ahash_max _ _ hd, addArrowsLoop_super hd H hH tr hT _ (by simp)]
  rfl

theorem codeSuper_of_fixed {z : Config} {t : Op} (hn : t.1 ≠ List.range t.1.length) (h : act t z = z) : codeSuper1 z t := by
  refine ⟨Or.inl hn, ?_, by rw [h]⟩
  have := congrArg (List.map (·.2)) h
  rw [act, List.map_map] at this
  have e : (fun s : Site => s.2) ∘ turn t.2 = fun s => s.2 := by
    funext s; simp only [Function.comp, turn]; split <;> rfl
  rw [show ((fun x : Int × Nat => x.2) ∘ turn t.2) = fun s => s.2 from e, ← permute_map] at this
  exact this

/-- Two configurations with the same colours at every site, where the colour tells whether there is an arrow, and with the
same arrows in order, are equal. -/
theorem eq_of_arr : ∀ (z w : Config), z.map (·.2) = w.map (·.2) → arr z = arr w → z.map (fun s => decide (s.1 < 0)) = w.map (fun s => decide (s.1 < 0)) →
    (∀ s ∈ z, s.1 < 0 → s.1 = -1) → (∀ s ∈ w, s.1 < 0 → s.1 = -1) → z = w
  | [], [], _, _, _, _, _ => rfl
  | [], _ :: _, h, _, _, _, _ => by simp at h
  | _ :: _, [], h, _, _, _, _ => by simp at h
  | s :: z, t :: w, h1, h2, h3, h4, h5 => by
    simp only [List.map_cons, List.cons.injEq] at h1 h3
    obtain ⟨h1a, h1b⟩ := h1
    obtain ⟨h3a, h3b⟩ := h3
    rw [decide_eq_decide] at h3a
    by_cases hs : s.1 < 0
    · have e1 : s = t := Prod.ext (by rw [h4 s (by simp) hs, h5 t (by simp) (h3a.mp hs)]) h1a
      have : arr z = arr w := by
        simpa [arr, hs, h3a.mp hs, Int.not_le.mpr hs, Int.not_le.mpr (h3a.mp hs)] using h2
      rw [e1, eq_of_arr z w h1b this h3b (fun s hs => h4 s (by simp [hs])) (fun s hs => h5 s (by simp [hs]))]
    · have hs' : 0 ≤ s.1 := by omega
      have ht' : 0 ≤ t.1 := by have := mt h3a.mpr hs; omega
      have h2' : s.1.toNat = t.1.toNat ∧ arr z = arr w := by
        simpa [arr, hs', ht', Int.not_lt.mpr hs', Int.not_lt.mpr ht'] using h2
      have e1 : s = t := Prod.ext (by omega) h1a
      rw [e1, eq_of_arr z w h1b h2'.2 h3b (fun s hs => h4 s (by simp [hs])) (fun s hs => h5 s (by simp [hs]))]

end Phenum
