import Verif.Model.Sample
import Verif.Proof.Super
import Mathlib.Logic.Function.Iterate
/-
The sampling loops.
-/
namespace Phenum
open Spec

theorem pyWhileO_unfold {S : Type} (cond : S → Bool) (step : S → Option (Py S)) (s : S) :
    pyWhileO cond step s = if cond s then
      match step s with
      | none => none
      | some (.error e) => some (.error e)
      | some (.ok s') => pyWhileO cond step s'
    else some (.ok s) := by
  rw [pyWhileO]; rfl

section
variable {S : Type} {cond : S → Bool} {step : S → Option (Py S)}

theorem pyWhileO_inv {Inv : S → Prop} (hstep : ∀ s s', Inv s → cond s = true → step s = some (.ok s') → Inv s')
    (herr : ∀ s e, Inv s → cond s = true → step s ≠ some (.error e)) {s : S} {r : Py S} (hs : Inv s)
    (h : pyWhileO cond step s = some r) : ∃ s', r = .ok s' ∧ Inv s' ∧ cond s' = false := by
  have key : ∀ s r, pyWhileO cond step s = some r → Inv s → ∃ s', r = .ok s' ∧ Inv s' ∧ cond s' = false := by
    apply pyWhileO.partial_correctness (motive := fun s r => Inv s → ∃ s', r = .ok s' ∧ Inv s' ∧ cond s' = false)
    intro rec ih s r hr hs
    by_cases hc : cond s = true
    · rw [if_pos hc] at hr
      cases hst : step s with
      | none => rw [hst] at hr; simp at hr
      | some q =>
        cases q with
        | error e => exact absurd hst (herr s e hs hc)
        | ok s' =>
          rw [hst] at hr
          exact ih s' r hr (hstep s s' hs hc hst)
    · rw [if_neg hc] at hr
      have := Option.some.inj hr
      exact ⟨s, this.symm, hs, by simpa using hc⟩
  exact key s r h hs

theorem pyWhileO_iter {f : S → S} {Inv : S → Prop}
    (hstep : ∀ s, Inv s → cond s = true → step s = some (.ok (f s)) ∧ Inv (f s)) (T : ℕ) {s : S} (hs : Inv s)
    (h : ∀ t < T, cond (f^[t] s) = true) (hT : cond (f^[T] s) = false) : pyWhileO cond step s = some (.ok (f^[T] s)) := by
  induction T generalizing s with
  | zero =>
    rw [pyWhileO_unfold, if_neg (by simpa using hT)]
    rfl
  | succ T ih =>
    have h0 : cond s = true := h 0 (by omega)
    obtain ⟨h1, h2⟩ := hstep s hs h0
    rw [pyWhileO_unfold, if_pos h0, h1]
    exact ih h2 (fun t ht => h (t + 1) (by omega)) hT

theorem pyWhileO_none {f : S → S} {Inv : S → Prop}
    (hstep : ∀ s, Inv s → cond s = true → step s = some (.ok (f s)) ∧ Inv (f s)) {s : S} (hs : Inv s)
    (h : ∀ t, cond (f^[t] s) = true) : pyWhileO cond step s = none := by
  cases hr : pyWhileO cond step s with
  | none => rfl
  | some r =>
    obtain ⟨s', -, ⟨t, rfl, -⟩, hc⟩ := pyWhileO_inv (Inv := fun s' => ∃ t, f^[t] s = s' ∧ Inv s') (cond := cond) (step := step)
      (by
        rintro _ s' ⟨t, rfl, hi⟩ hc hs'
        obtain ⟨h1, h2⟩ := hstep _ hi hc
        rw [h1] at hs'
        have := Except.ok.inj (Option.some.inj hs')
        exact ⟨t + 1, by rw [Function.iterate_succ_apply', this], this ▸ h2⟩)
      (by
        rintro _ e ⟨t, rfl, hi⟩ hc
        rw [(hstep _ hi hc).1]
        simp) ⟨0, rfl, hs⟩ hr
    rw [h t] at hc
    exact absurd hc (by simp)

end

section
variable {α : Type} [DecidableEq α]

/-- the first `T` draws without repetitions -/
def distinctDraws (draw : ℕ → α) (T : ℕ) : List α := ((List.range T).map draw).eraseDups

theorem distinctDraws_succ (draw : ℕ → α) (T : ℕ) :
    distinctDraws draw (T + 1) = distinctDraws draw T ++ (if draw T ∈ distinctDraws draw T then [] else [draw T]) := by
  unfold distinctDraws
  rw [List.range_succ, List.map_append, List.eraseDups_append]
  congr 1
  simp only [List.mem_eraseDups, List.map_cons, List.map_nil]
  by_cases h : draw T ∈ (List.range T).map draw
  · rw [if_pos h]
    have : List.removeAll [draw T] ((List.range T).map draw) = [] := by
      unfold List.removeAll
      rw [List.filter_cons_of_neg (by simpa using h), List.filter_nil]
    rw [this]
    rfl
  · rw [if_neg h]
    have : List.removeAll [draw T] ((List.range T).map draw) = [draw T] := by
      unfold List.removeAll
      rw [List.filter_cons_of_pos (by simpa using h), List.filter_nil]
    rw [this]
    rfl

theorem distinctDraws_nodup (draw : ℕ → α) (T : ℕ) : (distinctDraws draw T).Nodup := by
  induction T with
  | zero => simp [distinctDraws]
  | succ T ih =>
    rw [distinctDraws_succ]
    split
    · simpa using ih
    · rename_i h
      rw [List.nodup_append]
      exact ⟨ih, by simp, by intro a ha b hb; rw [List.mem_singleton] at hb; subst hb; intro e; exact h (e ▸ ha)⟩

theorem mem_distinctDraws {draw : ℕ → α} {T : ℕ} {d : α} : d ∈ distinctDraws draw T ↔ ∃ t < T, draw t = d := by
  unfold distinctDraws
  simp

/-- one iteration of the sampling loop, when the outcome depends on the draw only -/
def sampleNext (draw : ℕ → α) (B : α → List Config) (s : SampleState α) : SampleState α :=
  if draw s.t ∈ s.visited then { s with t := s.t + 1 }
  else ⟨s.t + 1, s.visited ++ [draw s.t], s.surv ++ B (draw s.t)⟩

theorem sampleNext_iter (draw : ℕ → α) (B : α → List Config) (T : ℕ) :
    (sampleNext draw B)^[T] ⟨0, [], []⟩ = ⟨T, distinctDraws draw T, (distinctDraws draw T).flatMap B⟩ := by
  induction T with
  | zero => simp [distinctDraws]
  | succ T ih =>
    rw [Function.iterate_succ_apply', ih, sampleNext, distinctDraws_succ]
    by_cases h : draw T ∈ distinctDraws draw T
    · simp [h]
    · simp [h, List.flatMap_append]

/-- When the outcome depends on the draw only and each draw gives at most one configuration, the loop returns the first
`wanted` configurations, as soon as there are as many; otherwise it does not return. -/
theorem sampleLoop_eq {draw : ℕ → α} {body : ℕ → α → List α → Option (Py (List Config))} {B : α → List Config} (wanted : ℕ)
    (hB : ∀ t, ∀ v, body t (draw t) v = some (.ok (B (draw t)))) (h1 : ∀ t, (B (draw t)).length ≤ 1) :
    (∀ T, wanted ≤ ((distinctDraws draw T).flatMap B).length →
      ∃ s, sampleLoop draw body wanted = some (.ok s) ∧ s.surv = ((distinctDraws draw T).flatMap B).take wanted) ∧
    ((∀ T, ((distinctDraws draw T).flatMap B).length < wanted) → sampleLoop draw body wanted = none) := by
  have hstep : ∀ s, (fun s : SampleState α => True) s → decide (s.surv.length < wanted) = true →
      sampleStep draw body s = some (.ok (sampleNext draw B s)) ∧ True := by
    intro s _ _
    refine ⟨?_, trivial⟩
    unfold sampleStep sampleNext
    split
    · rfl
    · rw [hB]
  have hmono : ∀ T, ((distinctDraws draw T).flatMap B) <+: ((distinctDraws draw (T + 1)).flatMap B) := by
    intro T
    rw [distinctDraws_succ, List.flatMap_append]
    exact List.prefix_append _ _
  have hmono' : ∀ T k, ((distinctDraws draw T).flatMap B) <+: ((distinctDraws draw (T + k)).flatMap B) := by
    intro T k
    induction k with
    | zero => exact List.prefix_rfl
    | succ k ih => exact ih.trans (hmono (T + k))
  have hone : ∀ T, ((distinctDraws draw (T + 1)).flatMap B).length ≤ ((distinctDraws draw T).flatMap B).length + 1 := by
    intro T
    rw [distinctDraws_succ, List.flatMap_append, List.length_append]
    have := h1 T
    split
    · simp
    · simp only [List.flatMap_cons, List.flatMap_nil, List.append_nil]; omega
  constructor
  · intro T hT
    have hex : ∃ T, wanted ≤ ((distinctDraws draw T).flatMap B).length := ⟨T, hT⟩
    classical
    let T0 := Nat.find hex
    have hT0 : wanted ≤ ((distinctDraws draw T0).flatMap B).length := Nat.find_spec hex
    have hlt : ∀ t < T0, ((distinctDraws draw t).flatMap B).length < wanted := fun t ht => by
      have := Nat.find_min hex ht
      omega
    have hlen : ((distinctDraws draw T0).flatMap B).length = wanted := by
      rcases Nat.eq_zero_or_pos T0 with h | h
      · have : ((distinctDraws draw T0).flatMap B).length = 0 := by rw [h]; simp [distinctDraws]
        omega
      · have h2 := hlt (T0 - 1) (by omega)
        have h3 := hone (T0 - 1)
        rw [show T0 - 1 + 1 = T0 by omega] at h3
        omega
    refine ⟨_, pyWhileO_iter (Inv := fun _ => True) (f := sampleNext draw B) hstep T0 trivial ?_ ?_, ?_⟩
    · intro t ht
      rw [sampleNext_iter]
      simpa using hlt t ht
    · rw [sampleNext_iter]
      simpa using hT0
    · rw [sampleNext_iter]
      have hle : T0 ≤ T := Nat.find_min' hex hT
      obtain ⟨r, hr⟩ := hmono' T0 (T - T0)
      rw [show T0 + (T - T0) = T by omega] at hr
      rw [← hr, List.take_append_of_le_length (by omega), ← hlen, List.take_length]
  · intro h
    apply pyWhileO_none (Inv := fun _ => True) (f := sampleNext draw B) hstep trivial
    intro t
    rw [sampleNext_iter]
    simpa using h t

end

end Phenum
