import Verif.Model.Noise
import Verif.Proof.Tolerance
/-
Runs with rounding errors: proofs. Where the numbers of the crystal are coarse compared with the tolerance, errors below the tolerance
change no comparison.
-/
namespace Phenum
open Spec

section
variable {α β γ : Type}

theorem noisy_pure (a : α) : (pure a : Noisy α) = sure (.ok a) := rfl

theorem sure_ok_bind (a : α) (f : α → Noisy β) : (sure (.ok a) >>= f) = f a := by
  funext r
  apply propext
  constructor
  · rintro (⟨e, he, -⟩ | ⟨b, hb, h⟩)
    · cases he
    · cases hb; exact h
  · exact fun h => Or.inr ⟨a, rfl, h⟩

theorem sure_error_bind (e : PyErr) (f : α → Noisy β) : (sure (.error e) >>= f) = sure (.error e) := by
  funext r
  apply propext
  constructor
  · rintro (⟨e', he, h⟩ | ⟨b, hb, h⟩)
    · cases he; exact h
    · cases hb
  · exact fun h => Or.inl ⟨e, rfl, h⟩

/-- A computation without errors. -/
theorem sure_bind (x : Py α) (f : α → Noisy β) (g : α → Py β) (h : ∀ a, x = .ok a → f a = sure (g a)) : (sure x >>= f) = sure (x >>= g) := by
  cases x with
  | error e => rw [sure_error_bind]; rfl
  | ok a => rw [sure_ok_bind, h a rfl]; rfl

/-- A computation without errors that has a value. -/
theorem bind_ok {x : Noisy α} {a : α} (hx : x = sure (.ok a)) (f : α → Noisy β) : (x >>= f) = f a := by
  rw [hx, sure_ok_bind]

/-- Every result is a value with the property, and there is a result. -/
def Always (x : Noisy α) (Q : α → Prop) : Prop := (∃ r, x r) ∧ ∀ r, x r → ∃ a, r = .ok a ∧ Q a

theorem Always.bind {x : Noisy α} {Q : α → Prop} (h : Always x Q) {f : α → Noisy β} {r : Py β} (hf : ∀ a, Q a → f a = sure r) :
    (x >>= f) = sure r := by
  obtain ⟨⟨r0, hr0⟩, hall⟩ := h
  funext r'
  apply propext
  constructor
  · rintro (⟨e, he, -⟩ | ⟨a, ha, h⟩)
    · obtain ⟨a, hc, -⟩ := hall _ he; cases hc
    · obtain ⟨b, hb, hQ⟩ := hall _ ha
      cases hb
      rw [hf a hQ] at h
      exact h
  · intro h
    obtain ⟨a, rfl, hQ⟩ := hall _ hr0
    exact Or.inr ⟨a, hr0, by rw [hf a hQ]; exact h⟩

theorem Always.bindA {x : Noisy α} {Q : α → Prop} (h : Always x Q) {f : α → Noisy β} {Q' : β → Prop} (hf : ∀ a, Q a → Always (f a) Q') :
    Always (x >>= f) Q' := by
  obtain ⟨⟨r0, hr0⟩, hall⟩ := h
  constructor
  · obtain ⟨a, rfl, hQ⟩ := hall _ hr0
    obtain ⟨r, hr⟩ := (hf a hQ).1
    exact ⟨r, Or.inr ⟨a, hr0, hr⟩⟩
  · rintro r (⟨e, he, -⟩ | ⟨a, ha, h⟩)
    · obtain ⟨a, hc, -⟩ := hall _ he; cases hc
    · obtain ⟨b, hb, hQ⟩ := hall _ ha
      cases hb
      exact (hf a hQ).2 _ h

theorem Always.pure {Q : α → Prop} {a : α} (h : Q a) : Always (Pure.pure a) Q :=
  ⟨⟨_, rfl⟩, fun _ hr => ⟨a, hr, h⟩⟩

theorem Always.and {x : Noisy α} {Q Q' : α → Prop} (h : Always x Q) (h' : Always x Q') : Always x (fun a => Q a ∧ Q' a) := by
  refine ⟨h.1, fun r hr => ?_⟩
  obtain ⟨a, rfl, ha⟩ := h.2 r hr
  obtain ⟨b, hb, hb'⟩ := h'.2 _ hr
  cases hb
  exact ⟨a, rfl, ha, hb'⟩

theorem Always.mono {x : Noisy α} {Q Q' : α → Prop} (h : Always x Q) (h' : ∀ a, Q a → Q' a) : Always x Q' :=
  ⟨h.1, fun r hr => by obtain ⟨a, e, ha⟩ := h.2 r hr; exact ⟨a, e, h' a ha⟩⟩

theorem meas_always {δ : ℝ} (h : 0 ≤ δ) (x : ℝ) : Always (meas δ x) (fun y => |y - x| ≤ δ) :=
  ⟨⟨.ok x, x, by simpa using h, rfl⟩, by rintro r ⟨y, hy, rfl⟩; exact ⟨y, rfl, hy⟩⟩

theorem measV_always {δ : ℝ} (h : 0 ≤ δ) (v : V3) : Always (measV δ v) (fun w => ∀ i, |w i - v i| ≤ δ) :=
  ⟨⟨.ok v, v, by simpa using h, rfl⟩, by rintro r ⟨y, hy, rfl⟩; exact ⟨y, rfl, hy⟩⟩

theorem measM_always {δ : ℝ} (h : 0 ≤ δ) (m : M3 ℝ) : Always (measM δ m) (fun w => ∀ i j, |w i j - m i j| ≤ δ) :=
  ⟨⟨.ok m, m, by simpa using h, rfl⟩, by rintro r ⟨y, hy, rfl⟩; exact ⟨y, rfl, hy⟩⟩

theorem mapN_sure {f : α → Noisy β} {g : α → Py β} : ∀ l : List α, (∀ a ∈ l, f a = sure (g a)) → mapN f l = sure (l.mapM g)
  | [], _ => rfl
  | a :: l, h => by
    rw [List.mapM_cons]
    unfold mapN
    rw [h a (by simp)]
    refine sure_bind _ _ _ fun x _ => ?_
    rw [mapN_sure l (fun b hb => h b (by simp [hb]))]
    exact sure_bind _ _ _ fun y _ => rfl

theorem mapN_ok {f : α → Noisy β} {g : α → β} : ∀ l : List α, (∀ a ∈ l, f a = sure (.ok (g a))) → mapN f l = sure (.ok (l.map g))
  | [], _ => rfl
  | a :: l, h => by
    unfold mapN
    rw [h a (by simp), sure_ok_bind, mapN_ok l (fun b hb => h b (by simp [hb])), sure_ok_bind]
    rfl

theorem flatMapN_ok {f : α → Noisy (List β)} {g : α → List β} : ∀ l : List α, (∀ a ∈ l, f a = sure (.ok (g a))) →
    flatMapN f l = sure (.ok (l.flatMap g))
  | [], _ => rfl
  | a :: l, h => by
    unfold flatMapN
    rw [h a (by simp), sure_ok_bind, flatMapN_ok l (fun b hb => h b (by simp [hb])), sure_ok_bind]
    rfl

/-- What the results of a loop have in common, seen through `h`. -/
theorem flatMapN_always {f : α → Noisy (List β)} {Good : (β → List γ) → Prop} {F : (β → List γ) → α → List γ} :
    ∀ l : List α, (∀ a ∈ l, Always (f a) (fun r => ∀ h, Good h → r.flatMap h = F h a)) →
    Always (flatMapN f l) (fun r => ∀ h, Good h → r.flatMap h = l.flatMap (F h))
  | [], _ => Always.pure (by simp)
  | a :: l, h => by
    unfold flatMapN
    refine (h a (by simp)).bindA fun x hx => ?_
    refine (flatMapN_always l (fun b hb => h b (by simp [hb]))).bindA fun r hr => ?_
    refine Always.pure fun k hk => ?_
    rw [List.flatMap_append, hx k hk, hr k hk, List.flatMap_cons]

theorem flatMapN_all {f : α → Noisy (List β)} {L : β → Prop} : ∀ l : List α, (∀ a ∈ l, Always (f a) (fun r => ∀ v ∈ r, L v)) →
    Always (flatMapN f l) (fun r => ∀ v ∈ r, L v)
  | [], _ => Always.pure (by simp)
  | a :: l, h => by
    unfold flatMapN
    refine (h a (by simp)).bindA fun x hx => ?_
    refine (flatMapN_all l (fun b hb => h b (by simp [hb]))).bindA fun r hr => ?_
    refine Always.pure fun v hv => ?_
    rcases List.mem_append.mp hv with hv | hv
    · exact hx v hv
    · exact hr v hv

end

/-! ## `bring_into_cell` -/

section
variable {P : M3 ℝ} {D : ℕ} {eps δ : ℝ}

/-- what the comparisons say about a multiple of `1/D` -/
theorem seen_grid (hD : 0 < D) (hs : (eps + δ) * D < 1) (hδ : δ < eps) {v w : ℝ} (hv : ∃ z : ℤ, v = (z : ℝ) / D) (hw : |w - v| ≤ δ) :
    (w > 1 - eps ↔ 1 ≤ v) ∧ (w ≥ 1 - eps ↔ 1 ≤ v) ∧ (w < 0 - eps ↔ v < 0) := by
  have hD' : (0 : ℝ) < D := by exact_mod_cast hD
  obtain ⟨z, rfl⟩ := hv
  rw [abs_le] at hw
  have hgap : eps + δ < 1 / D := by rw [lt_div_iff₀ hD']; exact hs
  have h1 : ¬ 1 ≤ (z : ℝ) / D → (z : ℝ) / D ≤ 1 - 1 / D := by
    intro h
    rw [not_le, div_lt_one hD'] at h
    have h' : z < D := by exact_mod_cast h
    have h'' : (z : ℝ) ≤ D - 1 := by
      have : z ≤ D - 1 := by omega
      exact_mod_cast this
    rw [div_le_iff₀ hD', sub_mul, one_div, inv_mul_cancel₀ hD'.ne', one_mul]
    exact h''
  have h2 : (z : ℝ) / D < 0 → (z : ℝ) / D ≤ - (1 / D) := by
    intro h
    have h' : (z : ℝ) < 0 := by
      by_contra hc
      have : 0 ≤ (z : ℝ) / D := div_nonneg (not_lt.mp hc) hD'.le
      linarith
    have h'' : z < 0 := by exact_mod_cast h'
    have h3 : (z : ℝ) ≤ -1 := by
      have : z ≤ -1 := by omega
      exact_mod_cast this
    rw [div_le_iff₀ hD', neg_mul, one_div, inv_mul_cancel₀ hD'.ne']
    exact h3
  refine ⟨⟨fun h => ?_, fun h => by linarith⟩, ⟨fun h => ?_, fun h => by linarith⟩, ⟨fun h => by linarith, fun h => by linarith [h2 h]⟩⟩
  · by_contra hc; linarith [h1 hc]
  · by_contra hc; linarith [h1 hc]

theorem wrapLoopN_ok (h0 : 0 ≤ δ) (hD : 0 < D) (hs : (eps + δ) * D < 1) (hδ : δ < eps) : ∀ (k : ℕ) (v : V3),
    (∀ i, ∃ z : ℤ, v i = (z : ℝ) / D) → (∀ i, -(k : ℝ) ≤ v i ∧ v i < k + 1) →
    wrapLoopN δ eps k v = sure (.ok (fun i => Int.fract (v i)))
  | k, v, hg, hb => by
    have hD' : (0 : ℝ) < D := by exact_mod_cast hD
    unfold wrapLoopN
    refine (measV_always h0 v).bind fun w hw => ?_
    have hseen := fun i => seen_grid hD hs hδ (hg i) (hw i)
    have hout : ((w 0 > 1 - eps ∨ w 1 > 1 - eps ∨ w 2 > 1 - eps) ∨ (w 0 < 0 - eps ∨ w 1 < 0 - eps ∨ w 2 < 0 - eps)) ↔
        ¬ ∀ i, 0 ≤ v i ∧ v i < 1 := by
      rw [(hseen 0).1, (hseen 1).1, (hseen 2).1, (hseen 0).2.2, (hseen 1).2.2, (hseen 2).2.2]
      simp only [Fin.forall_fin_succ, Fin.forall_fin_zero_pi, not_and_or, not_le, not_lt, Fin.isValue]
      simp
      tauto
    by_cases hin : ∀ i, 0 ≤ v i ∧ v i < 1
    · rw [if_neg (by rw [hout]; exact not_not.mpr hin), noisy_pure]
      congr 2
      funext i
      exact (Int.fract_eq_self.mpr (hin i)).symm
    · rw [if_pos (hout.mpr hin)]
      cases k with
      | zero =>
        exfalso
        apply hin
        intro i
        have := hb i
        simpa using this
      | succ k =>
        have hstep : ∀ i, wrapStepN eps (w i) (v i) = if 1 ≤ v i then v i - 1 else if v i < 0 then v i + 1 else v i := by
          intro i
          unfold wrapStepN
          simp only [(hseen i).2.1, (hseen i).2.2]
        show wrapLoopN δ eps k (fun i => wrapStepN eps (w i) (v i)) = _
        rw [wrapLoopN_ok h0 hD hs hδ k]
        · congr 2
          funext i
          rw [hstep]
          split_ifs
          · exact Int.fract_sub_one _
          · exact Int.fract_add_one _
          · rfl
        · intro i
          rw [hstep]
          obtain ⟨z, hz⟩ := hg i
          rw [hz]
          split_ifs
          · exact ⟨z - D, by push_cast; field_simp⟩
          · exact ⟨z + D, by push_cast; field_simp⟩
          · exact ⟨z, rfl⟩
        · intro i
          rw [hstep]
          have := hb i
          push_cast at this
          have hk : (0 : ℝ) ≤ k := Nat.cast_nonneg k
          split_ifs <;> constructor <;> linarith

/-- `bring_into_cell` on the grid, with errors below the tolerance. -/
theorem bringN_ok (hP : P.det ≠ 0) (h0 : 0 ≤ δ) (hD : 0 < D) (hs : (eps + δ) * D < 1) (hδ : δ < eps) {v : V3} (hv : v ∈ Grid P D) :
    bringIntoCellN δ v (P.transpose)⁻¹ P.transpose eps = sure (.ok (canonV P v)) := by
  have hD' : (0 : ℝ) < D := by exact_mod_cast hD
  have hD1 : (1 : ℝ) ≤ D := by exact_mod_cast hD
  have hδ1 : δ < 1 := by nlinarith
  have hg : ∀ i, ∃ z : ℤ, (P.transpose)⁻¹.mulVec v i = (z : ℝ) / D := by
    obtain ⟨x, rfl⟩ := hv
    intro i
    refine ⟨x i, ?_⟩
    rw [Matrix.mulVec_mulVec, c2l_l2c hP, Matrix.one_mulVec]
  unfold bringIntoCellN
  refine (measV_always h0 _).bind fun w hw => ?_
  simp only
  have hm : 0 ≤ max ⌈|max3 w|⌉ ⌈|min3 w|⌉ := le_trans (Int.ceil_nonneg (abs_nonneg (max3 w))) (le_max_left _ _)
  obtain ⟨m, hmm⟩ := Int.eq_ofNat_of_zero_le hm
  rw [wrapLoopN_ok h0 hD hs hδ _ _ hg, sure_ok_bind]
  · rfl
  · intro i
    have e1 : ((max ⌈|max3 w|⌉ ⌈|min3 w|⌉ * 2).toNat : ℝ) = 2 * m := by
      rw [hmm]
      have : ((m : ℤ) * 2).toNat = 2 * m := by omega
      rw [this]
      push_cast
      ring
    have b1 : |max3 w| ≤ m := by
      have : (⌈|max3 w|⌉ : ℝ) ≤ ((m : ℤ) : ℝ) := by
        rw [← hmm]
        exact_mod_cast le_max_left _ _
      exact le_trans (Int.le_ceil _) (by simpa using this)
    have b2 : |min3 w| ≤ m := by
      have : (⌈|min3 w|⌉ : ℝ) ≤ ((m : ℤ) : ℝ) := by
        rw [← hmm]
        exact_mod_cast le_max_right _ _
      exact le_trans (Int.le_ceil _) (by simpa using this)
    rw [e1]
    have hwi := abs_le.mp (hw i)
    have h1 := le_trans (le_max3 w i) (le_trans (le_abs_self _) b1)
    have h2 := le_trans (neg_le_neg b2) (le_trans (neg_abs_le _) (min3_le w i))
    have hm0 : (0 : ℝ) ≤ m := Nat.cast_nonneg m
    refine ⟨?_, by linarith⟩
    rcases Nat.eq_zero_or_pos m with hz | hz
    · rw [hz] at h2 ⊢
      simp only [Nat.cast_zero, neg_zero, mul_zero] at h2 ⊢
      by_contra hc
      have := (seen_grid hD hs hδ (hg i) (hw i)).2.2.mpr (not_le.mp hc)
      linarith
    · have : (1 : ℝ) ≤ m := by exact_mod_cast hz
      linarith

end
end Phenum
