import Verif.Props.SpaceGroup
import Verif.Proof.Derivative
import Verif.Proof.Induced
import Mathlib.RepresentationTheory.Character
/-
The number of symmetries of a lattice divides 48.
-/
namespace Phenum
open Spec

/-- Blichfeldt's argument: the values of the character determine a bound for the order -/
theorem order_dvd {H V : Type} [Group H] [Fintype H] [AddCommGroup V] [Module ℝ V] [FiniteDimensional ℝ V] (ρ : Representation ℝ H V)
    (h1 : ρ.character 1 = 3) (hχ : ∀ g, g ≠ 1 → ρ.character g = -1 ∨ ρ.character g = 0 ∨ ρ.character g = 1 ∨ ρ.character g = 2) :
    Fintype.card H ∣ 24 := by
  classical
  have hc : (Nat.card H : ℝ) ≠ 0 := by exact_mod_cast Nat.card_pos.ne'
  haveI : Invertible (Nat.card H : ℝ) := invertibleOfNonzero hc
  have hsum : ∀ {W : Type} [AddCommGroup W] [Module ℝ W] [FiniteDimensional ℝ W] (σ : Representation ℝ H W), ∃ m : ℤ, ∑ g, σ.character g = Nat.card H * (m : ℝ) := by
    intro W _ _ _ σ
    refine ⟨Module.finrank ℝ (Representation.invariants σ), ?_⟩
    have := Representation.card_inv_mul_sum_char_eq_finrank σ
    push_cast
    rw [← this]
    field_simp
  obtain ⟨m1, e1⟩ := hsum ρ
  obtain ⟨m2, e2⟩ := hsum (Representation.tprod ρ ρ)
  obtain ⟨m3, e3⟩ := hsum (Representation.tprod ρ (Representation.tprod ρ ρ))
  obtain ⟨m4, e4⟩ := hsum (Representation.tprod ρ (Representation.tprod ρ (Representation.tprod ρ ρ)))
  simp only [Representation.char_tensor, Pi.mul_apply] at e2 e3 e4
  have key : ∑ g, (ρ.character g * (ρ.character g * (ρ.character g * ρ.character g)) - 2 * (ρ.character g * (ρ.character g * ρ.character g)) -
      ρ.character g * ρ.character g + 2 * ρ.character g) = 24 := by
    rw [Finset.sum_eq_single 1]
    · rw [h1]; norm_num
    · intro g _ hg
      rcases hχ g hg with h | h | h | h <;> rw [h] <;> norm_num
    · intro h; exact absurd (Finset.mem_univ _) h
  rw [Finset.sum_add_distrib, Finset.sum_sub_distrib, Finset.sum_sub_distrib, ← Finset.mul_sum, ← Finset.mul_sum, e1, e2, e3, e4] at key
  have key2 : (Nat.card H : ℤ) * (m4 - 2 * m3 - m2 + 2 * m1) = 24 := by
    have : ((Nat.card H : ℤ) : ℝ) * ((m4 - 2 * m3 - m2 + 2 * m1 : ℤ) : ℝ) = ((24 : ℤ) : ℝ) := by
      push_cast
      rw [← key]
      ring
    exact_mod_cast this
  have : ((Fintype.card H : ℕ) : ℤ) ∣ ((24 : ℕ) : ℤ) := ⟨m4 - 2 * m3 - m2 + 2 * m1, by rw [← Nat.card_eq_fintype_card]; exact_mod_cast key2.symm⟩
  exact_mod_cast this

theorem orth_diag_le {R : M3 ℝ} (h : R * R.transpose = 1) (i : Fin 3) : R i i ≤ 1 := by
  have := congrFun (congrFun h i) i
  rw [Matrix.mul_apply, Matrix.one_apply_eq] at this
  simp only [Matrix.transpose_apply] at this
  have h2 : R i i * R i i ≤ 1 := by
    rw [← this]
    exact Finset.single_le_sum (f := fun j => R i j * R i j) (fun j _ => mul_self_nonneg _) (Finset.mem_univ i)
  nlinarith [sq_nonneg (R i i - 1)]

theorem orth_trace_le {R : M3 ℝ} (h : R * R.transpose = 1) : R.trace ≤ 3 := by
  rw [Matrix.trace_fin_three]
  have h0 := orth_diag_le h 0
  have h1 := orth_diag_le h 1
  have h2 := orth_diag_le h 2
  linarith

theorem orth_trace_three {R : M3 ℝ} (h : R * R.transpose = 1) (ht : R.trace = 3) : R = 1 := by
  rw [Matrix.trace_fin_three] at ht
  have h0 := orth_diag_le h 0
  have h1 := orth_diag_le h 1
  have h2 := orth_diag_le h 2
  have d0 : R 0 0 = 1 := by linarith
  have d1 : R 1 1 = 1 := by linarith
  have d2 : R 2 2 = 1 := by linarith
  have r0 := congrFun (congrFun h 0) 0
  have r1 := congrFun (congrFun h 1) 1
  have r2 := congrFun (congrFun h 2) 2
  rw [Matrix.mul_apply, Fin.sum_univ_three, Matrix.one_apply_eq] at r0 r1 r2
  simp only [Matrix.transpose_apply, d0, d1, d2] at r0 r1 r2
  ext i j
  fin_cases i <;> fin_cases j <;> simp only [Fin.zero_eta, Fin.mk_one, Fin.reduceFinMk, Matrix.one_apply, d0, d1, d2] <;> simp <;>
    nlinarith [sq_nonneg (R 0 1), sq_nonneg (R 0 2), sq_nonneg (R 1 0), sq_nonneg (R 1 2), sq_nonneg (R 2 0), sq_nonneg (R 2 1)]

/-- the trace of a rotation -/
theorem rot_trace {R : M3 ℝ} (h : R * R.transpose = 1) (hd : R.det = 1) : -1 ≤ R.trace := by
  have h2 : (R * R) * (R * R).transpose = 1 := by
    rw [Matrix.transpose_mul, Matrix.mul_assoc, ← Matrix.mul_assoc R R.transpose, h, Matrix.one_mul, h]
  have ht := orth_trace_le h2
  have hadj : R.adjugate = R.transpose := by
    have h3 : R⁻¹ = R.transpose := Matrix.inv_eq_right_inv h
    rw [Matrix.inv_def, hd] at h3
    simpa using h3
  have e2 := congrArg Matrix.trace hadj
  rw [Matrix.trace_transpose, Matrix.adjugate_fin_three, Matrix.trace_fin_three] at e2
  simp at e2
  have e3 : (R * R).trace = R.trace ^ 2 - 2 * R.trace := by
    rw [Matrix.trace_fin_three, Matrix.mul_apply, Matrix.mul_apply, Matrix.mul_apply, Fin.sum_univ_three, Fin.sum_univ_three, Fin.sum_univ_three]
    have e4 := Matrix.trace_fin_three R
    rw [e4] at e2 ⊢
    linear_combination (-2) * e2
  rw [e3] at ht
  have := orth_trace_le h
  nlinarith

/-- the trace of a symmetry of a lattice is a whole number -/
theorem latSym_trace {A R : M3 ℝ} (hA : A.det ≠ 0) (h : IsLatSym A R) : ∃ t : ℤ, R.trace = t := by
  obtain ⟨hR, M, hM⟩ := h
  have hu : IsUnit A.det := isUnit_iff_ne_zero.mpr hA
  have e : R = A⁻¹ * (realM M * A) := by rw [← hM, ← Matrix.mul_assoc, Matrix.nonsing_inv_mul _ hu, Matrix.one_mul]
  refine ⟨M.trace, ?_⟩
  rw [e, Matrix.trace_mul_comm, Matrix.mul_assoc, Matrix.mul_nonsing_inv _ hu, Matrix.mul_one]
  simp [realM, Matrix.trace_fin_three]

theorem rot_trace_values {A R : M3 ℝ} (hA : A.det ≠ 0) (h : IsLatSym A R) (hd : R.det = 1) (h1 : R ≠ 1) :
    R.trace = -1 ∨ R.trace = 0 ∨ R.trace = 1 ∨ R.trace = 2 := by
  obtain ⟨t, ht⟩ := latSym_trace hA h
  have a1 := rot_trace h.1 hd
  have a2 := orth_trace_le h.1
  have a3 : R.trace ≠ 3 := fun e => h1 (orth_trace_three h.1 e)
  rw [ht] at a1 a2 a3 ⊢
  have b1 : -1 ≤ t := by exact_mod_cast a1
  have b2 : t ≤ 3 := by exact_mod_cast a2
  have b3 : t ≠ 3 := by exact_mod_cast a3
  have : t = -1 ∨ t = 0 ∨ t = 1 ∨ t = 2 := by omega
  rcases this with rfl | rfl | rfl | rfl <;> simp

/-- the rotations of a lattice -/
def rotGroup (A : M3 ℝ) (hA : A.det ≠ 0) : Subgroup (M3 ℝ)ˣ where
  carrier := {u | IsLatSym A u ∧ (u : M3 ℝ).det = 1}
  mul_mem' := by
    rintro a b ⟨h1, h2⟩ ⟨h3, h4⟩
    exact ⟨by rw [Units.val_mul]; exact h1.mul h3, by rw [Units.val_mul, Matrix.det_mul, h2, h4, one_mul]⟩
  one_mem' := ⟨⟨by simp, 1, by rw [realM_one]; simp⟩, by simp⟩
  inv_mem' := by
    rintro a ⟨h1, h2⟩
    have e : ((a⁻¹ : (M3 ℝ)ˣ) : M3 ℝ) = (a : M3 ℝ).transpose := by
      rw [Matrix.coe_units_inv]
      exact Matrix.inv_eq_right_inv h1.1
    exact ⟨by rw [e]; exact h1.inv hA, by rw [e, Matrix.det_transpose, h2]⟩

/-- the rotations acting on space -/
noncomputable def rotRep (A : M3 ℝ) (hA : A.det ≠ 0) : Representation ℝ (rotGroup A hA) (Fin 3 → ℝ) :=
  ((Matrix.toLinAlgEquiv' : M3 ℝ ≃ₐ[ℝ] _) : M3 ℝ →* ((Fin 3 → ℝ) →ₗ[ℝ] (Fin 3 → ℝ))).comp ((Units.coeHom (M3 ℝ)).comp (rotGroup A hA).subtype)

theorem rotRep_char (A : M3 ℝ) (hA : A.det ≠ 0) (g : rotGroup A hA) : (rotRep A hA).character g = ((g : (M3 ℝ)ˣ) : M3 ℝ).trace := by
  show LinearMap.trace ℝ _ (Matrix.toLin' ((g : (M3 ℝ)ˣ) : M3 ℝ)) = _
  exact Matrix.trace_toLin'_eq _

theorem rotGroup_finite (A : M3 ℝ) (hA : A.det ≠ 0) : Finite (rotGroup A hA) := by
  have hf := latSym_finite hA
  haveI : Finite {R | IsLatSym A R} := hf
  apply Finite.of_injective (fun g : rotGroup A hA => (⟨((g : (M3 ℝ)ˣ) : M3 ℝ), g.2.1⟩ : {R | IsLatSym A R}))
  intro a b e
  exact Subtype.ext (Units.ext (congrArg Subtype.val e))

theorem rotations_dvd (A : M3 ℝ) (hA : A.det ≠ 0) : Nat.card (rotGroup A hA) ∣ 24 := by
  haveI := rotGroup_finite A hA
  haveI := Fintype.ofFinite (rotGroup A hA)
  rw [Nat.card_eq_fintype_card]
  apply order_dvd (rotRep A hA)
  · rw [rotRep_char]; simp
  · intro g hg
    rw [rotRep_char]
    apply rot_trace_values hA g.2.1 g.2.2
    intro e
    exact hg (Subtype.ext (Units.ext e))

theorem latSym_neg {A R : M3 ℝ} (h : IsLatSym A R) : IsLatSym A (-R) := by
  obtain ⟨h1, M, hM⟩ := h
  refine ⟨by rw [Matrix.transpose_neg, neg_mul_neg, h1], -M, ?_⟩
  rw [Matrix.mul_neg, hM, show realM (-M) = -realM M from by ext i j; simp [realM], Matrix.neg_mul]

theorem orth_det_or {R : M3 ℝ} (h : R * R.transpose = 1) : R.det = 1 ∨ R.det = -1 := by
  have := congrArg Matrix.det h
  rw [Matrix.det_mul, Matrix.det_transpose, Matrix.det_one] at this
  exact mul_self_eq_one_iff.mp this

theorem orth_unit {R : M3 ℝ} (h : R * R.transpose = 1) : IsUnit R := by
  rw [Matrix.isUnit_iff_isUnit_det, isUnit_iff_ne_zero]
  rcases orth_det_or h with h | h <;> rw [h] <;> norm_num

theorem neg_det3 (R : M3 ℝ) : (-R).det = -R.det := by
  rw [Matrix.det_neg]; norm_num [Fintype.card_fin]

/-- the symmetries of a lattice are its rotations with and without inversion -/
noncomputable def latSymEquiv (A : M3 ℝ) (hA : A.det ≠ 0) : rotGroup A hA × Bool ≃ {R | IsLatSym A R} where
  toFun p := if p.2 then ⟨((p.1 : (M3 ℝ)ˣ) : M3 ℝ), p.1.2.1⟩ else ⟨-((p.1 : (M3 ℝ)ˣ) : M3 ℝ), latSym_neg p.1.2.1⟩
  invFun R := if h : R.1.det = 1 then (⟨(orth_unit R.2.1).unit, R.2, h⟩, true)
    else (⟨(orth_unit (latSym_neg R.2).1).unit, latSym_neg R.2, by
      show (-R.1).det = 1
      rw [neg_det3, (orth_det_or R.2.1).resolve_left h, neg_neg]⟩, false)
  left_inv := by
    rintro ⟨g, b⟩
    cases b with
    | true =>
      simp only [if_true]
      rw [dif_pos g.2.2]
      simp only [Prod.mk.injEq, and_true]
      exact Subtype.ext (Units.ext rfl)
    | false =>
      simp only [Bool.false_eq_true, if_false]
      rw [dif_neg (by rw [neg_det3, g.2.2]; norm_num)]
      simp only [Prod.mk.injEq, and_true]
      exact Subtype.ext (Units.ext (neg_neg _))
  right_inv := by
    intro R
    by_cases h : R.1.det = 1
    · simp only [dif_pos h, if_true]
      exact Subtype.ext rfl
    · simp only [dif_neg h, Bool.false_eq_true, if_false]
      exact Subtype.ext (neg_neg _)

/-- the number of symmetries of a lattice divides 48 -/
theorem latSym_dvd (A : M3 ℝ) (hA : A.det ≠ 0) : Nat.card {R | IsLatSym A R} ∣ 48 := by
  rw [← Nat.card_congr (latSymEquiv A hA), Nat.card_prod]
  have : Nat.card Bool = 2 := by simp
  rw [this, show (48 : ℕ) = 24 * 2 from rfl]
  exact Nat.mul_dvd_mul_right (rotations_dvd A hA) 2

theorem induces_unique {L : Set V3} {N : ℕ} {pos : ℕ → V3} {R : M3 ℝ} {s s' : V3} {σ σ' : List ℕ} (hL : IsSub L) (hs : s - s' ∈ L)
    (h : Induces L N pos R s σ) (h' : Induces L N pos R s' σ') : σ = σ' := by
  apply List.ext_getElem (h.length.trans h'.length.symm)
  intro i hi hi'
  have hN : i < N := by rw [← h.length]; exact hi
  have h1 := (h.entries i σ[i] hN).mp (List.getElem?_eq_getElem hi)
  have h2 : σ'[i]? = some σ[i] := by
    refine (h'.entries i _ hN).mpr ⟨h1.1, ?_⟩
    have := hL.add _ h1.2 _ (hL.neg _ hs)
    convert this using 1
    abel
  rw [List.getElem?_eq_getElem hi'] at h2
  exact (Option.some.inj h2).symm

theorem turnsBy_unique {b : Bool} {R : M3 ℝ} {τ τ' : List ℕ} (h : TurnsBy b R τ) (h' : TurnsBy b R τ') : τ = τ' := by
  unfold TurnsBy at h h'
  cases b with
  | true => simp only [if_true] at h h'; exact h.unique h'
  | false => simp only [Bool.false_eq_true, if_false] at h h'; rw [h, h']

/-- The operations of a supercell: at most 48 for each site. -/
theorem supGroup_le {P : M3 ℝ} (hP : P.det ≠ 0) {bas : List V3} {L : Set V3} (hL : IsSub L) {N : ℕ} (hN : 0 < N) {pos : ℕ → V3} {b : Bool} {G : List Op}
    (hnd : G.Nodup) (hG : ∀ g ∈ G, ∃ R s, PSym (ColLattice P.transpose) bas R s ∧ Induces L N pos R s g.1 ∧ TurnsBy b R g.2) :
    G.length ≤ 48 * N := by
  classical
  haveI hf : Finite {R | IsLatSym P R} := latSym_finite hP
  have key : ∀ g : {g // g ∈ G}, ∃ (R : {R | IsLatSym P R}) (j : Fin N), ∃ s, Induces L N pos R.1 s g.1.1 ∧ TurnsBy b R.1 g.1.2 ∧ R.1.mulVec (pos j) + s - pos 0 ∈ L := by
    rintro ⟨g, hg⟩
    obtain ⟨R, s, h1, h2, h3⟩ := hG g hg
    have hl : 0 < g.1.length := by rw [h2.length]; exact hN
    have h4 := (h2.entries 0 g.1[0] hN).mp (List.getElem?_eq_getElem hl)
    exact ⟨⟨R, (isLatSym_iff hP R).mpr ⟨h1.orth, h1.lattice⟩⟩, ⟨_, h4.1⟩, s, h2, h3, h4.2⟩
  choose R j hRj using key
  have hinj : Function.Injective (fun g => (R g, j g)) := by
    intro g g' e
    simp only [Prod.mk.injEq] at e
    obtain ⟨s, a1, a2, a3⟩ := hRj g
    obtain ⟨s', b1, b2, b3⟩ := hRj g'
    rw [← e.1] at b1 b2 b3
    rw [← e.2] at b3
    apply Subtype.ext
    refine Prod.ext (induces_unique hL ?_ a1 b1) (turnsBy_unique a2 b2)
    have := hL.add _ a3 _ (hL.neg _ b3)
    convert this using 1
    abel
  have h1 : Nat.card {g // g ∈ G} = G.length := by
    rw [Nat.card_eq_fintype_card, Fintype.card_of_subtype G.toFinset (by simp), List.toFinset_card_of_nodup hnd]
  have h2 := Nat.card_le_card_of_injective _ hinj
  rw [h1, Nat.card_prod] at h2
  simp only [Nat.card_eq_fintype_card (α := Fin N), Fintype.card_fin] at h2
  refine le_trans h2 (Nat.mul_le_mul_right _ (Nat.le_of_dvd (by norm_num) (latSym_dvd P hP)))

end Phenum
