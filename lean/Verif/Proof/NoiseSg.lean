import Verif.Proof.NoisePg
/-
The space group and the permutations of the basis vectors with rounding errors.
-/
namespace Phenum
open Spec

/-- The tolerance and the errors are small compared with the numbers of the crystal. -/
structure NoiseOk (P : M3 ℝ) (K K' : ℝ) (g D : ℕ) (eps δ : ℝ) : Prop where
  det : P.det ≠ 0
  nonneg : 0 ≤ δ
  lt : δ < eps
  entries : ∀ i j, |P i j| ≤ K
  inverse : ∀ i j, |P⁻¹ i j| ≤ K'
  products : ∀ i j, ∃ z : ℤ, (P * P.transpose) i j = (z : ℝ) / g
  gpos : 0 < g
  dpos : 0 < D
  small : 4 * K * (eps + δ) < 1
  angles : 9 * K ^ 2 * g * (eps + δ) < 1
  coords : (eps + δ) * D < 1
  apart : 3 * K' * D * (eps + δ) < 1

theorem noiseOk_coarse {P : M3 ℝ} (hP : P.det ≠ 0) {bas : List V3} {K K' : ℝ} {g D : ℕ} {eps δ : ℝ} (h0 : 0 ≤ δ) (hlt : δ < eps)
    (h : Coarse P bas K K' g D (eps + δ)) : NoiseOk P K K' g D eps δ :=
  ⟨hP, h0, hlt, h.entries, h.inverse, h.products, h.gpos, h.dpos, h.small, h.angles, h.coords, h.apart⟩

section
variable {P : M3 ℝ} {K K' : ℝ} {g D : ℕ} {eps δ : ℝ} (N : NoiseOk P K K' g D eps δ)
include N

theorem NoiseOk.eps_pos : 0 < eps := lt_of_le_of_lt N.nonneg N.lt

theorem NoiseOk.sum_lt : eps + δ < 1 := by
  have : (1 : ℝ) ≤ D := by exact_mod_cast N.dpos
  have h := N.coords
  have := N.eps_pos
  have := N.nonneg
  nlinarith

theorem NoiseOk.coarse {bas : List V3} (hb : ∀ d ∈ bas, d ∈ Grid P D) : Coarse P bas K K' g D eps := by
  have hK0 : 0 ≤ K := le_trans (abs_nonneg _) (N.entries 0 0)
  have hK0' : 0 ≤ K' := le_trans (abs_nonneg _) (N.inverse 0 0)
  have h0 := N.nonneg
  have hD : (0 : ℝ) ≤ D := Nat.cast_nonneg D
  refine ⟨N.entries, N.inverse, N.products, hb, N.gpos, N.dpos, N.eps_pos, ?_, ?_, ?_, ?_⟩
  · exact lt_of_le_of_lt (mul_le_mul_of_nonneg_left (by linarith) (by positivity)) N.small
  · exact lt_of_le_of_lt (mul_le_mul_of_nonneg_left (by linarith) (by positivity)) N.angles
  · exact lt_of_le_of_lt (mul_le_mul_of_nonneg_right (by linarith) (by positivity)) N.coords
  · exact lt_of_le_of_lt (mul_le_mul_of_nonneg_left (by linarith) (by positivity)) N.apart

theorem NoiseOk.pointGroup : latticePointGroupN δ P eps = sure (latticePointGroup P eps) := by
  have hK0 : 0 ≤ K := le_trans (abs_nonneg _) (N.entries 0 0)
  have hn : ∀ i, vnorm (P i) ≤ 2 * K := by
    intro i
    unfold vnorm
    have hsq : ∀ j, P i j ^ 2 ≤ K ^ 2 := fun j =>
      sq_le_sq' (by linarith [neg_abs_le (P i j), N.entries i j]) (le_trans (le_abs_self _) (N.entries i j))
    rw [show 2 * K = Real.sqrt ((2 * K) ^ 2) from (Real.sqrt_sq (by linarith)).symm]
    apply Real.sqrt_le_sqrt
    nlinarith [hsq 0, hsq 1, hsq 2, sq_nonneg K]
  have hmax : maxNorm P ≤ 2 * K := max_le (max_le (hn 0) (hn 1)) (hn 2)
  refine pointGroupN_ok N.det N.gpos N.entries N.products N.nonneg N.lt.le ?_ N.angles
  have he := N.eps_pos
  have h0 := N.nonneg
  have h1 := mul_le_mul_of_nonneg_right hmax (by linarith : (0 : ℝ) ≤ 2 * eps)
  have hs := N.small
  have hsum := N.sum_lt
  rcases le_total (4 * K) 1 with hc | hc
  · nlinarith
  · nlinarith

theorem NoiseOk.bring {v : V3} (hv : v ∈ Grid P D) : bringIntoCellN δ v (P.transpose)⁻¹ P.transpose eps = sure (.ok (canonV P v)) :=
  bringN_ok N.det N.nonneg N.dpos N.coords N.lt hv

theorem NoiseOk.bring_exact {v : V3} (hv : v ∈ Grid P D) : bringIntoCell v (P.transpose)⁻¹ P.transpose eps = some (.ok (canonV P v)) := by
  have C := N.coarse (bas := []) (by simp)
  exact (grid_bring N.det C.dpos C.pos C.coords C.inverse C.apart).1 v hv

open Classical in
theorem NoiseOk.close {u v : V3} (h : u - v ∈ Grid P D) : closeN δ eps u v = sure (.ok (decide (∀ i, |u i - v i| ≤ eps))) := by
  have he := N.eps_pos
  have h0 := N.nonneg
  unfold closeN
  refine (measV_always h0 _).bind fun d hd => ?_
  rw [noisy_pure]
  congr 2
  rw [decide_eq_decide]
  have hz : (∀ i, |u i - v i| ≤ eps + δ) → u - v = 0 := fun hs =>
    grid_small N.det N.dpos (by linarith) N.inverse N.apart h hs
  constructor
  · intro hc i
    have := hz (fun i => by
      have h1 := hd i
      have h2 := hc i
      rw [abs_le] at h1 h2 ⊢
      constructor <;> linarith [h1.1, h1.2, h2.1, h2.2])
    have e : u i - v i = 0 := congrFun this i
    rw [e, abs_zero]
    exact he.le
  · intro hc i
    have := hz (fun i => le_trans (hc i) (by linarith))
    have e : u i - v i = 0 := congrFun this i
    have h1 := hd i
    rw [e, sub_zero] at h1
    linarith [N.lt]

theorem NoiseOk.mapping {v : V3} (t : ℕ) : ∀ atoms : List (ℕ × V3), (∀ a ∈ atoms, v - a.2 ∈ Grid P D) →
    doesMappingExistN δ v t eps atoms = sure (.ok (doesMappingExist v t atoms eps))
  | [], _ => rfl
  | a :: rest, h => by
    classical
    have ih := NoiseOk.mapping t rest (fun b hb => h b (by simp [hb]))
    unfold doesMappingExistN
    have e : doesMappingExist v t (a :: rest) eps = ((decide (a.1 = t) && decide (∀ i, |v i - a.2 i| ≤ eps)) || doesMappingExist v t rest eps) := by
      unfold doesMappingExist
      rw [List.any_cons]
    rw [e]
    by_cases ha : a.1 = t
    · rw [if_pos ha, N.close (h a (by simp)), sure_ok_bind, ih]
      by_cases hc : ∀ i, |v i - a.2 i| ≤ eps
      · simp [ha, hc, noisy_pure]
      · simp [ha, hc]
    · rw [if_neg ha, ih]
      simp [ha]

theorem NoiseOk.allMapped {op : M3 ℝ} (hop : ∀ v ∈ Grid P D, op.mulVec v ∈ Grid P D) {fract : V3} (hf : fract ∈ Grid P D)
    {atoms : List (ℕ × V3)} (hat : ∀ a ∈ atoms, a.2 ∈ Grid P D) : ∀ l : List (ℕ × V3), (∀ a ∈ l, a.2 ∈ Grid P D) →
    allMappedN δ (P.transpose)⁻¹ P.transpose eps op fract atoms l =
      sure (.ok (l.all (fun a => doesMappingExist (canonV P (fun i => op.mulVec a.2 i + fract i)) a.1 atoms eps)))
  | [], _ => rfl
  | a :: rest, h => by
    have hg : (fun i => op.mulVec a.2 i + fract i) ∈ Grid P D := (grid_isSub N.dpos).add _ (hop _ (h a (by simp))) _ hf
    unfold allMappedN
    rw [N.bring hg, sure_ok_bind, N.mapping a.1 atoms (fun b hb => grid_sub N.dpos (grid_canon N.det N.dpos hg) (hat b hb)), sure_ok_bind,
      NoiseOk.allMapped hop hf hat rest (fun b hb => h b (by simp [hb])), List.all_cons]
    cases doesMappingExist (canonV P (fun i => op.mulVec a.2 i + fract i)) a.1 atoms eps <;> rfl

theorem NoiseOk.opFracts {op : M3 ℝ} (hop : ∀ v ∈ Grid P D, op.mulVec v ∈ Grid P D) {a0 : ℕ × V3} (ha0 : a0.2 ∈ Grid P D)
    {atoms : List (ℕ × V3)} (hat : ∀ a ∈ atoms, a.2 ∈ Grid P D) : ∀ l : List (ℕ × V3), (∀ a ∈ l, a.2 ∈ Grid P D) →
    opFractsN δ (P.transpose)⁻¹ P.transpose eps op a0 atoms l = sure (.ok (exactFracts (canonV P) eps op a0 atoms l))
  | [], _ => rfl
  | a :: rest, h => by
    have hg : (fun i => a.2 i - op.mulVec a0.2 i) ∈ Grid P D := grid_sub N.dpos (h a (by simp)) (hop _ ha0)
    have ih := NoiseOk.opFracts hop ha0 hat rest (fun b hb => h b (by simp [hb]))
    unfold opFractsN exactFracts
    rw [List.flatMap_cons]
    by_cases ha : a.1 = a0.1
    · rw [if_neg (by simpa using ha), N.bring hg, sure_ok_bind, N.allMapped hop (grid_canon N.det N.dpos hg) hat atoms hat, sure_ok_bind, ih,
        sure_ok_bind, noisy_pure]
      congr 2
      simp only [ha, true_and]
      split_ifs with hb
      · rfl
      · rfl
    · rw [if_pos ha, if_neg (by tauto), ih]
      rfl

theorem NoiseOk.sgLoop {a0 : ℕ × V3} (ha0 : a0.2 ∈ Grid P D) {atoms : List (ℕ × V3)} (hat : ∀ a ∈ atoms, a.2 ∈ Grid P D) :
    ∀ ops : List (M3 ℝ), (∀ op ∈ ops, ∀ v ∈ Grid P D, op.mulVec v ∈ Grid P D) →
    sgLoopN δ (P.transpose)⁻¹ P.transpose eps a0 atoms ops =
      sure (.ok (ops.flatMap (fun op => (exactFracts (canonV P) eps op a0 atoms atoms).map (fun f => (op, f)))))
  | [], _ => rfl
  | op :: rest, h => by
    unfold sgLoopN
    rw [N.opFracts (h op (by simp)) ha0 hat atoms hat, sure_ok_bind, NoiseOk.sgLoop ha0 hat rest (fun b hb => h b (by simp [hb])), sure_ok_bind]
    rfl

theorem NoiseOk.bringAtoms : ∀ l : List (ℕ × V3), (∀ a ∈ l, a.2 ∈ Grid P D) →
    bringAtomsN δ (P.transpose)⁻¹ P.transpose eps l = sure (.ok (l.map (fun a => (a.1, canonV P a.2))))
  | [], _ => rfl
  | a :: rest, h => by
    unfold bringAtomsN
    rw [N.bring (h a (by simp)), sure_ok_bind, NoiseOk.bringAtoms rest (fun b hb => h b (by simp [hb])), sure_ok_bind]
    rfl

/-- The space group with errors is the one without. -/
theorem NoiseOk.spaceGroup {atoms : List (ℕ × V3)} (hne : atoms ≠ []) (hat : ∀ a ∈ atoms, a.2 ∈ Grid P D) :
    ∃ L, spaceGroup P atoms eps false = some (.ok L) ∧ spaceGroupN δ P atoms eps = sure (.ok L) := by
  have C := N.coarse (bas := []) (by simp)
  obtain ⟨ops, hops, -, hmem⟩ := pg_coarse N.det C.gpos C.pos.le C.entries C.products C.small C.angles
  have hdet : P.transpose.det ≠ 0 := by rw [Matrix.det_transpose]; exact N.det
  have hrot : ∀ op ∈ ops, ∀ v ∈ Grid P D, op.mulVec v ∈ Grid P D := fun op ho v hv =>
    grid_rot N.dpos ((isLatSym_iff N.det op).mp ((hmem op).mp ho)).2 hv
  have hat' : ∀ a ∈ atoms.map (fun a => (a.1, canonV P a.2)), a.2 ∈ Grid P D := by
    intro a ha
    obtain ⟨b, hb, rfl⟩ := List.mem_map.mp ha
    exact grid_canon N.det N.dpos (hat b hb)
  obtain ⟨a, rest, rfl⟩ := List.exists_cons_of_ne_nil hne
  unfold Phenum.spaceGroup spaceGroupN
  rw [if_neg hdet, if_neg hdet]
  simp only [Bool.false_eq_true, if_false]
  rw [bringAtoms_eq (cv := canonV P) _ (fun b hb => N.bring_exact (hat b hb)), hops, N.bringAtoms _ hat, sure_ok_bind, N.pointGroup, hops,
    sure_ok_bind]
  simp only [List.map_cons] at hat' ⊢
  cases ops with
  | nil => exact ⟨[], rfl, rfl⟩
  | cons op ops =>
    refine ⟨_, ?_, N.sgLoop (hat' _ (by simp)) hat' _ hrot⟩
    show Phenum.sgLoop _ _ _ _ _ _ = _
    refine sgLoop_eq (cv := canonV P) _ (fun o ho b hb => ?_) (fun o ho b hb c hc => ?_)
    · exact N.bring_exact (grid_sub N.dpos (hat' b hb) (hrot o ho _ (hat' _ (by simp))))
    · refine N.bring_exact ((grid_isSub N.dpos).add _ (hrot o ho _ (hat' c hc)) _ (grid_canon N.det N.dpos ?_))
      exact grid_sub N.dpos (hat' b hb) (hrot o ho _ (hat' _ (by simp)))

end
end Phenum
