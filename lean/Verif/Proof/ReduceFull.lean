import Verif.Props.Reduce
/-
What `_reduce_C_in_ABC` computes, in terms of scalar products.
-/
namespace Phenum
open Spec

theorem argMin_congr {α : Type} {d d' : α → ℝ} (h : ∀ a b, d b < d a ↔ d' b < d' a) : ∀ (a : α) (l : List α), argMin d a l = argMin d' a l
  | _, [] => rfl
  | a, b :: l => by
    unfold argMin
    by_cases hb : d b < d a
    · rw [if_pos hb, if_pos ((h a b).mp hb)]; exact argMin_congr h b l
    · rw [if_neg hb, if_neg (fun hc => hb ((h a b).mpr hc))]; exact argMin_congr h a l

theorem argMin_map {α β : Type} (f : α → β) (d : β → ℝ) : ∀ (a : α) (l : List α), argMin d (f a) (l.map f) = f (argMin (fun x => d (f x)) a l)
  | _, [] => rfl
  | a, b :: l => by
    rw [List.map_cons]
    unfold argMin
    split_ifs
    · exact argMin_map f d b l
    · exact argMin_map f d a l

theorem argMin_le {α : Type} (d : α → ℝ) : ∀ (a : α) (l : List α), argMin d a l ∈ a :: l ∧ ∀ b ∈ a :: l, d (argMin d a l) ≤ d b
  | a, [] => by simp [argMin]
  | a, b :: l => by
    unfold argMin
    split_ifs with h
    · obtain ⟨h1, h2⟩ := argMin_le d b l
      refine ⟨List.mem_cons_of_mem _ h1, fun c hc => ?_⟩
      rcases List.mem_cons.mp hc with rfl | hc
      · exact le_trans (h2 b (by simp)) h.le
      · exact h2 c hc
    · obtain ⟨h1, h2⟩ := argMin_le d a l
      refine ⟨?_, fun c hc => ?_⟩
      · rcases List.mem_cons.mp h1 with h1 | h1
        · rw [h1]; simp
        · exact List.mem_cons_of_mem _ (List.mem_cons_of_mem _ h1)
      · rcases List.mem_cons.mp hc with rfl | hc
        · exact h2 c (by simp)
        · rcases List.mem_cons.mp hc with rfl | hc
          · exact le_trans (h2 a (by simp)) (not_lt.mp h)
          · exact h2 c (List.mem_cons_of_mem _ hc)

theorem vnorm_sq' (v : V3) : vnorm v ^ 2 = vdot v v := by
  rw [vnorm_sq]; unfold vdot; ring

theorem vnorm_lt_iff {u v : V3} : vnorm u < vnorm v ↔ vdot u u < vdot v v := by
  rw [← vnorm_sq', ← vnorm_sq']
  exact (pow_lt_pow_iff_left₀ (vnorm_nonneg _) (vnorm_nonneg _) (by norm_num)).symm

theorem vnorm_le_iff {u v : V3} : vnorm u ≤ vnorm v ↔ vdot u u ≤ vdot v v := by
  rw [← vnorm_sq', ← vnorm_sq']
  exact (pow_le_pow_iff_left₀ (vnorm_nonneg _) (vnorm_nonneg _) (by norm_num)).symm

/-- the determinant of the scalar products of two vectors -/
def gramDet (A B : V3) : ℝ := vdot A A * vdot B B - vdot A B ^ 2

theorem gramDet_cross (A B : V3) : gramDet A B = vdot (vcross A B) (vcross A B) := by
  unfold gramDet vdot vcross
  simp
  ring

/-- `C` minus the combination of `A` and `B` with the coefficients `p`, `q` -/
def shiftC (A B C : V3) (p q : ℤ) : V3 := fun i => C i - ((p : ℝ) * A i + (q : ℝ) * B i)

/-- the coefficients of the corner below the projection of `C` on the plane of `A` and `B` -/
noncomputable def cornerA (A B C : V3) (eps : ℝ) : ℤ := ⌊(vdot C A * vdot B B - vdot C B * vdot A B) / gramDet A B + eps⌋
noncomputable def cornerB (A B C : V3) (eps : ℝ) : ℤ := ⌊(vdot C B * vdot A A - vdot C A * vdot A B) / gramDet A B + eps⌋

/-- the shortest of the four shifted vectors -/
noncomputable def bestCorner (A B C : V3) (eps : ℝ) : ℤ × ℤ :=
  argMin (fun k : ℤ × ℤ => vnorm (shiftC A B C (k.1 + cornerA A B C eps) (k.2 + cornerB A B C eps))) (0, 0) [(1, 0), (0, 1), (1, 1)]

theorem reduceC_full {A B C A' B' : V3} {eps : ℝ} (h0 : 0 ≤ eps) (h1 : eps < 1) (hd : (rows3 A B C).det ≠ 0)
    (hg : gaussReduce A B eps = .ok (A', B')) :
    reduceC A B C eps = .ok (A', B', shiftC A' B' C ((bestCorner A' B' C eps).1 + cornerA A' B' C eps) ((bestCorner A' B' C eps).2 + cornerB A' B' C eps)) ∧
      RowLat (rows3 A' B' (shiftC A' B' C ((bestCorner A' B' C eps).1 + cornerA A' B' C eps) ((bestCorner A' B' C eps).2 + cornerB A' B' C eps))) =
        RowLat (rows3 A B C) ∧ PairReduced eps A' B' ∧ PairLat A' B' = PairLat A B ∧ 0 < gramDet A' B' := by
  have hcr : vcross A B ≠ 0 := by
    intro h
    apply hd
    rw [rows3_det, h]
    simp [vdot]
  obtain ⟨hlat, hcr', hred⟩ : PairLat A' B' = PairLat A B ∧ vcross A' B' ≠ 0 ∧ PairReduced eps A' B' := by
    rcases gaussReduce_spec eps A B hcr with h | ⟨A1, B1, h, hlat, hcr', hred⟩
    · rw [hg] at h; cases h
    · rw [hg] at h
      cases h
      exact ⟨hlat, hcr', hred⟩
  have hrow : RowLat (rows3 A' B' C) = RowLat (rows3 A B C) := rowLat_pair hlat
  have hd' : (rows3 A' B' C).det ≠ 0 := rowLat_det hrow hd
  set abc := rows3 A' B' C with habc
  set cr := vcross A' B' with hcrdef
  have hcc : vdot cr cr ≠ 0 := by
    intro hz
    apply hcr'
    have h3 : cr 0 = 0 ∧ cr 1 = 0 ∧ cr 2 = 0 := by
      unfold vdot at hz
      refine ⟨?_, ?_, ?_⟩ <;> nlinarith [mul_self_nonneg (cr 0), mul_self_nonneg (cr 1), mul_self_nonneg (cr 2)]
    funext i
    fin_cases i
    · exact h3.1
    · exact h3.2.1
    · exact h3.2.2
  have hgd : gramDet A' B' = vdot cr cr := gramDet_cross A' B'
  have hgpos : 0 < gramDet A' B' := by
    rw [hgd]
    refine lt_of_le_of_ne ?_ (Ne.symm hcc)
    unfold vdot
    nlinarith [mul_self_nonneg (cr 0), mul_self_nonneg (cr 1), mul_self_nonneg (cr 2)]
  have hn : vnorm cr ≠ 0 := by
    intro h
    apply hcc
    rw [← vnorm_sq', h]
    norm_num
  have hn2 : vnorm cr ^ 2 = vdot cr cr := vnorm_sq' cr
  set cpd : V3 := fun i => cr i / vnorm cr with hcpd
  set T : V3 := fun i => C i - cpd i * vdot C cpd with hT
  have hTi : ∀ i, T i = C i - cr i * (vdot C cr / vdot cr cr) := by
    intro i
    have e1 : vdot C cpd = vdot C cr / vnorm cr := by unfold vdot; simp only [hcpd]; field_simp
    show C i - cpd i * vdot C cpd = _
    rw [e1, ← hn2]
    simp only [hcpd]
    field_simp
  have hTdot : vdot T cr = 0 := by
    have : vdot T cr = vdot C cr - vdot cr cr * (vdot C cr / vdot cr cr) := by
      unfold vdot
      rw [hTi, hTi, hTi]
      unfold vdot
      ring
    rw [this]
    field_simp
    ring
  have hA0 : vdot cr A' = 0 := by simp [hcrdef, vdot, vcross]; ring
  have hB0 : vdot cr B' = 0 := by simp [hcrdef, vdot, vcross]; ring
  have hTA : vdot T A' = vdot C A' := by
    have : vdot T A' = vdot C A' - vdot cr A' * (vdot C cr / vdot cr cr) := by
      unfold vdot
      rw [hTi, hTi, hTi]
      unfold vdot
      ring
    rw [this, hA0]; ring
  have hTB : vdot T B' = vdot C B' := by
    have : vdot T B' = vdot C B' - vdot cr B' * (vdot C cr / vdot cr cr) := by
      unfold vdot
      rw [hTi, hTi, hTi]
      unfold vdot
      ring
    rw [this, hB0]; ring
  set y := Matrix.vecMul T abc⁻¹ with hy0
  have hy : Matrix.vecMul y abc = T := by
    rw [hy0, Matrix.vecMul_vecMul, Matrix.nonsing_inv_mul _ (isUnit_iff_ne_zero.2 hd'), Matrix.vecMul_one]
  have hy2 : y 2 = 0 := by
    have e : vdot T cr = y 2 * abc.det := by
      rw [← hy, habc, rows3_det]
      simp only [vdot, Matrix.vecMul, dotProduct, Fin.sum_univ_three, hcrdef, rows3, vcross, Matrix.of_apply,
        Matrix.cons_val_zero, Matrix.cons_val_one, Matrix.cons_val_two, Matrix.cons_val, Matrix.head_cons, Matrix.tail_cons]
      ring
    rw [hTdot] at e
    rcases mul_eq_zero.mp e.symm with h | h
    · exact h
    · exact absurd h hd'
  have hTy : ∀ i, T i = y 0 * A' i + y 1 * B' i := by
    intro i
    rw [← hy]
    simp only [Matrix.vecMul, dotProduct, Fin.sum_univ_three, habc, rows3, Matrix.of_apply, hy2]
    simp
  have eA : y 0 * vdot A' A' + y 1 * vdot A' B' = vdot C A' := by
    rw [← hTA]
    unfold vdot
    rw [hTy, hTy, hTy]
    ring
  have eB : y 0 * vdot A' B' + y 1 * vdot B' B' = vdot C B' := by
    rw [← hTB]
    unfold vdot
    rw [hTy, hTy, hTy]
    ring
  have hya : y 0 = (vdot C A' * vdot B' B' - vdot C B' * vdot A' B') / gramDet A' B' := by
    rw [eq_div_iff hgpos.ne', ← eA, ← eB]
    unfold gramDet
    ring
  have hyb : y 1 = (vdot C B' * vdot A' A' - vdot C A' * vdot A' B') / gramDet A' B' := by
    rw [eq_div_iff hgpos.ne', ← eA, ← eB]
    unfold gramDet
    ring
  unfold reduceC
  rw [hg]
  simp only [bind, Except.bind]
  rw [if_neg hd']
  set LC : Fin 3 → ℤ := fun i => ⌊y i + eps⌋ with hLC
  have hLC0 : LC 0 = cornerA A' B' C eps := by show ⌊y 0 + eps⌋ = _; rw [hya]; rfl
  have hLC1 : LC 1 = cornerB A' B' C eps := by show ⌊y 1 + eps⌋ = _; rw [hyb]; rfl
  have hLC2 : LC 2 = 0 := by
    show ⌊y 2 + eps⌋ = 0
    rw [hy2, zero_add, Int.floor_eq_zero_iff]
    exact ⟨h0, h1⟩
  set f : ℤ × ℤ → (Fin 3 → ℤ) := fun k => ![k.1, k.2, 0] with hf
  have hvm : ∀ k : ℤ × ℤ, Matrix.vecMul (fun j => ((f k j + LC j : ℤ) : ℝ)) abc =
      fun i => ((k.1 + cornerA A' B' C eps : ℤ) : ℝ) * A' i + ((k.2 + cornerB A' B' C eps : ℤ) : ℝ) * B' i := by
    intro k
    funext i
    simp only [Matrix.vecMul, dotProduct, Fin.sum_univ_three, habc, rows3, Matrix.of_apply, hLC0, hLC1, hLC2, hf]
    simp
  set dist : (Fin 3 → ℤ) → ℝ := fun k => vnorm (fun i => T i - Matrix.vecMul (fun j => ((k j + LC j : ℤ) : ℝ)) abc i) with hdist
  have hpyth : ∀ k : ℤ × ℤ, vdot (shiftC A' B' C (k.1 + cornerA A' B' C eps) (k.2 + cornerB A' B' C eps)) (shiftC A' B' C (k.1 + cornerA A' B' C eps) (k.2 + cornerB A' B' C eps)) =
      dist (f k) ^ 2 + (vdot C cr / vdot cr cr) ^ 2 * vdot cr cr := by
    intro k
    rw [hdist, vnorm_sq', hvm]
    have hC : ∀ i, C i = y 0 * A' i + y 1 * B' i + cr i * (vdot C cr / vdot cr cr) := by
      intro i
      have := hTi i
      rw [hTy] at this
      linarith
    have e1 : shiftC A' B' C (k.1 + cornerA A' B' C eps) (k.2 + cornerB A' B' C eps) = fun i =>
        ((y 0 - ((k.1 + cornerA A' B' C eps : ℤ) : ℝ)) * A' i + (y 1 - ((k.2 + cornerB A' B' C eps : ℤ) : ℝ)) * B' i) + cr i * (vdot C cr / vdot cr cr) := by
      funext i
      unfold shiftC
      rw [hC i]
      ring
    have e2 : (fun i => T i - (((k.1 + cornerA A' B' C eps : ℤ) : ℝ) * A' i + ((k.2 + cornerB A' B' C eps : ℤ) : ℝ) * B' i)) = fun i =>
        ((y 0 - ((k.1 + cornerA A' B' C eps : ℤ) : ℝ)) * A' i + (y 1 - ((k.2 + cornerB A' B' C eps : ℤ) : ℝ)) * B' i) := by
      funext i
      rw [hTy i]
      ring
    rw [e1, e2]
    set u := y 0 - ((k.1 + cornerA A' B' C eps : ℤ) : ℝ)
    set v := y 1 - ((k.2 + cornerB A' B' C eps : ℤ) : ℝ)
    set t := vdot C cr / vdot cr cr
    have : vdot (fun i => u * A' i + v * B' i + cr i * t) (fun i => u * A' i + v * B' i + cr i * t) =
        vdot (fun i => u * A' i + v * B' i) (fun i => u * A' i + v * B' i) + t ^ 2 * vdot cr cr + 2 * t * (u * vdot cr A' + v * vdot cr B') := by
      unfold vdot
      ring
    rw [this, hA0, hB0]
    ring
  have hlist : ([![1, 0, 0], ![0, 1, 0], ![1, 1, 0]] : List (Fin 3 → ℤ)) = [(1, 0), (0, 1), (1, 1)].map f := rfl
  have hbest : argMin dist ![0, 0, 0] [![1, 0, 0], ![0, 1, 0], ![1, 1, 0]] = f (bestCorner A' B' C eps) := by
    rw [hlist, show (![0, 0, 0] : Fin 3 → ℤ) = f (0, 0) from rfl, argMin_map]
    congr 1
    unfold bestCorner
    refine argMin_congr (fun a b => ?_) _ _
    have hdn : ∀ x, 0 ≤ dist x := fun x => vnorm_nonneg _
    refine Iff.trans (pow_lt_pow_iff_left₀ (hdn _) (hdn _) (n := 2) (by norm_num)).symm (Iff.trans ?_ vnorm_lt_iff.symm)
    rw [hpyth, hpyth, add_lt_add_iff_right]
  rw [hbest, hvm]
  set p := (bestCorner A' B' C eps).1 + cornerA A' B' C eps
  set q := (bestCorner A' B' C eps).2 + cornerB A' B' C eps
  have hp : (fun i => ((p : ℤ) : ℝ) * A' i + ((q : ℤ) : ℝ) * B' i) ∈ PairLat A' B' := ⟨p, q, fun i => rfl⟩
  have hrow' := (rowLat_shift (C := C) hp).trans hrow
  have hd'' := rowLat_det hrow' hd
  rw [if_neg hd'']
  have hint : ∃ Z : M3 ℤ, (rows3 A' B' (fun i => C i - ((p : ℝ) * A' i + (q : ℝ) * B' i)))⁻¹.transpose * (rows3 A B C).transpose = castM Z := by
    obtain ⟨Z, hZ⟩ := colLat_subset.mp (show ColLattice (rows3 A B C).transpose ⊆ ColLattice (rows3 A' B' (fun i => C i - ((p : ℝ) * A' i + (q : ℝ) * B' i))).transpose from
      hrow'.symm.subset)
    refine ⟨Z, ?_⟩
    rw [hZ, ← Matrix.mul_assoc, ← Matrix.transpose_mul, Matrix.mul_nonsing_inv _ (isUnit_iff_ne_zero.2 hd''),
      Matrix.transpose_one, Matrix.one_mul]
  obtain ⟨Z, hZ⟩ := hint
  rw [hZ, if_neg]
  · exact ⟨rfl, hrow', hred, hlat, hgpos⟩
  · rintro ⟨i, j, h⟩
    have : (castM Z : M3 ℝ) i j = (Z i j : ℝ) := rfl
    rw [this, npRound_int, sub_self, abs_zero] at h
    linarith

end Phenum
