import Verif.Model.Reduce
import Verif.Proof.PointGroup
import Verif.Proof.OpPerm
import Verif.Proof.Lattice
/-
Lattice reduction: proofs.
-/
namespace Phenum
open Spec

/-- The plane lattice of two vectors. -/
def PairLat (U V : V3) : Set V3 := {w | ∃ x y : ℤ, ∀ i, w i = (x : ℝ) * U i + (y : ℝ) * V i}

theorem pairLat_comm (U V : V3) : PairLat U V = PairLat V U := by
  ext w
  constructor <;> rintro ⟨x, y, h⟩ <;> exact ⟨y, x, fun i => by rw [h i]; ring⟩

theorem pairLat_sub (U V : V3) (m : ℤ) : PairLat U (fun i => V i - (m : ℝ) * U i) = PairLat U V := by
  ext w
  constructor
  · rintro ⟨x, y, h⟩
    exact ⟨x - m * y, y, fun i => by rw [h i]; push_cast; ring⟩
  · rintro ⟨x, y, h⟩
    exact ⟨x + m * y, y, fun i => by rw [h i]; push_cast; ring⟩

theorem vcross_sub (U V : V3) (m : ℝ) : vcross U (fun i => V i - m * U i) = vcross U V := by
  funext i
  fin_cases i <;> simp [vcross] <;> ring

theorem vcross_neg (U V : V3) : vcross V U = fun i => - vcross U V i := by
  funext i
  fin_cases i <;> simp [vcross] <;> ring

theorem vdot_self_ne {U V : V3} (h : vcross U V ≠ 0) : vdot U U ≠ 0 := by
  intro h0
  apply h
  have h1 : U 0 = 0 ∧ U 1 = 0 ∧ U 2 = 0 := by
    unfold vdot at h0
    refine ⟨?_, ?_, ?_⟩ <;> nlinarith [mul_self_nonneg (U 0), mul_self_nonneg (U 1), mul_self_nonneg (U 2)]
  funext i
  fin_cases i <;> simp [vcross, h1]

theorem npRound_near (x : ℝ) : |x - (npRound x : ℝ)| ≤ 1 / 2 := by
  unfold npRound
  have h1 := Int.fract_add_floor x
  split_ifs with h h'
  · rw [abs_le]; constructor <;> linarith
  · push_cast; rw [abs_le]; constructor <;> linarith
  · exact abs_sub_round x

theorem vdot_comb (U V : V3) (m : ℝ) : vdot U (fun i => V i - m * U i) = vdot U V - m * vdot U U := by
  unfold vdot; ring

/-- The two vectors are reduced, up to the tolerances of the code. -/
def PairReduced (eps : ℝ) (U V : V3) : Prop :=
  vnorm U ≤ vnorm V + eps ∧ |vdot U V| ≤ (1 / 2 + 1 / 10 ^ 10) * vdot U U

theorem gaussIter_spec (eps : ℝ) : ∀ (k : ℕ) (U V : V3), vcross U V ≠ 0 →
    gaussIter eps k U V = .error .sysExit ∨ ∃ U' V', gaussIter eps k U V = .ok (U', V') ∧ PairLat U' V' = PairLat U V ∧
      vcross U' V' ≠ 0 ∧ PairReduced eps U' V'
  | 0, U, V, _ => Or.inl rfl
  | k + 1, U, V, h => by
    unfold gaussIter
    have hU := vdot_self_ne h
    rw [if_neg hU]
    simp only
    set m := npRound (vdot U V / vdot U U + 1 / 10 ^ 10) with hm
    set R : V3 := fun i => V i - (m : ℝ) * U i with hR
    split_ifs with hd
    · right
      refine ⟨U, R, rfl, pairLat_sub U V m, by rw [hR, vcross_sub]; exact h, by linarith, ?_⟩
      rw [hR, vdot_comb]
      have hp : 0 < vdot U U := by
        apply lt_of_le_of_ne _ (Ne.symm hU)
        unfold vdot
        nlinarith [mul_self_nonneg (U 0), mul_self_nonneg (U 1), mul_self_nonneg (U 2)]
      have h1 := npRound_near (vdot U V / vdot U U + 1 / 10 ^ 10)
      rw [← hm] at h1
      have h2 : vdot U V - m * vdot U U = (vdot U V / vdot U U - m) * vdot U U := by
        rw [sub_mul, div_mul_cancel₀ _ hU]
      rw [h2, abs_mul, abs_of_pos hp]
      apply mul_le_mul_of_nonneg_right _ hp.le
      rw [abs_le] at h1 ⊢
      constructor <;> linarith
    · have h' : vcross R U ≠ 0 := by
        rw [vcross_neg U R, hR, vcross_sub]
        intro h0
        apply h
        funext i
        have := congrFun h0 i
        simpa using this
      rcases gaussIter_spec eps k R U h' with h1 | ⟨U', V', h1, h2, h3, h4⟩
      · left; exact h1
      · right
        refine ⟨U', V', h1, ?_, h3, h4⟩
        rw [h2, pairLat_comm, hR, pairLat_sub]

theorem gaussReduce_spec (eps : ℝ) (U V : V3) (h : vcross U V ≠ 0) :
    gaussReduce U V eps = .error .sysExit ∨ ∃ U' V', gaussReduce U V eps = .ok (U', V') ∧ PairLat U' V' = PairLat U V ∧
      vcross U' V' ≠ 0 ∧ PairReduced eps U' V' := by
  unfold gaussReduce
  split_ifs
  · have h' : vcross V U ≠ 0 := by
      rw [vcross_neg U V]
      intro h0
      apply h
      funext i
      have := congrFun h0 i
      simpa using this
    rw [pairLat_comm U V]
    exact gaussIter_spec eps 10 V U h'
  · exact gaussIter_spec eps 10 U V h

/-- The lattice of the rows. -/
def RowLat (M : M3 ℝ) : Set V3 := ColLattice M.transpose

theorem mem_rowLat {M : M3 ℝ} {w : V3} : w ∈ RowLat M ↔ ∃ x y z : ℤ, ∀ i, w i = x * M 0 i + y * M 1 i + z * M 2 i := by
  constructor
  · rintro ⟨x, rfl⟩
    refine ⟨x 0, x 1, x 2, fun i => ?_⟩
    simp [Matrix.mulVec, dotProduct, Fin.sum_univ_three]
    ring
  · rintro ⟨x, y, z, h⟩
    refine ⟨![x, y, z], ?_⟩
    funext i
    rw [h i]
    simp [Matrix.mulVec, dotProduct, Fin.sum_univ_three]
    ring

theorem mem_rowLat_rows {A B C w : V3} : w ∈ RowLat (rows3 A B C) ↔ ∃ z : ℤ, ∃ p ∈ PairLat A B, ∀ i, w i = p i + z * C i := by
  rw [mem_rowLat]
  constructor
  · rintro ⟨x, y, z, h⟩
    exact ⟨z, fun i => x * A i + y * B i, ⟨x, y, fun _ => rfl⟩, h⟩
  · rintro ⟨z, p, ⟨x, y, hp⟩, h⟩
    exact ⟨x, y, z, fun i => by rw [h i, hp i]; rfl⟩

theorem rowLat_pair {A B A' B' C : V3} (h : PairLat A' B' = PairLat A B) : RowLat (rows3 A' B' C) = RowLat (rows3 A B C) := by
  ext w
  rw [mem_rowLat_rows, mem_rowLat_rows, h]

theorem pairLat_zsmul {A B p : V3} (hp : p ∈ PairLat A B) (z : ℤ) : (fun i => (z : ℝ) * p i) ∈ PairLat A B := by
  obtain ⟨x, y, h⟩ := hp
  exact ⟨z * x, z * y, fun i => by simp only [h i]; push_cast; ring⟩

theorem pairLat_add {A B p q : V3} (hp : p ∈ PairLat A B) (hq : q ∈ PairLat A B) : (fun i => p i + q i) ∈ PairLat A B := by
  obtain ⟨x, y, h⟩ := hp
  obtain ⟨x', y', h'⟩ := hq
  exact ⟨x + x', y + y', fun i => by simp only [h i, h' i]; push_cast; ring⟩

theorem rowLat_shift {A B C p : V3} (hp : p ∈ PairLat A B) : RowLat (rows3 A B (fun i => C i - p i)) = RowLat (rows3 A B C) := by
  ext w
  rw [mem_rowLat_rows, mem_rowLat_rows]
  constructor
  · rintro ⟨z, q, hq, h⟩
    refine ⟨z, _, pairLat_add hq (pairLat_zsmul hp (-z)), fun i => ?_⟩
    rw [h i]; push_cast; ring
  · rintro ⟨z, q, hq, h⟩
    refine ⟨z, _, pairLat_add hq (pairLat_zsmul hp z), fun i => ?_⟩
    rw [h i]; ring

theorem rowLat_det {M N : M3 ℝ} (h : RowLat M = RowLat N) (hN : N.det ≠ 0) : M.det ≠ 0 := by
  have : ColLattice N.transpose ⊆ ColLattice M.transpose := by
    have := h.symm
    exact this.subset
  obtain ⟨T, hT⟩ := colLat_subset.mp this
  intro h0
  apply hN
  have := congrArg Matrix.det hT
  rw [Matrix.det_mul, Matrix.det_transpose, Matrix.det_transpose, h0, zero_mul] at this
  exact this

theorem rows3_det (A B C : V3) : (rows3 A B C).det = vdot C (vcross A B) := by
  rw [Matrix.det_fin_three]
  simp [rows3, vdot, vcross]
  ring

theorem rows3_eta (M : M3 ℝ) : rows3 (M 0) (M 1) (M 2) = M := by
  ext i j
  fin_cases i <;> rfl

theorem reduceC_spec {A B C : V3} {eps : ℝ} (h0 : 0 ≤ eps) (h1 : eps < 1) (hd : (rows3 A B C).det ≠ 0) :
    reduceC A B C eps = .error .sysExit ∨ ∃ A' B' C', reduceC A B C eps = .ok (A', B', C') ∧
      RowLat (rows3 A' B' C') = RowLat (rows3 A B C) ∧ PairReduced eps A' B' := by
  have hcr : vcross A B ≠ 0 := by
    intro h
    apply hd
    rw [rows3_det, h]
    simp [vdot]
  rcases gaussReduce_spec eps A B hcr with hg | ⟨A', B', hg, hlat, hcr', hred⟩
  · left
    unfold reduceC
    rw [hg]
    rfl
  · right
    have hrow : RowLat (rows3 A' B' C) = RowLat (rows3 A B C) := rowLat_pair hlat
    have hd' : (rows3 A' B' C).det ≠ 0 := rowLat_det hrow hd
    set abc := rows3 A' B' C with habc
    set cr := vcross A' B' with hcrdef
    have hn : vnorm cr ≠ 0 := by
      intro h
      have hs := vnorm_sq cr
      rw [h] at hs
      have : vdot cr cr ≠ 0 := by
        intro hz
        apply hcr'
        have h3 : cr 0 = 0 ∧ cr 1 = 0 ∧ cr 2 = 0 := by
          unfold vdot at hz
          refine ⟨?_, ?_, ?_⟩ <;> nlinarith [mul_self_nonneg (cr 0), mul_self_nonneg (cr 1), mul_self_nonneg (cr 2)]
        funext i
        fin_cases i
        · exact h3.1
        · exact h3.2.1
        · exact h3.2.2
      apply this
      unfold vdot
      nlinarith
    set cpd : V3 := fun i => cr i / vnorm cr with hcpd
    set T : V3 := fun i => C i - cpd i * vdot C cpd with hT
    have hTdot : vdot T cr = 0 := by
      have hs := vnorm_sq cr
      have e1 : vdot C cpd = vdot C cr / vnorm cr := by unfold vdot; simp only [hcpd]; field_simp
      have e2 : vdot T cr = vdot C cr - vdot C cpd * (vdot cr cr / vnorm cr) := by
        unfold vdot; simp only [hT, hcpd]; unfold vdot; field_simp; ring
      have e3 : vdot cr cr = vnorm cr ^ 2 := by rw [hs]; unfold vdot; ring
      rw [e2, e1, e3]
      field_simp
      ring
    have hy2 : Matrix.vecMul T abc⁻¹ 2 = 0 := by
      have hy : Matrix.vecMul (Matrix.vecMul T abc⁻¹) abc = T := by
        rw [Matrix.vecMul_vecMul, Matrix.nonsing_inv_mul _ (isUnit_iff_ne_zero.2 hd'), Matrix.vecMul_one]
      set y := Matrix.vecMul T abc⁻¹
      have e : vdot T cr = y 2 * abc.det := by
        rw [← hy, habc, rows3_det]
        simp only [vdot, Matrix.vecMul, dotProduct, Fin.sum_univ_three, hcrdef, rows3, vcross, Matrix.of_apply,
          Matrix.cons_val_zero, Matrix.cons_val_one, Matrix.cons_val_two, Matrix.cons_val, Matrix.head_cons, Matrix.tail_cons]
        ring
      rw [hTdot] at e
      rcases mul_eq_zero.mp e.symm with h | h
      · exact h
      · exact absurd h hd'
    have hLC2 : ⌊Matrix.vecMul T abc⁻¹ 2 + eps⌋ = 0 := by
      rw [hy2, zero_add, Int.floor_eq_zero_iff]
      exact ⟨h0, h1⟩
    unfold reduceC
    rw [hg]
    simp only [bind, Except.bind]
    rw [if_neg hd']
    set LC : Fin 3 → ℤ := fun i => ⌊Matrix.vecMul T abc⁻¹ i + eps⌋ with hLC
    set dist : (Fin 3 → ℤ) → ℝ := fun k => vnorm (fun i => T i - Matrix.vecMul (fun j => ((k j + LC j : ℤ) : ℝ)) abc i)
    have hk : ∀ (a : Fin 3 → ℤ) (l : List (Fin 3 → ℤ)), a 2 = 0 → (∀ b ∈ l, b 2 = 0) → argMin dist a l 2 = 0 := by
      intro a l
      induction l generalizing a with
      | nil => intro ha _; exact ha
      | cons b l ih =>
        intro ha hl
        unfold argMin
        split_ifs
        · exact ih b (hl b (by simp)) (fun c hc => hl c (by simp [hc]))
        · exact ih a ha (fun c hc => hl c (by simp [hc]))
    have hk2 := hk ![0, 0, 0] [![1, 0, 0], ![0, 1, 0], ![1, 1, 0]] rfl (by
      intro b hb
      simp only [List.mem_cons, List.not_mem_nil, or_false] at hb
      rcases hb with rfl | rfl | rfl <;> rfl)
    set k := argMin dist ![0, 0, 0] [![1, 0, 0], ![0, 1, 0], ![1, 1, 0]]
    have hp : Matrix.vecMul (fun j => ((k j + LC j : ℤ) : ℝ)) abc ∈ PairLat A' B' := by
      refine ⟨k 0 + LC 0, k 1 + LC 1, fun i => ?_⟩
      have : LC 2 = 0 := hLC2
      simp only [Matrix.vecMul, dotProduct, Fin.sum_univ_three, habc, rows3, Matrix.of_apply, hk2, this]
      simp
    have hrow' := (rowLat_shift (C := C) hp).trans hrow
    have hd'' := rowLat_det hrow' hd
    set C' : V3 := fun i => C i - Matrix.vecMul (fun j => ((k j + LC j : ℤ) : ℝ)) abc i
    rw [if_neg hd'']
    have hint : ∃ Z : M3 ℤ, (rows3 A' B' C')⁻¹.transpose * (rows3 A B C).transpose = castM Z := by
      obtain ⟨Z, hZ⟩ := colLat_subset.mp (show ColLattice (rows3 A B C).transpose ⊆ ColLattice (rows3 A' B' C').transpose from
        hrow'.symm.subset)
      refine ⟨Z, ?_⟩
      rw [hZ, ← Matrix.mul_assoc, ← Matrix.transpose_mul, Matrix.mul_nonsing_inv _ (isUnit_iff_ne_zero.2 hd''),
        Matrix.transpose_one, Matrix.one_mul]
    obtain ⟨Z, hZ⟩ := hint
    rw [hZ, if_neg]
    · exact ⟨A', B', C', rfl, hrow', hred⟩
    · rintro ⟨i, j, h⟩
      have : (castM Z : M3 ℝ) i j = (Z i j : ℝ) := rfl
      rw [this, npRound_int, sub_self, abs_zero] at h
      linarith

theorem rowLat_perm {M N : M3 ℝ} (σ : Fin 3 → Fin 3) (hσ : Function.Bijective σ) (h : ∀ i, N i = M (σ i)) : RowLat N = RowLat M := by
  have key : ∀ (M N : M3 ℝ) (σ : Fin 3 → Fin 3), Function.Bijective σ → (∀ i, N i = M (σ i)) → RowLat N ⊆ RowLat M := by
    intro M N σ hσ h w hw
    obtain ⟨x, rfl⟩ := hw
    obtain ⟨τ, h1, h2⟩ := Function.bijective_iff_has_inverse.mp hσ
    refine ⟨fun i => x (τ i), ?_⟩
    funext c
    simp only [Matrix.mulVec, dotProduct, Matrix.transpose_apply]
    let e : Fin 3 ≃ Fin 3 := ⟨σ, τ, h1, h2⟩
    rw [← Equiv.sum_comp e]
    apply Finset.sum_congr rfl
    intro i _
    have e1 : e i = σ i := rfl
    have e2 : τ (σ i) = i := h1 i
    rw [e1, e2, h i]
  apply Set.Subset.antisymm (key M N σ hσ h)
  obtain ⟨τ, h1, h2⟩ := Function.bijective_iff_has_inverse.mp hσ
  refine key N M τ ⟨h2.injective, h1.surjective⟩ (fun i => ?_)
  rw [h, h2 i]

theorem argMax3_max (n : Fin 3 → ℝ) (i : Fin 3) : n i ≤ n (argMax3 n) := by
  unfold argMax3
  split_ifs with h1 h2
  · fin_cases i
    · exact le_rfl
    · exact h1.1
    · exact h1.2
  · fin_cases i
    · simp only [Fin.zero_eta]
      by_contra hc
      push Not at hc
      exact h1 ⟨hc.le, by linarith⟩
    · exact le_rfl
    · exact h2
  · push Not at h2
    fin_cases i
    · simp only [Fin.zero_eta]
      by_contra hc
      push Not at hc
      exact h1 ⟨by linarith, hc.le⟩
    · exact h2.le
    · exact le_rfl

theorem third (i1 i2 : Fin 3) : ∃ j : Fin 3, j ≠ i1 ∧ j ≠ i2 := by
  revert i1 i2; decide

theorem third_eq (i0 i1 i2 j : Fin 3) : i1 ≠ i2 → j ≠ i1 → j ≠ i2 → ¬ i0 = j → i0 = i1 ∨ i0 = i2 := by
  revert i0 i1 i2 j; decide

theorem third_bij (i1 i2 j : Fin 3) : i1 ≠ i2 → j ≠ i1 → j ≠ i2 → Function.Bijective (![j, i1, i2] : Fin 3 → Fin 3) := by
  intro h1 h2 h3
  rw [← Finite.injective_iff_bijective]
  intro a b h
  fin_cases a <;> fin_cases b <;> simp_all

theorem sortRows_spec {M : M3 ℝ} (hpos : ∀ i, 0 < vnorm (M i)) :
    RowLat (sortRows M) = RowLat M ∧ vnorm (sortRows M 0) ≤ vnorm (sortRows M 1) ∧
      vnorm (sortRows M 1) ≤ vnorm (sortRows M 2) := by
  set n0 : Fin 3 → ℝ := fun i => vnorm (M i) with hn0
  set i2 := argMax3 n0 with hi2
  set n1 := Function.update n0 i2 0 with hn1
  set i1 := argMax3 n1 with hi1
  set n2 := Function.update n1 i1 0 with hn2
  set i0 := argMax3 n2 with hi0
  have e : sortRows M = rows3 (M i0) (M i1) (M i2) := rfl
  have h12 : i1 ≠ i2 := by
    intro h
    obtain ⟨j, hj⟩ : ∃ j : Fin 3, j ≠ i2 := by
      by_cases h0 : i2 = 0
      · exact ⟨1, by rw [h0]; decide⟩
      · exact ⟨0, fun h => h0 h.symm⟩
    have := argMax3_max n1 j
    rw [← hi1, h, hn1, Function.update_self, Function.update_of_ne hj] at this
    exact absurd (hpos j) (not_lt.mpr this)
  obtain ⟨j, hj1, hj2⟩ : ∃ j : Fin 3, j ≠ i1 ∧ j ≠ i2 := third i1 i2
  have h0j : i0 = j := by
    by_contra hne
    have := argMax3_max n2 j
    rw [← hi0] at this
    have h3 : n2 j = n0 j := by rw [hn2, Function.update_of_ne hj1, hn1, Function.update_of_ne hj2]
    have h4 : n2 i0 = 0 := by
      have : i0 = i1 ∨ i0 = i2 := third_eq i0 i1 i2 j h12 hj1 hj2 hne
      rcases this with h | h
      · rw [h, hn2, Function.update_self]
      · rw [h, hn2, Function.update_of_ne h12.symm, hn1, Function.update_self]
    rw [h3, h4] at this
    exact absurd (hpos j) (not_lt.mpr this)
  have hbij : Function.Bijective (![i0, i1, i2] : Fin 3 → Fin 3) := by
    rw [h0j]
    exact third_bij i1 i2 j h12 hj1 hj2
  refine ⟨?_, ?_, ?_⟩
  · rw [e]
    refine rowLat_perm ![i0, i1, i2] hbij ?_
    intro i
    fin_cases i <;> rfl
  · rw [e]
    show vnorm (M i0) ≤ vnorm (M i1)
    have := argMax3_max n1 i0
    rw [← hi1] at this
    rw [h0j] at this ⊢
    rwa [hn1, Function.update_of_ne hj2, Function.update_of_ne h12] at this
  · rw [e]
    show vnorm (M i1) ≤ vnorm (M i2)
    exact argMax3_max n0 i1

theorem norm_pos_of_det {M : M3 ℝ} (h : M.det ≠ 0) (i : Fin 3) : 0 < vnorm (M i) := by
  apply lt_of_le_of_ne (vnorm_nonneg _)
  intro h0
  apply h
  apply Matrix.det_eq_zero_of_row_eq_zero i
  intro j
  have := vnorm_sq (M i)
  rw [← h0] at this
  have h3 : M i 0 = 0 ∧ M i 1 = 0 ∧ M i 2 = 0 := by
    refine ⟨?_, ?_, ?_⟩ <;> nlinarith [sq_nonneg (M i 0), sq_nonneg (M i 1), sq_nonneg (M i 2)]
  fin_cases j
  · exact h3.1
  · exact h3.2.1
  · exact h3.2.2

theorem minkLoop_spec {eps : ℝ} (h0 : 0 ≤ eps) (h1 : eps < 1) : ∀ (k : ℕ) (M : M3 ℝ), M.det ≠ 0 →
    minkLoop eps k M = .error .sysExit ∨ ∃ N, minkLoop eps k M = .ok N ∧ RowLat N = RowLat M
  | 0, M, _ => Or.inr ⟨M, rfl, rfl⟩
  | k + 1, M, hd => by
    obtain ⟨hs, -, -⟩ := sortRows_spec (norm_pos_of_det hd)
    have hds := rowLat_det hs hd
    have hds' : (rows3 (sortRows M 0) (sortRows M 1) (sortRows M 2)).det ≠ 0 := by rw [rows3_eta]; exact hds
    unfold minkLoop
    simp only [bind, Except.bind]
    rcases reduceC_spec h0 h1 hds' with h | ⟨A, B, C, h, hl, -⟩
    · left; rw [h]
    · rw [h]
      simp only
      rw [rows3_eta, hs] at hl
      split_ifs
      · right; exact ⟨_, rfl, hl⟩
      · rcases minkLoop_spec h0 h1 k (rows3 A B C) (rowLat_det hl hd) with h' | ⟨N, h', hN⟩
        · left; exact h'
        · right; exact ⟨N, h', hN.trans hl⟩

end Phenum
