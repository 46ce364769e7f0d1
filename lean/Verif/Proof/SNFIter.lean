import Verif.Proof.SNF
import Mathlib.LinearAlgebra.Matrix.ToLinearEquiv
/-
The Smith normal form routine: one iteration of the outer loop.
-/
namespace Phenum

theorem exists_ne_zero_col {M : IM} (h : M.det ≠ 0) (j : Fin 3) : ∃ i, M i j ≠ 0 := by
  by_contra hc
  refine h (Matrix.det_eq_zero_of_column_eq_zero j (fun i => ?_))
  by_contra h0
  exact hc ⟨i, h0⟩

theorem exists_ne_zero_row {M : IM} (h : M.det ≠ 0) (j : Fin 3) : ∃ i, M j i ≠ 0 := by
  by_contra hc
  refine h (Matrix.det_eq_zero_of_row_eq_zero j (fun i => ?_))
  by_contra h0
  exact hc ⟨i, h0⟩

/-- The index picked for the exchange is a non-zero position. -/
theorem firstIdx_max {v : Fin 3 → ℤ} (h : ∃ i, v i ≠ 0) : ∃ k, firstIdx v (maxAbs v) = .ok k ∧ v k ≠ 0 := by
  obtain ⟨k, h1, h2, -⟩ := firstIdx_ok v (maxAbs v) (maxAbs_spec v).1
  obtain ⟨i, hi⟩ := h
  refine ⟨k, h1, fun h0 => ?_⟩
  have := (maxAbs_spec v).2 i
  rw [← h2, h0] at this
  simp at this
  exact hi this

/-- The row exchange puts the pivot on the diagonal. -/
theorem snfRowSwap_ok (H : IM) (j : Fin 3) (s : SnfState) (hA : s.A * H * s.B = s.M) (hb : j = 1 → Border s.M)
    (hd : s.M.det ≠ 0) (hn : nzCount (fun i => s.M i j) ≤ 1) :
    ∃ s', snfRowSwap H j s = .ok s' ∧ RowRel j s s' ∧ s'.M j j ≠ 0 ∧ ∀ i, i ≠ j → s'.M i j = 0 := by
  by_cases h0 : s.M j j = 0
  · obtain ⟨k, hk1, hk2⟩ := firstIdx_max (v := fun i => s.M i j) (exists_ne_zero_col hd j)
    have hkj : k ≠ j := by rintro rfl; exact hk2 h0
    have hrel : RowRel j s { s with M := rowSwap j k s.M, A := rowSwap j k s.A } :=
      ⟨rowSwap j k 1, rowSwap_det _ _, rowSwap_mul _ _ _, rowSwap_mul _ _ _, rfl, fun hj => by
        refine fix0_rowSwap (by rw [hj]; decide) ?_
        rintro rfl
        subst hj
        exact hk2 (hb rfl).m01⟩
    refine ⟨_, ?_, hrel, ?_, ?_⟩
    · simp only [snfRowSwap, if_pos h0, hk1, bind, Except.bind]
      exact snfCheck_ok (hrel.inv hA)
    · simpa [rowSwap, Ne.symm hkj] using hk2
    · intro i hi
      have hs := nzCount_single hn (c := k) hk2
      by_cases hik : i = k
      · simp [rowSwap, hik, h0]
      · simpa [rowSwap, hik, hi] using hs i hik
  · refine ⟨s, ?_, RowRel.refl j s, h0, fun i hi => nzCount_single (v := fun i => s.M i j) hn h0 i hi⟩
    simp only [snfRowSwap, if_neg h0, bind, Except.bind]
    exact snfCheck_ok hA

/-- Row `j` vanishes before the diagonal. -/
theorem row_before {j : Fin 3} (hj : j ≠ 2) {M : IM} (hb : j = 1 → Border M) (i : Fin 3) (hi : i < j) :
    M j i = 0 := by
  fin_cases j
  · simp at hi
  · fin_cases i
    · exact (hb rfl).m10
    · simp at hi
    · exact absurd hi (by decide)
  · simp at hj

/-- The column loop terminates normally; column `j` is untouched or row `j` has got an entry smaller than the
pivot `p`. -/
theorem snfCols_ok (H : IM) (j : Fin 3) (hj : j ≠ 2) (s : SnfState) (hA : s.A * H * s.B = s.M)
    (hb : j = 1 → Border s.M) (hp : s.M j j ≠ 0) (hc : ∀ i, i ≠ j → s.M i j = 0) :
    ∃ s', snfCols H j s = some (.ok s') ∧ ColRel j s s' ∧ nzCount (fun k => s'.M j k) ≤ 1
      ∧ ((s'.M j j = s.M j j ∧ ∀ i, i ≠ j → s'.M i j = 0)
          ∨ ∃ c, s'.M j c ≠ 0 ∧ (s'.M j c).natAbs < (s.M j j).natAbs) := by
  obtain ⟨s', h1, h2, h3⟩ := pyWhile_total (fun s => decide (1 < nzCount (fun k => s.M j k))) (snfColStep H j)
    (fun t => ColRel j s t ∧ ((t.M j j = s.M j j ∧ ∀ i, i ≠ j → t.M i j = 0)
          ∨ ∃ c, t.M j c ≠ 0 ∧ (t.M j c).natAbs < (s.M j j).natAbs)) (fun t => absSum (fun k => t.M j k)) (by
      intro t ht hcond
      obtain ⟨ht, hor⟩ := ht
      simp only [decide_eq_true_eq] at hcond
      obtain ⟨mn, mx, e, n1, n2, n3, n4, n5, n6⟩ := findMinMax_ok _ hcond
      have hz : j = 1 → mx ≠ 0 ∧ mn ≠ 0 := by
        intro hj'
        have hB := ht.border hb hj'
        subst hj'
        constructor
        · rintro rfl; exact n2 hB.m10
        · rintro rfl; exact n1 hB.m10
      have hrel := ColRel.sub (j := j) t (Ne.symm n3) (Int.fdiv (t.M j mx) (t.M j mn)) hz
      have hrel' := ht.trans hrel
      refine ⟨_, ?_, ⟨hrel', ?_⟩, ?_⟩
      · simp only [snfColStep, e, bind, Except.bind, if_neg n1]
        exact snfCheck_ok (hrel'.inv hA)
      · dsimp only
        have hmn : ∀ i, colSub mx mn (Int.fdiv (t.M j mx) (t.M j mn)) t.M i mn = t.M i mn := by
          intro i; simp [colSub, n3]
        rcases hor with ⟨e1, e2⟩ | ⟨c, c1, c2⟩
        · by_cases hm : mx = j
          · right
            refine ⟨mn, by rw [hmn]; exact n1, ?_⟩
            rw [hmn, ← e1, ← hm]
            rcases lt_or_gt_of_ne n3 with hlt | hgt
            · exact absurd (row_before hj (ht.border hb) mn (hm ▸ hlt)) n1
            · have := n6 mn hgt
              rw [hm] at this ⊢
              exact this
          · left
            have hj' : ∀ i, colSub mx mn (Int.fdiv (t.M j mx) (t.M j mn)) t.M i j = t.M i j := by
              intro i; simp [colSub, Ne.symm hm]
            exact ⟨by rw [hj', e1], fun i hi => by rw [hj', e2 i hi]⟩
        · right
          exact ⟨mn, by rw [hmn]; exact n1, by rw [hmn]; exact lt_of_le_of_lt (n4 c c1) c2⟩
      · refine absSum_lt mx (fun i hi => by simp [colSub, hi]) ?_
        simp only [colSub, if_true]
        exact lt_of_lt_of_le (fmod_lt_abs _ _ n1) (n4 mx n2)) s
        ⟨ColRel.refl j s, Or.inl ⟨rfl, hc⟩⟩
  refine ⟨s', h1, h2.1, ?_, h2.2⟩
  simp only [decide_eq_false_iff_not, not_lt] at h3
  exact h3

theorem isUnit_inv {Q : IM} (h : IsUnit Q.det) : ∃ R : IM, R * Q = 1 ∧ Q * R = 1 :=
  ⟨Q⁻¹, Matrix.nonsing_inv_mul Q h, Matrix.mul_nonsing_inv Q h⟩

/-- If the lattice of columns contains a multiple `w` of `e_j` then the pivot divides it. -/
theorem pivot_dvd {j : Fin 3} {s t : SnfState} (h : ColRel j s t) (hd : s.M.det ≠ 0)
    (hc : ∀ i, i ≠ j → s.M i j = 0) {x : Fin 3 → ℤ} {w : ℤ} (hx : t.M.mulVec x = Pi.single j w) :
    s.M j j ∣ w := by
  obtain ⟨Q, h1, h2, -⟩ := h
  have hcol : s.M.mulVec (Pi.single j (1 : ℤ)) = Pi.single j (s.M j j) := by
    funext i
    rw [Matrix.mulVec_single_one]
    by_cases hi : i = j
    · subst hi; simp [Matrix.col_apply]
    · simp [Matrix.col_apply, hi, hc i hi]
  have e : s.M.mulVec (s.M j j • Q.mulVec x - w • Pi.single j (1 : ℤ)) = 0 := by
    rw [Matrix.mulVec_sub, Matrix.mulVec_smul, Matrix.mulVec_smul, hcol, Matrix.mulVec_mulVec, ← h2, hx]
    funext i
    by_cases hi : i = j
    · subst hi; simp [mul_comm]
    · simp [hi]
  have e0 := Matrix.eq_zero_of_mulVec_eq_zero hd e
  have := congrFun e0 j
  simp at this
  exact ⟨Matrix.mulVec Q x j, by linarith⟩

/-- All entries of row `j` share the divisors of the result of the column loop. -/
theorem row_dvd {j : Fin 3} {s t : SnfState} (h : ColRel j s t) {d : ℤ} (hd : ∀ k, d ∣ t.M j k) (k : Fin 3) :
    d ∣ s.M j k := by
  obtain ⟨Q, h1, h2, -⟩ := h
  obtain ⟨R, -, hR⟩ := isUnit_inv h1
  have : s.M = t.M * R := by rw [h2, Matrix.mul_assoc, hR, Matrix.mul_one]
  rw [this, Matrix.mul_apply]
  exact Finset.dvd_sum (fun i _ => (hd i).mul_right _)

theorem col_dvd {j : Fin 3} {s t : SnfState} (h : RowRel j s t) {d : ℤ} (hd : ∀ i, d ∣ t.M i j) (k : Fin 3) :
    d ∣ s.M k j := by
  obtain ⟨Q, h1, h2, -⟩ := h
  obtain ⟨R, hR, -⟩ := isUnit_inv h1
  have : s.M = R * t.M := by rw [h2, ← Matrix.mul_assoc, hR, Matrix.one_mul]
  rw [this, Matrix.mul_apply]
  exact Finset.dvd_sum (fun i _ => (hd i).mul_left _)

theorem mulVec_single_col {M : IM} {j c : Fin 3} (h : ∀ i, i ≠ j → M i c = 0) :
    M.mulVec (Pi.single c (1 : ℤ)) = Pi.single j (M j c) := by
  funext i
  rw [Matrix.mulVec_single_one]
  by_cases hi : i = j
  · subst hi; simp [Matrix.col_apply]
  · simp [Matrix.col_apply, hi, h i hi]

/-- After the column loop and the exchange: row `j` is clean with pivot `v`; either column `j` is clean too and
`v = |p|`, or the iteration is repeated with `2|v| ≤ |p|`. -/
theorem snfColFix_ok (j : Fin 3) (s0 s : SnfState) (hrel : ColRel j s0 s)
    (hb : j = 1 → Border s0.M) (hd : s0.M.det ≠ 0) (hp : s0.M j j ≠ 0) (hc : ∀ i, i ≠ j → s0.M i j = 0)
    (hn : nzCount (fun k => s.M j k) ≤ 1)
    (hor : (s.M j j = s0.M j j ∧ ∀ i, i ≠ j → s.M i j = 0)
          ∨ ∃ c, s.M j c ≠ 0 ∧ (s.M j c).natAbs < (s0.M j j).natAbs) :
    ∃ s', snfColFix j s = .ok s' ∧ ColRel j s0 s' ∧ s'.M j j ≠ 0 ∧ (∀ k, k ≠ j → s'.M j k = 0)
      ∧ ((s'.M j j = |s0.M j j| ∧ ∀ i, i ≠ j → s'.M i j = 0)
        ∨ ((∃ i, i ≠ j ∧ s'.M i j ≠ 0) ∧ 2 * (s'.M j j).natAbs ≤ (s0.M j j).natAbs)) := by
  -- the fixed state
  obtain ⟨s', f1, f2, f3, f4, f5⟩ : ∃ s', snfColFix j s = .ok s' ∧ ColRel j s s' ∧ s'.M j j ≠ 0
      ∧ (∀ k, k ≠ j → s'.M j k = 0)
      ∧ (s.M j j ≠ 0 → s'.M j j = |s.M j j| ∧ ∀ i, s.M i j = 0 → s'.M i j = 0) := by
    by_cases hneg : s.M j j < 0
    · have hs := nzCount_single hn (c := j) (ne_of_lt hneg)
      refine ⟨{ s with M := colNeg j s.M, B := colNeg j s.B }, by simp [snfColFix, hneg], ?_, ?_, ?_, ?_⟩
      · refine ⟨colNeg j 1, colNeg_det j, colNeg_mul _ _, colNeg_mul _ _, rfl, fun hj => fix0_colNeg ?_⟩
        rw [hj]; decide
      · simpa [colNeg] using ne_of_lt hneg
      · intro k hk; simpa [colNeg, hk] using hs k hk
      · intro _
        exact ⟨by simp [colNeg, abs_of_neg hneg], fun i hi => by simp [colNeg, hi]⟩
    · by_cases h0 : s.M j j = 0
      · have hds : s.M.det ≠ 0 := by
          have := hrel.det; intro h; rw [h] at this; exact hd (Int.natAbs_eq_zero.1 this.symm)
        obtain ⟨k, hk1, hk2⟩ := firstIdx_max (v := fun k => s.M j k) (exists_ne_zero_row hds j)
        have hkj : k ≠ j := by rintro rfl; exact hk2 h0
        have hs := nzCount_single hn (c := k) hk2
        refine ⟨{ s with M := colSwap j k s.M, B := colSwap j k s.B },
          by simp [snfColFix, h0, hk1, bind, Except.bind], ?_, ?_, ?_, fun h => absurd h0 h⟩
        · refine ⟨colSwap j k 1, colSwap_det _ _, colSwap_mul _ _ _, colSwap_mul _ _ _, rfl, fun hj => ?_⟩
          refine fix0_colSwap (by rw [hj]; decide) ?_
          rintro rfl
          subst hj
          exact hk2 (hrel.border hb rfl).m10
        · simpa [colSwap, Ne.symm hkj] using hk2
        · intro i hi
          by_cases hik : i = k
          · simp [colSwap, hik, h0]
          · simpa [colSwap, hik, hi] using hs i hik
      · have hs := nzCount_single hn (c := j) h0
        refine ⟨s, by simp [snfColFix, hneg, h0], ColRel.refl j s, h0, hs, fun _ => ⟨?_, fun i hi => hi⟩⟩
        rw [abs_of_nonneg]; omega
  refine ⟨s', f1, hrel.trans f2, f3, f4, ?_⟩
  rcases hor with ⟨o1, o2⟩ | ⟨c, c1, c2⟩
  · left
    have := f5 (by rw [o1]; exact hp)
    exact ⟨by rw [this.1, o1], fun i hi => this.2 i (o2 i hi)⟩
  · right
    have hrel' := hrel.trans f2
    -- the pivot divides the old one
    have hdvd : s'.M j j ∣ s0.M j j := row_dvd hrel' (fun k => by
      by_cases hk : k = j
      · rw [hk]
      · rw [f4 k hk]; exact dvd_zero _) j
    -- and it divides the smaller entry
    have hsmall : s'.M j j ∣ s.M j c := row_dvd f2 (fun k => by
      by_cases hk : k = j
      · rw [hk]
      · rw [f4 k hk]; exact dvd_zero _) c
    have hlt : (s'.M j j).natAbs < (s0.M j j).natAbs :=
      lt_of_le_of_lt (Nat.le_of_dvd (Int.natAbs_pos.2 c1) (Int.natAbs_dvd_natAbs.2 hsmall)) c2
    constructor
    · by_contra hcon
      have hclean : ∀ i, i ≠ j → s'.M i j = 0 := fun i hi => by
        by_contra h0; exact hcon ⟨i, hi, h0⟩
      have := pivot_dvd hrel' hd hc (mulVec_single_col hclean)
      have := Nat.le_of_dvd (Int.natAbs_pos.2 f3) (Int.natAbs_dvd_natAbs.2 this)
      omega
    · obtain ⟨q, hq⟩ := Int.natAbs_dvd_natAbs.2 hdvd
      have hq2 : 2 ≤ q := by
        by_contra h
        have : q = 0 ∨ q = 1 := by omega
        rcases this with rfl | rfl
        · simp at hq; exact hp hq
        · omega
      rw [hq, Nat.mul_comm]
      exact Nat.mul_le_mul_left _ hq2

end Phenum
