import Verif.Proof.SNFIter
/-
The Smith normal form routine: the outer loop.
-/
namespace Phenum

/-- The invariant of the outer loop. -/
structure SnfInv (H : IM) (j : Fin 3) (s : SnfState) : Prop where
  eq : s.A * H * s.B = s.M
  uA : IsUnit s.A.det
  uB : IsUnit s.B.det
  j2 : j ≠ 2
  border : j = 1 → Border s.M

theorem SnfInv.row {H : IM} {j : Fin 3} {s t : SnfState} (h : SnfInv H j s) (hr : RowRel j s t) : SnfInv H j t := by
  refine ⟨hr.inv h.eq, ?_, ?_, h.j2, hr.border h.border⟩
  · obtain ⟨P, h1, h2, h3, h4, h5⟩ := hr
    rw [h3, Matrix.det_mul]; exact h1.mul h.uA
  · obtain ⟨P, h1, h2, h3, h4, h5⟩ := hr
    rw [h4]; exact h.uB

theorem SnfInv.col {H : IM} {j : Fin 3} {s t : SnfState} (h : SnfInv H j s) (hr : ColRel j s t) : SnfInv H j t := by
  refine ⟨hr.inv h.eq, ?_, ?_, h.j2, hr.border h.border⟩
  · obtain ⟨P, h1, h2, h3, h4, h5⟩ := hr
    rw [h4]; exact h.uA
  · obtain ⟨P, h1, h2, h3, h4, h5⟩ := hr
    rw [h3, Matrix.det_mul]; exact h.uB.mul h1

theorem SnfInv.det {H : IM} {j : Fin 3} {s : SnfState} (h : SnfInv H j s) : s.M.det.natAbs = H.det.natAbs := by
  rw [← h.eq, Matrix.det_mul, Matrix.det_mul, Int.natAbs_mul, Int.natAbs_mul, Int.isUnit_iff_natAbs_eq.1 h.uA,
    Int.isUnit_iff_natAbs_eq.1 h.uB]
  simp

/-- Row and column `j` of the matrix are clean. -/
def CleanAt (j : Fin 3) (M : IM) : Prop := 0 < M j j ∧ (∀ k, k ≠ j → M j k = 0) ∧ ∀ i, i ≠ j → M i j = 0

/-- `m` bounds the common divisors of column `j`; if `flag` then moreover column `j` is clean and the pivot does
not divide its row, so that this iteration is bound to find a smaller pivot. -/
structure SnfBound (j : Fin 3) (s : SnfState) (m : ℕ) (flag : Prop) : Prop where
  pos : 0 < m
  dvd : ∀ d : ℤ, (∀ i, d ∣ s.M i j) → d.natAbs ∣ m
  flagged : flag → s.M j j ≠ 0 ∧ (∀ i, i ≠ j → s.M i j = 0) ∧ ∃ k, ¬ s.M j j ∣ s.M j k

theorem snfRows_noop (H : IM) (j : Fin 3) (s : SnfState) (h : nzCount (fun i => s.M i j) ≤ 1) :
    snfRows H j s = some (.ok s) := by
  unfold snfRows
  rw [pyWhile_unfold, if_neg (by simpa using h)]

/-- What an iteration of the outer loop does. -/
theorem snfIter_ok (H : IM) (hH : H.det ≠ 0) (j : Fin 3) (s : SnfState) (hI : SnfInv H j s) (m : ℕ) (flag : Prop)
    (hB : SnfBound j s m flag) :
    ∃ nx s', snfIter H j s = some (.ok (nx, s')) ∧
      ((nx = some j ∧ SnfInv H j s' ∧ ∃ m', 2 * m' ≤ m ∧ SnfBound j s' m' False)
        ∨ (nx = some j ∧ SnfInv H j s' ∧ ¬ flag ∧ ∃ m', m' ≤ m ∧ SnfBound j s' m' True)
        ∨ (j = 0 ∧ nx = some 1 ∧ SnfInv H 1 s')
        ∨ (j = 1 ∧ nx = none ∧ SnfInv H 1 s' ∧ CleanAt 1 s'.M ∧ s'.M 1 1 ∣ s'.M 2 2)) := by
  have hds : s.M.det ≠ 0 := by
    have := hI.det; intro h; rw [h] at this; exact hH (Int.natAbs_eq_zero.1 this.symm)
  -- the pivot
  obtain ⟨s1, s2, r1, r2, hr, hp, hc, hflag⟩ : ∃ s1 s2, snfRows H j s = some (.ok s1) ∧ snfRowSwap H j s1 = .ok s2 ∧
      RowRel j s s2 ∧ s2.M j j ≠ 0 ∧ (∀ i, i ≠ j → s2.M i j = 0) ∧ (flag → s2 = s) := by
    by_cases hf : flag
    · obtain ⟨f1, f2, f3⟩ := hB.flagged hf
      refine ⟨s, s, snfRows_noop H j s (nzCount_of_single j f2), ?_, RowRel.refl j s, f1, f2, fun _ => rfl⟩
      simp only [snfRowSwap, if_neg f1, bind, Except.bind]
      exact snfCheck_ok hI.eq
    · obtain ⟨s1, a1, a2, a3⟩ := snfRows_ok H j s hI.eq hI.border
      have hd1 : s1.M.det ≠ 0 := by
        have := a2.det; intro h; rw [h] at this; exact hds (Int.natAbs_eq_zero.1 this.symm)
      obtain ⟨s2, b1, b2, b3, b4⟩ := snfRowSwap_ok H j s1 (a2.inv hI.eq) (a2.border hI.border) hd1 a3
      exact ⟨s1, s2, a1, b1, a2.trans b2, b3, b4, fun h => absurd h hf⟩
  have hI2 := hI.row hr
  have hd2 : s2.M.det ≠ 0 := by
    have := hr.det; intro h; rw [h] at this; exact hds (Int.natAbs_eq_zero.1 this.symm)
  have hpm : (s2.M j j).natAbs ∣ m := hB.dvd _ (fun i => col_dvd hr (fun i => by
    by_cases hi : i = j
    · rw [hi]
    · rw [hc i hi]; exact dvd_zero _) i)
  have hple : (s2.M j j).natAbs ≤ m := Nat.le_of_dvd hB.pos hpm
  obtain ⟨s3, c1, c2, c3, c4⟩ := snfCols_ok H j hI.j2 s2 hI2.eq hI2.border hp hc
  obtain ⟨s4, d1, d2, d3, d4, d5⟩ := snfColFix_ok j s2 s3 c2 hI2.border hd2 hp hc c3 c4
  have hI4 := hI2.col d2
  have hiter : snfIter H j s = some (snfAfterCols H j s3) := by
    simp only [snfIter, r1, r2, c1]
  rcases d5 with ⟨e1, e2⟩ | ⟨⟨i, hi1, hi2⟩, e2⟩
  · -- clean
    have hpos : 0 < s4.M j j := by rw [e1]; exact abs_pos.2 hp
    have hclean : CleanAt j s4.M := ⟨hpos, d4, e2⟩
    have habs : (s4.M j j).natAbs = (s2.M j j).natAbs := by rw [e1, Int.natAbs_abs]
    have hnoflag : ¬ flag := by
      intro hf
      obtain ⟨f1, f2, k, f3⟩ := hB.flagged hf
      have hs := hflag hf
      subst hs
      refine f3 ?_
      have := row_dvd d2 (d := s4.M j j) (fun k => by
        by_cases hk : k = j
        · rw [hk]
        · rw [d4 k hk]; exact dvd_zero _) k
      rw [e1, abs_dvd] at this
      exact this
    have hnot : ¬ (1 < nzCount (fun k => s4.M j k) ∨ 1 < nzCount (fun i => s4.M i j)) := by
      have h1 := nzCount_of_single (v := fun k => s4.M j k) j d4
      have h2 := nzCount_of_single (v := fun i => s4.M i j) j e2
      omega
    have hafter : snfAfterCols H j s3 = snfTail j s4 := by
      simp only [snfAfterCols, d1, bind, Except.bind, if_neg hnot, snfCheck_ok hI4.eq]
    rw [hiter, hafter]
    have hj01 : j = 0 ∨ j = 1 := by
      have := hI.j2
      fin_cases j <;> simp_all
    rcases hj01 with rfl | rfl
    · -- j = 0
      obtain ⟨g1, g2, g3⟩ := hclean
      have h00 : s4.M 0 0 ≠ 0 := ne_of_gt g1
      by_cases hdiv : Int.fmod (s4.M 1 1) (s4.M 0 0) = 0 ∧ Int.fmod (s4.M 1 2) (s4.M 0 0) = 0
          ∧ Int.fmod (s4.M 2 1) (s4.M 0 0) = 0 ∧ Int.fmod (s4.M 2 2) (s4.M 0 0) = 0
      · refine ⟨some 1, s4, ?_, Or.inr (Or.inr (Or.inl ⟨rfl, rfl, ⟨hI4.eq, hI4.uA, hI4.uB, by decide, fun _ => ?_⟩⟩))⟩
        · simp only [snfTail, h00, if_false]
          rw [if_neg (by simp [hdiv]), if_neg (by simp), if_neg (by simp), if_pos (by simp)]
        · exact ⟨g2 1 (by decide), g2 2 (by decide), g3 1 (by decide), g3 2 (by decide), g1,
            Int.dvd_of_fmod_eq_zero hdiv.1, Int.dvd_of_fmod_eq_zero hdiv.2.1, Int.dvd_of_fmod_eq_zero hdiv.2.2.1,
            Int.dvd_of_fmod_eq_zero hdiv.2.2.2⟩
      · have key : ∃ k : Fin 3, k ≠ 0 ∧ (∃ x, x ≠ 0 ∧ ¬ s4.M 0 0 ∣ s4.M k x) ∧
            snfTail 0 s4 = .ok (some 0, { s4 with M := rowSub 0 k (-1) s4.M, A := rowSub 0 k (-1) s4.A }) := by
          have hnd : ∀ i k, Int.fmod (s4.M i k) (s4.M 0 0) ≠ 0 → ¬ s4.M 0 0 ∣ s4.M i k :=
            fun i k h h' => h (Int.fmod_eq_zero_of_dvd h')
          refine ⟨if ((s4.M 1 1).fmod (s4.M 0 0)).natAbs < ((s4.M 2 1).fmod (s4.M 0 0)).natAbs ∨
            (((s4.M 1 1).fmod (s4.M 0 0)).natAbs = ((s4.M 2 1).fmod (s4.M 0 0)).natAbs ∧
              ((s4.M 1 2).fmod (s4.M 0 0)).natAbs < ((s4.M 2 2).fmod (s4.M 0 0)).natAbs) then 2 else 1, ?_, ?_, ?_⟩
          · split <;> decide
          · split
            · rename_i hcond
              rcases hcond with hcond | hcond
              · exact ⟨1, by decide, hnd _ _ (by omega)⟩
              · exact ⟨2, by decide, hnd _ _ (by omega)⟩
            · rename_i hcond
              by_cases h11 : Int.fmod (s4.M 1 1) (s4.M 0 0) = 0
              · refine ⟨2, by decide, hnd _ _ ?_⟩
                intro h12
                apply hdiv
                refine ⟨h11, h12, ?_, ?_⟩ <;> · rw [h11, h12] at hcond; simp only [Int.natAbs_zero] at hcond; omega
              · exact ⟨1, by decide, hnd _ _ h11⟩
          · simp only [snfTail, h00, if_false]
            rw [if_pos ⟨trivial, hdiv⟩]
        obtain ⟨k, hk0, ⟨x, hx0, hx⟩, ht⟩ := key
        refine ⟨_, _, by rw [ht], Or.inr (Or.inl ⟨rfl, hI4.row (RowRel.sub s4 (Ne.symm hk0) (-1) (by simp)), hnoflag,
          (s4.M 0 0).natAbs, by rw [habs]; exact hple, ?_⟩)⟩
        have e00 : rowSub 0 k (-1) s4.M 0 0 = s4.M 0 0 := by simp [rowSub, g3 k hk0]
        refine ⟨Int.natAbs_pos.2 h00, fun d hd => ?_, fun _ => ⟨?_, fun i hi => ?_, x, ?_⟩⟩
        · have := hd 0
          simp only at this
          rw [e00] at this
          exact Int.natAbs_dvd_natAbs.2 this
        · simp only; rw [e00]; exact h00
        · simpa [rowSub, hi] using g3 i hi
        · simp only
          rw [e00]
          simpa [rowSub, g2 x hx0] using hx
    · -- j = 1
      obtain ⟨g1, g2, g3⟩ := hclean
      have hbd := hI4.border rfl
      have h00 : s4.M 0 0 ≠ 0 := ne_of_gt hbd.pos
      have h11 : s4.M 1 1 ≠ 0 := ne_of_gt g1
      by_cases hdiv : Int.fmod (s4.M 2 2) (s4.M 1 1) = 0
      · refine ⟨none, s4, ?_, Or.inr (Or.inr (Or.inr ⟨rfl, rfl, hI4, ⟨g1, g2, g3⟩, Int.dvd_of_fmod_eq_zero hdiv⟩))⟩
        simp only [snfTail, h00, if_false]
        rw [if_neg (by simp), if_neg (by simp [h11]), if_neg (by simp [hdiv]), if_neg (by simp),
          if_neg (by simp [g3 2 (by decide), g2 2 (by decide)])]
      · refine ⟨some 1, { s4 with M := rowSub 1 2 (-1) s4.M, A := rowSub 1 2 (-1) s4.A }, ?_,
          Or.inr (Or.inl ⟨rfl, hI4.row (RowRel.sub s4 (by decide) (-1) (fun _ => by decide)), hnoflag,
          (s4.M 1 1).natAbs, by rw [habs]; exact hple, ?_⟩)⟩
        · simp only [snfTail, h00, if_false]
          rw [if_neg (by simp), if_neg (by simp [h11]), if_pos (by simp [hdiv])]
        · have e11 : rowSub 1 2 (-1) s4.M 1 1 = s4.M 1 1 := by simp [rowSub, g3 2 (by decide)]
          refine ⟨Int.natAbs_pos.2 h11, fun d hd => ?_, fun _ => ⟨?_, fun i hi => ?_, 2, ?_⟩⟩
          · have := hd 1
            simp only at this
            rw [e11] at this
            exact Int.natAbs_dvd_natAbs.2 this
          · simp only; rw [e11]; exact h11
          · simpa [rowSub, hi] using g3 i hi
          · simp only
            rw [e11]
            simp only [rowSub, if_true, g2 2 (by decide)]
            intro h
            apply hdiv
            apply Int.fmod_eq_zero_of_dvd
            simpa using h
  · -- not clean
    have hyes : 1 < nzCount (fun k => s4.M j k) ∨ 1 < nzCount (fun i => s4.M i j) := by
      right
      by_contra hle
      exact hi2 (nzCount_single (v := fun i => s4.M i j) (by omega) d3 i hi1)
    have hafter : snfAfterCols H j s3 = .ok (some j, s4) := by
      simp only [snfAfterCols, d1, bind, Except.bind, if_pos hyes]
    rw [hiter, hafter]
    refine ⟨some j, s4, rfl, Or.inl ⟨rfl, hI4, (s4.M j j).natAbs, by omega, Int.natAbs_pos.2 d3, fun d hd => ?_,
      fun h => h.elim⟩⟩
    exact Int.natAbs_dvd_natAbs.2 (hd j)

/-- What holds when the outer loop stops. -/
def SnfFinal (H : IM) (s : SnfState) : Prop := SnfInv H 1 s ∧ CleanAt 1 s.M ∧ s.M 1 1 ∣ s.M 2 2

/-- Number of iterations that suffice. -/
def snfPot (j : Fin 3) (n m : ℕ) (f : ℕ) : ℕ := 2 * Nat.log2 m + f + (if j = 0 then 2 * Nat.log2 n + 3 else 1)

theorem log2_half {m m' : ℕ} (h : 2 * m' ≤ m) (h' : 0 < m') : Nat.log2 m' + 1 ≤ Nat.log2 m := by
  rw [Nat.le_log2 (by omega), Nat.pow_succ]
  have := Nat.log2_self_le (n := m') (by omega)
  omega

theorem log2_mono {m m' : ℕ} (h : m' ≤ m) (h' : 0 < m') : Nat.log2 m' ≤ Nat.log2 m := by
  rw [Nat.le_log2 (by omega)]
  have := Nat.log2_self_le (n := m') (by omega)
  omega

/-- Common divisors of a column divide the determinant. -/
theorem dvd_det_of_col {M : IM} {j : Fin 3} {d : ℤ} (h : ∀ i, d ∣ M i j) : d ∣ M.det := by
  rw [Matrix.det_succ_column M j]
  exact Finset.dvd_sum (fun i _ => ((h i).mul_left _).mul_right _)

theorem snfLoop_ok (H : IM) (hH : H.det ≠ 0) : ∀ (fuel : ℕ) (j : Fin 3) (s : SnfState) (m f : ℕ) (flag : Prop),
    SnfInv H j s → SnfBound j s m flag → (f = 0 ∧ flag ∨ f = 1 ∧ ¬ flag) →
    ∃ r, snfLoop H fuel j s = some r ∧ (r = .error .runtimeError ∨ ∃ s', r = .ok s' ∧ SnfFinal H s') ∧
      (snfPot j H.det.natAbs m f ≤ fuel → ∃ s', r = .ok s') := by
  intro fuel
  induction fuel with
  | zero =>
    intro j s m f flag hI hB hf
    refine ⟨_, rfl, Or.inl rfl, fun h => ?_⟩
    unfold snfPot at h
    split at h <;> omega
  | succ fuel ih =>
    intro j s m f flag hI hB hf
    obtain ⟨nx, s', e, hcase⟩ := snfIter_ok H hH j s hI m flag hB
    rcases hcase with ⟨rfl, hI', m', hm', hB'⟩ | ⟨rfl, hI', hnf, m', hm', hB'⟩ | ⟨rfl, rfl, hI'⟩ | ⟨rfl, rfl, hI', hcl, hdv⟩
    · obtain ⟨r, r1, r2, r3⟩ := ih j s' m' 1 False hI' hB' (by simp)
      refine ⟨r, by simp only [snfLoop, e]; exact r1, r2, fun h => r3 ?_⟩
      have := log2_half hm' hB'.pos
      unfold snfPot at h ⊢
      omega
    · obtain ⟨r, r1, r2, r3⟩ := ih j s' m' 0 True hI' hB' (by simp)
      refine ⟨r, by simp only [snfLoop, e]; exact r1, r2, fun h => r3 ?_⟩
      have := log2_mono hm' hB'.pos
      have hf1 : f = 1 := by rcases hf with ⟨_, h'⟩ | ⟨h', _⟩; exact absurd h' hnf; exact h'
      unfold snfPot at h ⊢
      omega
    · have hB' : SnfBound 1 s' H.det.natAbs False := by
        refine ⟨Int.natAbs_pos.2 hH, fun d hd => ?_, fun h => h.elim⟩
        rw [← hI'.det]
        exact Int.natAbs_dvd_natAbs.2 (dvd_det_of_col hd)
      obtain ⟨r, r1, r2, r3⟩ := ih 1 s' H.det.natAbs 1 False hI' hB' (by simp)
      refine ⟨r, by simp only [snfLoop, e]; exact r1, r2, fun h => r3 ?_⟩
      unfold snfPot at h ⊢
      simp only [if_true] at h
      rw [if_neg (by decide)]
      omega
    · refine ⟨.ok s', by simp only [snfLoop, e], Or.inr ⟨s', rfl, hI', hcl, hdv⟩, fun _ => ⟨s', rfl⟩⟩

/-- What the routine returns. -/
structure SnfResult (H : IM) (s : SnfState) : Prop where
  eq : s.A * H * s.B = s.M
  uA : IsUnit s.A.det
  uB : IsUnit s.B.det
  diag : ∀ i k, i ≠ k → s.M i k = 0
  pos : ∀ i, 0 < s.M i i
  d01 : s.M 0 0 ∣ s.M 1 1
  d12 : s.M 1 1 ∣ s.M 2 2

theorem SnfFinal.diag {H : IM} {s : SnfState} (h : SnfFinal H s) (i k : Fin 3) (hik : i ≠ k) : s.M i k = 0 := by
  obtain ⟨hI, hc, -⟩ := h
  have hb := hI.border rfl
  obtain ⟨g1, g2, g3⟩ := hc
  fin_cases i <;> fin_cases k <;> simp at hik
  · exact hb.m01
  · exact hb.m02
  · exact hb.m10
  · exact g2 2 (by decide)
  · exact hb.m20
  · exact g3 2 (by decide)

theorem SnfFinal.m22 {H : IM} (hH : H.det ≠ 0) {s : SnfState} (h : SnfFinal H s) : s.M 2 2 ≠ 0 := by
  intro h0
  have hd := h.1.det
  have : s.M.det = 0 := by
    refine Matrix.det_eq_zero_of_row_eq_zero 2 (fun k => ?_)
    by_cases hk : k = 2
    · rw [hk, h0]
    · exact h.diag 2 k (Ne.symm hk)
  rw [this] at hd
  exact hH (Int.natAbs_eq_zero.1 hd.symm)

theorem snfFinish_ok {H : IM} (hH : H.det ≠ 0) {s : SnfState} (h : SnfFinal H s) :
    ∃ s', snfFinish H s = .ok s' ∧ SnfResult H s' := by
  have h22 := h.m22 hH
  have hdiag := h.diag
  obtain ⟨hI, hc, hdv⟩ := h
  have hb := hI.border rfl
  obtain ⟨g1, g2, g3⟩ := hc
  have final : ∀ t : SnfState, SnfResult H t → snfCheck H t = .ok t → (do
      let s ← snfCheck H t
      if s.M 0 1 ≠ 0 ∨ s.M 0 2 ≠ 0 ∨ s.M 1 0 ≠ 0 ∨ s.M 1 2 ≠ 0 ∨ s.M 2 0 ≠ 0 ∨ s.M 2 1 ≠ 0 then .error .sysExit
      else if s.M 0 0 = 0 then .error .zeroDivision
      else if Int.fmod (s.M 1 1) (s.M 0 0) ≠ 0 then .error .sysExit
      else if s.M 1 1 = 0 then .error .zeroDivision
      else if Int.fmod (s.M 2 2) (s.M 1 1) ≠ 0 then .error .sysExit
      else .ok s : Py SnfState) = .ok t := by
    intro t ht hck
    rw [hck]
    simp only [bind, Except.bind]
    rw [if_neg, if_neg (ne_of_gt (ht.pos 0)), if_neg, if_neg (ne_of_gt (ht.pos 1)), if_neg]
    · simpa using Int.fmod_eq_zero_of_dvd ht.d12
    · simpa using Int.fmod_eq_zero_of_dvd ht.d01
    · simp [ht.diag 0 1, ht.diag 0 2, ht.diag 1 0, ht.diag 1 2, ht.diag 2 0, ht.diag 2 1]
  by_cases hneg : s.M 2 2 < 0
  · have hres : SnfResult H { s with M := colNeg 2 s.M, B := colNeg 2 s.B } := by
      have hrel : ColRel 1 s { s with M := colNeg 2 s.M, B := colNeg 2 s.B } :=
        ⟨colNeg 2 1, colNeg_det _, colNeg_mul _ _, colNeg_mul _ _, rfl, fun _ => fix0_colNeg (by decide)⟩
      have hI' := hI.col hrel
      refine ⟨hI'.eq, hI'.uA, hI'.uB, fun i k hik => ?_, fun i => ?_, ?_, ?_⟩
      · have := hdiag i k hik
        by_cases hk : k = 2
        · subst hk; simp [colNeg, this]
        · simp [colNeg, hk, this]
      · fin_cases i
        · simpa [colNeg] using hb.pos
        · simpa [colNeg] using g1
        · simpa [colNeg] using hneg
      · simpa [colNeg] using hb.d11
      · simpa [colNeg] using hdv
    exact ⟨_, by simp only [snfFinish, if_pos hneg]; exact final _ hres (snfCheck_ok hres.eq), hres⟩
  · have hres : SnfResult H s := by
      refine ⟨hI.eq, hI.uA, hI.uB, hdiag, fun i => ?_, hb.d11, hdv⟩
      fin_cases i
      · exact hb.pos
      · exact g1
      · simp only [Fin.reduceFinMk]; omega
    exact ⟨s, by simp only [snfFinish, if_neg hneg]; exact final _ hres (snfCheck_ok hres.eq), hres⟩

theorem snf_total (H : IM) (h : 1 ≤ H.det) :
    ∃ r, smithNormalForm H = some r ∧ (r = .error .runtimeError ∨ ∃ s, r = .ok s ∧ SnfResult H s) ∧
      (H.det < 2 ^ 24 → ∃ s, r = .ok s) := by
  have hH : H.det ≠ 0 := by omega
  have hI : SnfInv H 0 { M := H, A := 1, B := 1 } := ⟨by simp, by simp, by simp, by decide, by simp⟩
  have hB : SnfBound 0 { M := H, A := 1, B := 1 } H.det.natAbs False :=
    ⟨Int.natAbs_pos.2 hH, fun d hd => Int.natAbs_dvd_natAbs.2 (dvd_det_of_col hd), fun h => h.elim⟩
  obtain ⟨r, r1, r2, r3⟩ := snfLoop_ok H hH 99 0 _ H.det.natAbs 1 False hI hB (by simp)
  unfold smithNormalForm
  rw [if_neg (by omega), r1]
  rcases r2 with rfl | ⟨s, rfl, hs⟩
  · refine ⟨_, rfl, Or.inl rfl, fun hlt => ?_⟩
    obtain ⟨s', hs'⟩ := r3 (by
      have : Nat.log2 H.det.natAbs < 24 := (Nat.log2_lt (by omega)).2 (by omega)
      unfold snfPot
      simp only [if_true]
      omega)
    simp at hs'
  · obtain ⟨s', f1, f2⟩ := snfFinish_ok hH hs
    exact ⟨_, rfl, Or.inr ⟨s', f1, f2⟩, fun _ => ⟨s', f1⟩⟩

end Phenum
