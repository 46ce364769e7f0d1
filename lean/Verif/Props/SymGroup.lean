import Verif.Proof.SymGroup
/-
C53, C54: the drivers `get_sym_group` and `get_HNFs`.
-/
namespace Phenum
open Spec

/-- auxiliary: cell representatives are the canonical ones -/
theorem canon_of_forall₂ {P : M3 ℝ} (hP : P.det ≠ 0) {bas cell : List V3}
    (h : List.Forall₂ (fun b c => b - c ∈ ColLattice P.transpose ∧ InCell P c) bas cell) : cell = bas.map (canonV P) := by
  induction h with
  | nil => rfl
  | cons hb _ ih =>
    rw [List.map_cons, ← ih, (canonV_eq_iff hP).mpr hb.1, canonV_of_inCell hP hb.2]

/-- auxiliary: `bring_into_cell` on the basis -/
theorem bringBasis_ok {P : M3 ℝ} {bas : List V3} {eps : ℝ}
    (hb : ∀ v ∈ bas, bringIntoCell v (P.transpose)⁻¹ P.transpose eps = some (.ok (canonV P v))) :
    bringBasis P bas eps = (pure (bas.map (canonV P)) : Run _) := by
  unfold bringBasis
  apply run_mapM_ok
  intro b hbm
  rw [Matrix.transpose_nonsing_inv]
  exact hb b hbm

theorem crystalSym_canon {P : M3 ℝ} (hP : P.det ≠ 0) (bas : List V3) (R : M3 ℝ) (s : V3) :
    IsCrystalSym (ColLattice P.transpose) ((bas.map (canonV P)).map (fun d => (1, d))) R s ↔
      IsCrystalSym (ColLattice P.transpose) (bas.map (fun d => (1, d))) R s := by
  have h := crystal_canon hP (bas.map (fun d => ((1 : ℕ), d)))
  rw [List.map_map] at h
  rw [List.map_map]
  have e : ((fun d => ((1 : ℕ), d)) ∘ canonV P) = ((fun a : ℕ × V3 => (a.1, canonV P a.2)) ∘ fun d => ((1 : ℕ), d)) := rfl
  rw [e]
  constructor
  · rintro ⟨h1, h2, h3⟩; exact ⟨h1, h2, by rw [← h]; exact h3⟩
  · rintro ⟨h1, h2, h3⟩; exact ⟨h1, h2, by rw [h]; exact h3⟩

theorem sg_matGroup {Λ : Set V3} {L : List (M3 ℝ × V3)} (h : IsSpaceGroup Λ L) : IsMatGroup (L.map (·.1)) := by
  refine ⟨List.mem_map.mpr ⟨_, h.one, rfl⟩, ?_, ?_⟩
  · intro r hr s hs
    obtain ⟨p, hp, rfl⟩ := List.mem_map.mp hr
    obtain ⟨q, hq, rfl⟩ := List.mem_map.mp hs
    obtain ⟨x, hx, e, -⟩ := h.mul p hp q hq
    rw [← e]; exact List.mem_map_of_mem hx
  · intro r hr
    obtain ⟨p, hp, rfl⟩ := List.mem_map.mp hr
    obtain ⟨q, hq, e, -⟩ := h.inv p hp
    exact ⟨_, List.mem_map_of_mem hq, e⟩

/-- auxiliary: C53 with the explicit numbering of the sites -/
theorem sym_group_at (P : M3 ℝ) (hP : P.det ≠ 0) (bas cell : List V3) (hne : bas ≠ [])
    (hcell : List.Forall₂ (fun b c => b - c ∈ ColLattice P.transpose ∧ InCell P c) bas cell)
    (hd : ∀ i j, i < cell.length → j < cell.length → cell.getD i 0 - cell.getD j 0 ∈ ColLattice P.transpose → i = j)
    (H : M3 ℤ) (hH : 1 ≤ H.det) (hH' : H.det < 2 ^ 24)
    (hconv : ∀ R s, IsCrystalSym (ColLattice P.transpose) (bas.map (fun d => (1, d))) R s →
      ∃ u ∈ ColLattice P.transpose, ∀ d ∈ cell, R.transpose.mulVec d = R.mulVec d + u)
    (arrows : Bool)
    (harr : ∀ R s, IsCrystalSym (ColLattice P.transpose) (bas.map (fun d => (1, d))) R s → ∀ k a, IsArrowDir k a →
      ∃ m b, IsArrowDir m b ∧ if arrows then R.mulVec (fun i => (a i : ℝ)) = (fun i => (b i : ℝ))
        else ∀ i, RoundsTo (R.transpose.mulVec (fun i => (b i : ℝ)) i) (a i))
    (latDim : ℕ) (hdim : latDim ≠ 2) {eps : ℝ} (hfine : FineTol P bas eps) (hepsn : eps * (H.det.toNat : ℕ) < 1) :
    ∃ G pos, getSymGroup P bas H latDim eps arrows = some (.ok G) ∧
      (∀ k, k < cell.length * H.det.toNat → pos k - cell.getD (k / H.det.toNat) 0 ∈ ColLattice P.transpose) ∧
      (∀ a, a < cell.length → ∀ l ∈ ColLattice P.transpose, ∃! k, k < cell.length * H.det.toNat ∧
        cell.getD a 0 + l - pos k ∈ ColLattice (P.transpose * H.map (fun x => (x : ℝ)))) ∧
      (∀ g, g ∈ G ↔ ∃ R s, IsCrystalSym (ColLattice P.transpose) (bas.map (fun d => (1, d))) R s ∧
        ColLattice (R * (P.transpose * H.map (fun x => (x : ℝ)))) = ColLattice (P.transpose * H.map (fun x => (x : ℝ))) ∧
        Induces (ColLattice (P.transpose * H.map (fun x => (x : ℝ)))) (cell.length * H.det.toNat) pos R s g.1 ∧
        if arrows then TurnsArrows R g.2 else g.2 = List.range 6) ∧
      IsOpGroup (cell.length * H.det.toNat) 6 G ∧
      (∀ g, g ∈ G.take H.det.toNat ↔ g.2 = List.range 6 ∧ ∃ t ∈ ColLattice P.transpose,
        Induces (ColLattice (P.transpose * H.map (fun x => (x : ℝ)))) (cell.length * H.det.toNat) pos 1 t g.1) ∧
      ∃ snf, smithNormalForm H = some (.ok snf) ∧
        pos = sitePos (castM snf.A * P.transpose⁻¹)⁻¹ (fun i => snf.M i i) cell H.det.toNat ∧
        H.det.toNat ≤ G.length ∧ G[0]? = some (List.range (cell.length * H.det.toNat), List.range 6) ∧
        ((G.take H.det.toNat).map (·.1)).Nodup ∧
        ((if arrows then ∀ s, IsCrystalSym (ColLattice P.transpose) (bas.map (fun d => (1, d))) 1 s → s ∈ ColLattice P.transpose
          else cell.getD 0 0 = 0) → G.Nodup) := by
  classical
  have hcan := canon_of_forall₂ hP hcell
  have hlen : cell.length = bas.length := by rw [hcan, List.length_map]
  have hcne : cell ≠ [] := by rw [hcan]; simpa using hne
  have hin : ∀ d ∈ cell, InCell P d := by
    intro d hdm
    rw [hcan] at hdm
    obtain ⟨b, -, rfl⟩ := List.mem_map.mp hdm
    exact canonV_inCell P b
  set Λ := ColLattice P.transpose with hΛdef
  have hΛ : IsSub Λ := colLat_isSub _
  have hsymiff : ∀ R s, IsCrystalSym Λ (cell.map (fun d => (1, d))) R s ↔ IsCrystalSym Λ (bas.map (fun d => (1, d))) R s := by
    intro R s
    rw [hcan]
    exact crystalSym_canon hP bas R s
  set n := H.det.toNat with hn
  have hnz : (n : ℤ) = H.det := Int.toNat_of_nonneg (by omega)
  have hn1 : 1 ≤ n := by omega
  -- the choice of the lattice vectors
  have hu : ∀ p : M3 ℝ × V3, ∃ u : V3, IsCrystalSym Λ (bas.map (fun d => (1, d))) p.1 p.2 →
      u ∈ Λ ∧ ∀ d ∈ cell, p.1.transpose.mulVec d = p.1.mulVec d + u := by
    intro p
    by_cases h : IsCrystalSym Λ (bas.map (fun d => (1, d))) p.1 p.2
    · obtain ⟨u, h1, h2⟩ := hconv _ _ h; exact ⟨u, fun _ => ⟨h1, h2⟩⟩
    · exact ⟨0, fun h' => absurd h' h⟩
  choose u hu using hu
  have hmapc : ∀ R s, IsCrystalSym Λ (cell.map (fun d => (1, d))) R s → ∀ d ∈ cell, ∃ c ∈ cell,
      R.transpose.mulVec d + s - c ∈ Λ := by
    intro R s h d hdm
    obtain ⟨h1, h2⟩ := hu (R, s) ((hsymiff R s).mp h)
    obtain ⟨c, hc, -, hm⟩ := ((crystalSym_iff hΛ).mp h).2.2 (1, d) (List.mem_map_of_mem hdm)
    obtain ⟨c', hc', rfl⟩ := List.mem_map.mp hc
    refine ⟨c', hc', ?_⟩
    simp only at h2 hm
    rw [h2 d hdm]
    have := hΛ.add _ hm _ h1
    convert this using 1
    abel
  have h0 := hfine.pos
  obtain ⟨snf, hsnf⟩ := C24_smith_succeeds H hH hH'
  obtain ⟨L, g, hsg, ⟨hs, hc, hG⟩, hdp, hgood, -, hLin, hLpw⟩ := dvectors_at hP hcne hin hd hmapc hfine.rot
    (by rw [hcan]; exact hfine.space) (by rw [hcan]; exact hfine.perm)
  have hs' : ∀ p ∈ L, IsCrystalSym Λ (bas.map (fun d => (1, d))) p.1 p.2 := fun p hp => (hsymiff _ _).mp (hs p hp)
  have hA : P.transpose.det ≠ 0 := by rwa [Matrix.det_transpose]
  have hlatR : ∀ p ∈ L, ColLattice (p.1 * P.transpose) = Λ := by
    intro p hp
    rw [colLat_image]
    exact (hs p hp).lattice
  set SL := P.transpose * H.map (fun x => (x : ℝ)) with hSL
  set pred : M3 ℝ × V3 → Bool := fun p => decide (ColLattice (p.1 * SL) = ColLattice SL) with hpred
  obtain ⟨kept, deg, hfix, hkept, -, -⟩ := C44_fixing_operations P.transpose hA
    (L.map (fun p => (p.1, (p.2, some (g p))))) (by
      rw [List.map_map]; exact sg_matGroup hG) (by
      intro op hop
      obtain ⟨p, hp, rfl⟩ := List.mem_map.mp hop
      exact hlatR p hp) n hn1 eps h0.le hepsn H (Or.inl hnz.symm)
  have hkept' : kept = (L.filter pred).map (fun p => (p.1, (p.2, some (g p)))) := by
    rw [hkept, List.filter_map]
    congr 1
  set ops : List (CellOp ℝ) := (L.filter pred).map (fun p => ⟨p.1, p.2, (g p).1, (g p).2⟩) with hopsdef
  set ops' : List (CellOp ℝ) := (L.filter pred).map (fun p => ⟨p.1, p.2 + u p, (g p).1, (g p).2⟩) with hopsdef'
  have hrotshift : ∀ At m nd Lm S, rotationPerms At m nd Lm S ops eps arrows = rotationPerms At m nd Lm S ops' eps arrows := by
    intro At m nd Lm S
    rw [← rotationPerms_shift At m nd Lm S ops eps arrows (fun _ => 0),
      ← rotationPerms_shift At m nd Lm S ops' eps arrows (fun _ => 0)]
    congr 1
    rw [hopsdef, hopsdef', List.map_map, List.map_map]
    rfl
  have hmemop : ∀ o, o ∈ ops' ↔ ∃ p ∈ L, ColLattice (p.1 * SL) = ColLattice SL ∧
      o = ⟨p.1, p.2 + u p, (g p).1, (g p).2⟩ := by
    intro o
    rw [hopsdef', List.mem_map]
    constructor
    · rintro ⟨p, hp, rfl⟩
      rw [List.mem_filter] at hp
      exact ⟨p, hp.1, by simpa [hpred] using hp.2, rfl⟩
    · rintro ⟨p, hp, h, rfl⟩
      exact ⟨p, List.mem_filter.mpr ⟨hp, by simpa [hpred] using h⟩, rfl⟩
  have hrun : getSymGroup P bas H latDim eps arrows =
      runPy (rotationPerms P.transpose n cell.length snf.A (fun i => snf.M i i) ops eps arrows) := by
    unfold getSymGroup
    rw [if_neg hP, bringBasis_ok hfine.basis.1, ← hcan]
    simp only [pure_bind]
    rw [hdp latDim hdim]
    simp only [pure_bind]
    rw [hsg]
    simp only [pure_bind]
    rw [withData_map, hfix, hkept']
    show (do
      let ops ← runPy (takeData ((L.filter pred).map (fun p => (p.1, (p.2, some (g p))))))
      let snf ← runO (smithNormalForm H)
      runPy (rotationPerms P.transpose H.det.toNat cell.length snf.A (fun i => snf.M i i) ops eps arrows) : Run _) = _
    rw [takeData_map, hsnf]
    rfl
  obtain ⟨G, pos, hrp, hpos1, hpos2, hmem, hgrp, htr, hposeq, hrest⟩ := C46_generated_group P.transpose hA H snf hsnf n hnz cell hd ops'
    (by
      rw [hopsdef', List.map_map]
      have hfil : ∀ p, p ∈ L.filter pred ↔ p ∈ L ∧ ColLattice (p.1 * SL) = ColLattice SL := by
        intro p; rw [List.mem_filter]; simp [hpred]
      refine ⟨?_, ?_, ?_⟩
      · refine List.mem_map.mpr ⟨(1, 0), (hfil _).mpr ⟨hG.one, by rw [one_mul]⟩, ?_⟩
        obtain ⟨d, hdm⟩ := List.exists_mem_of_ne_nil cell hcne
        have := (hu (1, 0) (hs' _ hG.one)).2 d hdm
        simp only [Matrix.transpose_one, Matrix.one_mulVec] at this
        have h0 : u (1, 0) = 0 := by
          have := congrArg (fun x => x - d) this
          simpa using this.symm
        simp only [Function.comp, h0, add_zero]
      · intro a ha b hb
        obtain ⟨p, hp, rfl⟩ := List.mem_map.mp ha
        obtain ⟨q, hq, rfl⟩ := List.mem_map.mp hb
        obtain ⟨hp, hpS⟩ := (hfil p).mp hp
        obtain ⟨hq, hqS⟩ := (hfil q).mp hq
        obtain ⟨r, hr, e, hmod⟩ := hG.mul p hp q hq
        refine ⟨_, List.mem_map.mpr ⟨r, (hfil r).mpr ⟨hr, ?_⟩, rfl⟩, ?_, ?_⟩
        · rw [e, mul_assoc, colLat_mul p.1 hqS, hpS]
        · exact e
        · have h1 := (hu p (hs' p hp)).1
          have h2 := (hu q (hs' q hq)).1
          have h3 := (hu r (hs' r hr)).1
          have := hΛ.add _ (hΛ.add _ (hΛ.add _ hmod _ (image_maps (hs p hp).lattice h2)) _ h1) _ (hΛ.neg _ h3)
          simp only [Function.comp]
          rw [Matrix.mulVec_add]
          convert this using 1
          abel
      · intro a ha
        obtain ⟨p, hp, rfl⟩ := List.mem_map.mp ha
        obtain ⟨hp, hpS⟩ := (hfil p).mp hp
        obtain ⟨q, hq, e, hmod⟩ := hG.inv p hp
        refine ⟨_, List.mem_map.mpr ⟨q, (hfil q).mpr ⟨hq, ?_⟩, rfl⟩, e, ?_⟩
        · rw [colLat_mul q.1 hpS.symm, ← mul_assoc, e, one_mul]
        · have h1 := (hu p (hs' p hp)).1
          have h2 := (hu q (hs' q hq)).1
          have := hΛ.add _ (hΛ.add _ hmod _ (image_maps (hs q hq).lattice h1)) _ h2
          simp only [Function.comp]
          rw [Matrix.mulVec_add]
          convert this using 1
          abel)
    (by
      intro o ho
      obtain ⟨p, hp, -, rfl⟩ := (hmemop o).mp ho
      exact hlatR p hp)
    (by
      intro o ho
      obtain ⟨p, hp, h, rfl⟩ := (hmemop o).mp ho
      exact h)
    (by
      intro o ho i hi
      obtain ⟨p, hp, -, rfl⟩ := (hmemop o).mp ho
      obtain ⟨h1, h2, h3⟩ := (hgood p hp).rows i hi
      refine ⟨h1, h2, ?_⟩
      rw [← h3]
      have hdm : cell.getD i 0 ∈ cell := by rw [getD_lt hi]; exact List.getElem_mem hi
      rw [(hu p (hs' p hp)).2 _ hdm]
      simp only
      abel)
    (by
      intro o ho
      obtain ⟨p, hp, -, rfl⟩ := (hmemop o).mp ho
      exact mul_eq_one_comm.mp (hs p hp).orth)
    arrows
    (by
      intro o ho
      obtain ⟨p, hp, -, rfl⟩ := (hmemop o).mp ho
      exact harr p.1 p.2 (hs' p hp))
    eps h0.le
  obtain ⟨hr1, hr2, hr3, hr4⟩ := hrest hcne
  refine ⟨G, pos, ?_, hpos1, hpos2, ?_, hgrp, htr, snf, hsnf, hposeq, hr1, hr2, hr3, fun hif => hr4 ?_⟩
  rotate_left 2
  · cases ha : arrows
    · rw [ha] at hif
      simp only [Bool.false_eq_true, if_false] at hif ⊢
      refine ⟨hif, ?_⟩
      intro o ho o' ho'
      obtain ⟨p, hp, -, rfl⟩ := (hmemop o).mp ho
      obtain ⟨q, hq, -, rfl⟩ := (hmemop o').mp ho'
      simp only
      have h0c : (0 : V3) ∈ cell := by
        have hl : 0 < cell.length := List.length_pos_iff.mpr hcne
        rw [getD_lt hl] at hif
        rw [← hif]; exact List.getElem_mem hl
      have hu0 : ∀ p ∈ L, u p = 0 := by
        intro p hp
        have := (hu p (hs' p hp)).2 0 h0c
        rw [Matrix.mulVec_zero, Matrix.mulVec_zero, zero_add] at this
        exact this.symm
      rw [hu0 p hp, hu0 q hq, add_zero, add_zero]
      intro hmem
      obtain ⟨y, hy, e⟩ := hLin p hp
      obtain ⟨y', hy', e'⟩ := hLin q hq
      obtain ⟨x, hx⟩ := hmem
      have hyx : y - y' = fun i => (x i : ℝ) := by
        have hdet : IsUnit P.transpose.det := isUnit_iff_ne_zero.mpr hA
        have h1 : P.transpose.mulVec (y - y') = P.transpose.mulVec (fun i => (x i : ℝ)) := by
          rw [Matrix.mulVec_sub, e, e']; exact hx.symm
        have := congrArg (P.transpose⁻¹).mulVec h1
        rw [Matrix.mulVec_mulVec, Matrix.mulVec_mulVec, Matrix.nonsing_inv_mul _ hdet, Matrix.one_mulVec, Matrix.one_mulVec] at this
        exact this
      have hx0 : x = 0 := by
        funext i
        have h1 := congrFun hyx i
        simp only [Pi.sub_apply] at h1
        obtain ⟨a1, a2⟩ := hy i
        obtain ⟨b1, b2⟩ := hy' i
        have c1 : (-1 : ℝ) < x i := by rw [← h1]; linarith
        have c2 : (x i : ℝ) < 1 := by rw [← h1]; linarith
        have c1' : -1 < x i := by exact_mod_cast c1
        have c2' : x i < 1 := by exact_mod_cast c2
        simp only [Pi.zero_apply]; omega
      have hx0' : (fun i => ((x i : ℤ) : ℝ)) = (0 : V3) := by funext i; rw [hx0]; simp
      rw [hx0', Matrix.mulVec_zero] at hx
      exact (sub_eq_zero.mp hx.symm)
    · rw [ha] at hif
      simp only [if_true] at hif ⊢
      rw [hopsdef', List.pairwise_map]
      refine (hLpw.filter _).imp_of_mem ?_
      intro p q hp hq hne e
      have hpL := List.mem_of_mem_filter hp
      have hqL := List.mem_of_mem_filter hq
      apply hne
      refine ⟨e, ?_⟩
      have h1 := (hs' p hpL).comp (hs' q hqL).symm
      simp only at e
      rw [e, (hs' q hqL).orth] at h1
      have h2 := hif _ h1
      rw [Matrix.mulVec_neg, Matrix.mulVec_mulVec, (hs' q hqL).orth, Matrix.one_mulVec] at h2
      rwa [neg_add_eq_sub] at h2
  · rw [hrun, hrotshift, hrp]; rfl
  · intro x
    rw [hmem]
    constructor
    · rintro ⟨o, ho, t, ht, hi, ha⟩
      obtain ⟨p, hp, h, rfl⟩ := (hmemop o).mp ho
      refine ⟨p.1, p.2 + u p + t, (hs' p hp).shift hΛ ?_, h, hi, ha⟩
      have := hΛ.add _ (hu p (hs' p hp)).1 _ ht
      convert this using 1
      abel
    · rintro ⟨R, s, hsym, hfixL, hi, ha⟩
      obtain ⟨p, hp, rfl, hmod⟩ := hc R s ((hsymiff R s).mpr hsym)
      refine ⟨_, (hmemop _).mpr ⟨p, hp, hfixL, rfl⟩, s - (p.2 + u p), ?_, ?_, ha⟩
      · have := hΛ.neg _ (hΛ.add _ hmod _ (hu p (hs' p hp)).1)
        convert this using 1
        abel
      · simp only
        rw [add_sub_cancel]
        exact hi

/-- The same for small tolerances. -/
theorem sym_group_full (P : M3 ℝ) (hP : P.det ≠ 0) (bas cell : List V3) (hne : bas ≠ [])
    (hcell : List.Forall₂ (fun b c => b - c ∈ ColLattice P.transpose ∧ InCell P c) bas cell)
    (hd : ∀ i j, i < cell.length → j < cell.length → cell.getD i 0 - cell.getD j 0 ∈ ColLattice P.transpose → i = j)
    (H : M3 ℤ) (hH : 1 ≤ H.det) (hH' : H.det < 2 ^ 24)
    (hconv : ∀ R s, IsCrystalSym (ColLattice P.transpose) (bas.map (fun d => (1, d))) R s →
      ∃ u ∈ ColLattice P.transpose, ∀ d ∈ cell, R.transpose.mulVec d = R.mulVec d + u)
    (arrows : Bool)
    (harr : ∀ R s, IsCrystalSym (ColLattice P.transpose) (bas.map (fun d => (1, d))) R s → ∀ k a, IsArrowDir k a →
      ∃ m b, IsArrowDir m b ∧ if arrows then R.mulVec (fun i => (a i : ℝ)) = (fun i => (b i : ℝ))
        else ∀ i, RoundsTo (R.transpose.mulVec (fun i => (b i : ℝ)) i) (a i))
    (latDim : ℕ) (hdim : latDim ≠ 2) :
    ∃ e > 0, ∀ eps, 0 < eps → eps < e → ∃ G pos, getSymGroup P bas H latDim eps arrows = some (.ok G) ∧
      (∀ k, k < cell.length * H.det.toNat → pos k - cell.getD (k / H.det.toNat) 0 ∈ ColLattice P.transpose) ∧
      (∀ a, a < cell.length → ∀ l ∈ ColLattice P.transpose, ∃! k, k < cell.length * H.det.toNat ∧
        cell.getD a 0 + l - pos k ∈ ColLattice (P.transpose * H.map (fun x => (x : ℝ)))) ∧
      (∀ g, g ∈ G ↔ ∃ R s, IsCrystalSym (ColLattice P.transpose) (bas.map (fun d => (1, d))) R s ∧
        ColLattice (R * (P.transpose * H.map (fun x => (x : ℝ)))) = ColLattice (P.transpose * H.map (fun x => (x : ℝ))) ∧
        Induces (ColLattice (P.transpose * H.map (fun x => (x : ℝ)))) (cell.length * H.det.toNat) pos R s g.1 ∧
        if arrows then TurnsArrows R g.2 else g.2 = List.range 6) ∧
      IsOpGroup (cell.length * H.det.toNat) 6 G ∧
      (∀ g, g ∈ G.take H.det.toNat ↔ g.2 = List.range 6 ∧ ∃ t ∈ ColLattice P.transpose,
        Induces (ColLattice (P.transpose * H.map (fun x => (x : ℝ)))) (cell.length * H.det.toNat) pos 1 t g.1) ∧
      ∃ snf, smithNormalForm H = some (.ok snf) ∧
        pos = sitePos (castM snf.A * P.transpose⁻¹)⁻¹ (fun i => snf.M i i) cell H.det.toNat ∧
        H.det.toNat ≤ G.length ∧ G[0]? = some (List.range (cell.length * H.det.toNat), List.range 6) ∧
        ((G.take H.det.toNat).map (·.1)).Nodup ∧
        ((if arrows then ∀ s, IsCrystalSym (ColLattice P.transpose) (bas.map (fun d => (1, d))) 1 s → s ∈ ColLattice P.transpose
          else cell.getD 0 0 = 0) → G.Nodup) := by
  obtain ⟨e1, he1, h1⟩ := fineTol_exists hP hne
  have hn1 : 1 ≤ H.det.toNat := by omega
  refine ⟨min e1 (1 / H.det.toNat), lt_min he1 (by positivity), fun eps h0 hlt => ?_⟩
  obtain ⟨l1, l2⟩ := lt_min_iff.mp hlt
  exact sym_group_at P hP bas cell hne hcell hd H hH hH' hconv arrows harr latDim hdim (h1 eps h0 l1)
    (by rwa [lt_div_iff₀ (by positivity)] at l2)

/-- C53. `get_sym_group` for a crystal with lattice vectors the rows of `P` and basis atoms `bas` (one species, any
positions; `cell` lists their translates in the unit cell, pairwise different), and a supercell `H` of fewer than 2^24
cells. Condition on the crystal: for every symmetry, the rotation and its transpose (its inverse) move all the atoms of
the cell apart by the same lattice vector - for instance one atom at a lattice point, or only rotations of order two;
and the rotations permute the six arrow directions (without arrows: the rounded images do). Then, for every sufficiently
small tolerance, the call succeeds, and its result `G` is exactly the set of permutations of sites and arrows induced by
the symmetries of the crystal that map the superlattice to itself; it is a group; the first `n` elements are the
translations, pairwise different, the identity first; and no operation is listed twice if arrows are used and the cell
is primitive, or without arrows if the first atom is at the origin. `pos` numbers the sites of the supercell. -/
theorem C53_sym_group (P : M3 ℝ) (hP : P.det ≠ 0) (bas cell : List V3) (hne : bas ≠ [])
    (hcell : List.Forall₂ (fun b c => b - c ∈ ColLattice P.transpose ∧ InCell P c) bas cell)
    (hd : ∀ i j, i < cell.length → j < cell.length → cell.getD i 0 - cell.getD j 0 ∈ ColLattice P.transpose → i = j)
    (H : M3 ℤ) (hH : 1 ≤ H.det) (hH' : H.det < 2 ^ 24)
    (hconv : ∀ R s, IsCrystalSym (ColLattice P.transpose) (bas.map (fun d => (1, d))) R s →
      ∃ u ∈ ColLattice P.transpose, ∀ d ∈ cell, R.transpose.mulVec d = R.mulVec d + u)
    (arrows : Bool)
    (harr : ∀ R s, IsCrystalSym (ColLattice P.transpose) (bas.map (fun d => (1, d))) R s → ∀ k a, IsArrowDir k a →
      ∃ m b, IsArrowDir m b ∧ if arrows then R.mulVec (fun i => (a i : ℝ)) = (fun i => (b i : ℝ))
        else ∀ i, RoundsTo (R.transpose.mulVec (fun i => (b i : ℝ)) i) (a i))
    (latDim : ℕ) (hdim : latDim ≠ 2) :
    ∃ e > 0, ∀ eps, 0 < eps → eps < e → ∃ G pos, getSymGroup P bas H latDim eps arrows = some (.ok G) ∧
      (∀ k, k < cell.length * H.det.toNat → pos k - cell.getD (k / H.det.toNat) 0 ∈ ColLattice P.transpose) ∧
      (∀ a, a < cell.length → ∀ l ∈ ColLattice P.transpose, ∃! k, k < cell.length * H.det.toNat ∧
        cell.getD a 0 + l - pos k ∈ ColLattice (P.transpose * H.map (fun x => (x : ℝ)))) ∧
      (∀ g, g ∈ G ↔ ∃ R s, IsCrystalSym (ColLattice P.transpose) (bas.map (fun d => (1, d))) R s ∧
        ColLattice (R * (P.transpose * H.map (fun x => (x : ℝ)))) = ColLattice (P.transpose * H.map (fun x => (x : ℝ))) ∧
        Induces (ColLattice (P.transpose * H.map (fun x => (x : ℝ)))) (cell.length * H.det.toNat) pos R s g.1 ∧
        if arrows then TurnsArrows R g.2 else g.2 = List.range 6) ∧
      IsOpGroup (cell.length * H.det.toNat) 6 G ∧
      (∀ g, g ∈ G.take H.det.toNat ↔ g.2 = List.range 6 ∧ ∃ t ∈ ColLattice P.transpose,
        Induces (ColLattice (P.transpose * H.map (fun x => (x : ℝ)))) (cell.length * H.det.toNat) pos 1 t g.1) ∧
        H.det.toNat ≤ G.length ∧ G[0]? = some (List.range (cell.length * H.det.toNat), List.range 6) ∧
        ((G.take H.det.toNat).map (·.1)).Nodup ∧
        ((if arrows then ∀ s, IsCrystalSym (ColLattice P.transpose) (bas.map (fun d => (1, d))) 1 s → s ∈ ColLattice P.transpose
          else cell.getD 0 0 = 0) → G.Nodup) := by
  obtain ⟨e, he, h⟩ := sym_group_full P hP bas cell hne hcell hd H hH hH' hconv arrows harr latDim hdim
  refine ⟨e, he, fun eps h0 h1 => ?_⟩
  obtain ⟨G, pos, a, b, c, d, f, g, snf, -, -, r⟩ := h eps h0 h1
  exact ⟨G, pos, a, b, c, d, f, g, r⟩

/-- C53. One atom per cell, at a lattice point: the symmetries of the crystal are those of the lattice, and the result is
exact whatever the lattice. -/
theorem C53_one_atom (P : M3 ℝ) (hP : P.det ≠ 0) (d : V3) (hd : d ∈ ColLattice P.transpose)
    (H : M3 ℤ) (hH : 1 ≤ H.det) (hH' : H.det < 2 ^ 24) (arrows : Bool)
    (harr : ∀ R : M3 ℝ, R * R.transpose = 1 → R.mulVec '' ColLattice P.transpose = ColLattice P.transpose → ∀ k a, IsArrowDir k a →
      ∃ m b, IsArrowDir m b ∧ if arrows then R.mulVec (fun i => (a i : ℝ)) = (fun i => (b i : ℝ))
        else ∀ i, RoundsTo (R.transpose.mulVec (fun i => (b i : ℝ)) i) (a i))
    (latDim : ℕ) (hdim : latDim ≠ 2) :
    ∃ e > 0, ∀ eps, 0 < eps → eps < e → ∃ G pos, getSymGroup P [d] H latDim eps arrows = some (.ok G) ∧
      (∀ k, k < H.det.toNat → pos k ∈ ColLattice P.transpose) ∧
      (∀ l ∈ ColLattice P.transpose, ∃! k, k < H.det.toNat ∧
        l - pos k ∈ ColLattice (P.transpose * H.map (fun x => (x : ℝ)))) ∧
      (∀ g, g ∈ G ↔ ∃ (R : M3 ℝ) (s : V3), R * R.transpose = 1 ∧ R.mulVec '' ColLattice P.transpose = ColLattice P.transpose ∧
        s ∈ ColLattice P.transpose ∧
        ColLattice (R * (P.transpose * H.map (fun x => (x : ℝ)))) = ColLattice (P.transpose * H.map (fun x => (x : ℝ))) ∧
        Induces (ColLattice (P.transpose * H.map (fun x => (x : ℝ)))) H.det.toNat pos R s g.1 ∧
        if arrows then TurnsArrows R g.2 else g.2 = List.range 6) ∧
      IsOpGroup H.det.toNat 6 G := by
  have hΛ := colLat_isSub P.transpose
  have hsym : ∀ R s, IsCrystalSym (ColLattice P.transpose) ([d].map (fun d => (1, d))) R s ↔
      R * R.transpose = 1 ∧ R.mulVec '' ColLattice P.transpose = ColLattice P.transpose ∧ s ∈ ColLattice P.transpose := by
    intro R s
    rw [crystalSym_iff hΛ]
    constructor
    · rintro ⟨h1, h2, h3⟩
      refine ⟨h1, h2, ?_⟩
      obtain ⟨c, hc, -, h⟩ := h3 (1, d) (by simp)
      simp only [List.map_cons, List.map_nil, List.mem_singleton] at hc
      subst hc
      have := hΛ.add _ (hΛ.add _ h _ (hΛ.neg _ (image_maps h2 hd))) _ hd
      convert this using 1
      simp only
      abel
    · rintro ⟨h1, h2, h3⟩
      refine ⟨h1, h2, ?_⟩
      intro b hb
      simp only [List.map_cons, List.map_nil, List.mem_singleton] at hb
      subst hb
      refine ⟨(1, d), by simp, rfl, ?_⟩
      exact colLat_sub (hΛ.add _ (image_maps h2 hd) _ h3) hd
  obtain ⟨e, he, h⟩ := C53_sym_group P hP [d] [0] (by simp)
    (List.Forall₂.cons ⟨by rw [sub_zero]; exact hd, 0, fun i => ⟨le_refl _, one_pos⟩, by rw [Matrix.mulVec_zero]⟩ .nil)
    (by intro i j hi hj _; simp at hi hj; omega) H hH hH'
    (by
      intro R s _
      refine ⟨0, hΛ.zero, fun d hd => ?_⟩
      simp only [List.mem_singleton] at hd
      subst hd
      rw [Matrix.mulVec_zero, Matrix.mulVec_zero, add_zero])
    arrows (fun R s hR => harr R ((hsym R s).mp hR).1 ((hsym R s).mp hR).2.1) latDim hdim
  refine ⟨e, he, fun eps h0 h1 => ?_⟩
  obtain ⟨G, pos, h1, h2, h3, h4, h5, -⟩ := h eps h0 h1
  simp only [List.length_singleton, one_mul] at h2 h3 h4 h5
  refine ⟨G, pos, h1, ?_, ?_, ?_, h5⟩
  · intro k hk
    have := h2 k hk
    rw [Nat.div_eq_of_lt hk] at this
    simpa using this
  · intro l hl
    have := h3 0 one_pos l hl
    simpa using this
  · intro g
    rw [h4]
    constructor
    · rintro ⟨R, s, hR, h⟩
      obtain ⟨a, b, c⟩ := (hsym R s).mp hR
      exact ⟨R, s, a, b, c, h⟩
    · rintro ⟨R, s, a, b, c, h⟩
      exact ⟨R, s, (hsym R s).mpr ⟨a, b, c⟩, h⟩

/-- C53, the failure outside that condition: if for some symmetry of the crystal the transpose of the rotation, with
the translation of the symmetry, does not map the atoms of the cell to atoms, then the call exits, for every supercell;
and so does `get_HNFs`. -/
theorem C53_exits (P : M3 ℝ) (hP : P.det ≠ 0) (bas cell : List V3)
    (hcell : List.Forall₂ (fun b c => b - c ∈ ColLattice P.transpose ∧ InCell P c) bas cell)
    (R : M3 ℝ) (s d : V3) (hsym : IsCrystalSym (ColLattice P.transpose) (bas.map (fun d => (1, d))) R s) (hd : d ∈ cell)
    (hout : ∀ c ∈ cell, R.transpose.mulVec d + s - c ∉ ColLattice P.transpose) :
    ∃ e > 0, ∀ eps, 0 < eps → eps < e → ∀ latDim, latDim ≠ 2 →
      (∀ H arrows, getSymGroup P bas H latDim eps arrows = some (.error .sysExit)) ∧
      (∀ n, getHNFs n P bas latDim eps = some (.error .sysExit)) := by
  have hcan := canon_of_forall₂ hP hcell
  have hin : ∀ d ∈ cell, InCell P d := by
    intro d hdm
    rw [hcan] at hdm
    obtain ⟨b, -, rfl⟩ := List.mem_map.mp hdm
    exact canonV_inCell P b
  have hsym' : IsCrystalSym (ColLattice P.transpose) (cell.map (fun d => (1, d))) R s := by
    rw [hcan]
    exact (crystalSym_canon hP bas R s).mpr hsym
  have hne : bas ≠ [] := by
    rintro rfl
    rw [hcan] at hd
    simp at hd
  obtain ⟨e, he, hf⟩ := fineTol_exists hP hne
  refine ⟨e, he, ?_⟩
  intro eps h0 hlt latDim hdim
  have hfine := hf eps h0 hlt
  have hdv := dvectors_exit_at hP hin hsym' hd hout hfine.rot (by rw [hcan]; exact hfine.space) (by rw [hcan]; exact hfine.perm) latDim hdim
  constructor
  · intro H arrows
    unfold getSymGroup
    rw [if_neg hP, bringBasis_ok hfine.basis.1, ← hcan]
    simp only [pure_bind]
    rw [hdv]
    rfl
  · intro n
    unfold getHNFs
    rw [if_neg hP, bringBasis_ok hfine.basis.1, ← hcan]
    simp only [pure_bind]
    rw [hdv]
    rfl

theorem findAll_det {n : ℕ} (hn : 1 ≤ n) {u : M3 ℤ} (hu : u ∈ findAllHNFs n) : u.det = n := by
  obtain ⟨a, b, c, d, e, f, h, -, -, -, rfl⟩ := (C19_all_hnfs n hn).2 u |>.mp hu
  rw [Matrix.det_fin_three]
  simp
  rw [← h]; push_cast; ring

/-- auxiliary: C54 at a tolerance at which the searches are exact -/
theorem remove_duplicates_at (P : M3 ℝ) (hP : P.det ≠ 0) (cell : List V3) (hne : cell ≠ []) (hcell : ∀ d ∈ cell, InCell P d)
    (hd : ∀ i j, i < cell.length → j < cell.length → cell.getD i 0 - cell.getD j 0 ∈ ColLattice P.transpose → i = j)
    (hperm : ∀ R s, IsCrystalSym (ColLattice P.transpose) (cell.map (fun d => (1, d))) R s → ∀ d ∈ cell, ∃ c ∈ cell,
      R.transpose.mulVec d + s - c ∈ ColLattice P.transpose)
    (n : ℕ) (hn : 1 ≤ n) (latDim : ℕ) (hdim : latDim ≠ 2) {eps : ℝ} (h0 : 0 < eps) (hpg : PgExact P eps)
    (hsv : BringExact P (sgVecs P (cell.map (fun d => (1, d)))) eps) (hdv : BringExact P (dvVecs P cell) eps)
    (hepsn : eps * n < 1) :
    ∃ dp U degens, dvectorPermutations P cell latDim eps = some (.ok dp) ∧
      removeDuplicateLattices (findAllHNFs n) P cell dp eps = some (.ok (U, degens)) ∧
      U.Nodup ∧ (∀ u ∈ U, ∃ a b c d e f : ℕ, a * c * f = n ∧ b < c ∧ d < f ∧ e < f ∧
        u = !![(a : ℤ), 0, 0; (b : ℤ), (c : ℤ), 0; (d : ℤ), (e : ℤ), (f : ℤ)]) ∧
      (∀ M : M3 ℤ, M.det = n ∨ M.det = -n → ∃! u, u ∈ U ∧ ∃ R s,
        IsCrystalSym (ColLattice P.transpose) (cell.map (fun d => (1, d))) R s ∧
        ColLattice (R * (P.transpose * M.map (fun x => (x : ℝ)))) = ColLattice (P.transpose * u.map (fun x => (x : ℝ)))) ∧
      degens = U.map (fun u => Set.ncard {S | ∃ R s,
        IsCrystalSym (ColLattice P.transpose) (cell.map (fun d => (1, d))) R s ∧
        S = ColLattice (R * (P.transpose * u.map (fun x => (x : ℝ))))}) := by
  classical
  obtain ⟨L, g, hsg, ⟨hs, hc, hG⟩, hdp, hgood, -⟩ := dvectors_at hP hne hcell hd hperm hpg hsv hdv
  have hA : P.transpose.det ≠ 0 := by rwa [Matrix.det_transpose]
  have hmat := sg_matGroup hG
  have hlatR : ∀ p ∈ L, ColLattice (p.1 * P.transpose) = ColLattice P.transpose := by
    intro p hp
    rw [colLat_image]
    exact (hs p hp).lattice
  obtain ⟨U, hU, hsub, huniq⟩ := C22_unique_hnfs P.transpose hA (L.map (·.1)) hmat (by
    intro r hr
    obtain ⟨p, hp, rfl⟩ := List.mem_map.mp hr
    exact hlatR p hp) n hn eps h0.le hepsn
  have hiff : ∀ Q : M3 ℝ → Prop, (∃ r ∈ L.map (·.1), Q r) ↔
      ∃ R s, IsCrystalSym (ColLattice P.transpose) (cell.map (fun d => (1, d))) R s ∧ Q R := by
    intro Q
    constructor
    · rintro ⟨r, hr, hq⟩
      obtain ⟨p, hp, rfl⟩ := List.mem_map.mp hr
      exact ⟨p.1, p.2, hs p hp, hq⟩
    · rintro ⟨R, s, hR, hq⟩
      obtain ⟨p, hp, rfl, -⟩ := hc R s hR
      exact ⟨p.1, List.mem_map_of_mem hp, hq⟩
  have hfix : ∀ u ∈ U, (do
      let fix ← fixingOperations P.transpose u eps (L.map (fun p => (p.1, (p.2, some (g p)))))
      let _ ← takeData fix.1
      .ok (fix.2 + 1) : Py ℕ) = .ok (Set.ncard {S | ∃ R s,
        IsCrystalSym (ColLattice P.transpose) (cell.map (fun d => (1, d))) R s ∧
        S = ColLattice (R * (P.transpose * u.map (fun x => (x : ℝ))))}) := by
    intro u hu
    obtain ⟨kept, deg, hf, hkept, -, hdeg⟩ := C44_fixing_operations P.transpose hA
      (L.map (fun p => (p.1, (p.2, some (g p))))) (by rw [List.map_map]; exact hmat) (by
        intro op hop
        obtain ⟨p, hp, rfl⟩ := List.mem_map.mp hop
        exact hlatR p hp) n hn eps h0.le hepsn u (Or.inl (findAll_det hn (hsub.subset hu)))
    rw [hf, hkept, List.filter_map]
    change (do
      let _ ← takeData ((L.filter _).map (fun p => (p.1, (p.2, some (g p)))))
      .ok (deg + 1) : Py ℕ) = _
    rw [takeData_map]
    change Except.ok (deg + 1) = _
    rw [hdeg]
    congr 2
    ext S
    simp only [Set.mem_setOf_eq]
    rw [← hiff (fun R => S = ColLattice (R * (P.transpose * u.map (fun x => (x : ℝ)))))]
    constructor
    · rintro ⟨op, hop, h⟩
      obtain ⟨p, hp, rfl⟩ := List.mem_map.mp hop
      exact ⟨p.1, List.mem_map_of_mem hp, h⟩
    · rintro ⟨r, hr, h⟩
      obtain ⟨p, hp, rfl⟩ := List.mem_map.mp hr
      exact ⟨_, List.mem_map_of_mem hp, h⟩
  refine ⟨L.map g, U, _, hdp latDim hdim, ?_, hsub.nodup (C19_all_hnfs n hn).1, ?_, ?_, rfl⟩
  · unfold removeDuplicateLattices
    rw [hsg]
    simp only [pure_bind]
    rw [hU, withData_map]
    show (do
      let degens ← runPy (checkFixing P eps (L.map (fun p => (p.1, (p.2, some (g p))))) U)
      pure (U, degens) : Run _) = _
    unfold checkFixing
    rw [mapM_ok_eq _ _ U hfix]
    rfl
  · intro u hu
    exact (C19_all_hnfs n hn).2 u |>.mp (hsub.subset hu)
  · intro M hM
    obtain ⟨u, ⟨hu, hr⟩, hun⟩ := huniq M hM
    refine ⟨u, ⟨hu, (hiff _).mp hr⟩, ?_⟩
    rintro v ⟨hv, hr'⟩
    exact hun v ⟨hv, (hiff (fun R => ColLattice (R * (P.transpose * M.map (fun x => (x : ℝ)))) =
      ColLattice (P.transpose * v.map (fun x => (x : ℝ))))).mpr hr'⟩

/-- C54. `remove_duplicate_lattices`, called with all HNFs of index `n` and the basis permutations of the crystal: for
every sufficiently small tolerance it succeeds; the result lists different HNFs of index `n`; every superlattice of
index `n` (given by any integer matrix of determinant `n` or `-n`) is mapped by some symmetry of the crystal onto exactly
one of them; and the degeneracy reported for each is the number of different superlattices onto which the
symmetries map it. -/
theorem C54_remove_duplicates (P : M3 ℝ) (hP : P.det ≠ 0) (cell : List V3) (hne : cell ≠ []) (hcell : ∀ d ∈ cell, InCell P d)
    (hd : ∀ i j, i < cell.length → j < cell.length → cell.getD i 0 - cell.getD j 0 ∈ ColLattice P.transpose → i = j)
    (hperm : ∀ R s, IsCrystalSym (ColLattice P.transpose) (cell.map (fun d => (1, d))) R s → ∀ d ∈ cell, ∃ c ∈ cell,
      R.transpose.mulVec d + s - c ∈ ColLattice P.transpose)
    (n : ℕ) (hn : 1 ≤ n) (latDim : ℕ) (hdim : latDim ≠ 2) :
    ∃ e > 0, ∀ eps, 0 < eps → eps < e → ∃ dp U degens, dvectorPermutations P cell latDim eps = some (.ok dp) ∧
      removeDuplicateLattices (findAllHNFs n) P cell dp eps = some (.ok (U, degens)) ∧
      U.Nodup ∧ (∀ u ∈ U, ∃ a b c d e f : ℕ, a * c * f = n ∧ b < c ∧ d < f ∧ e < f ∧
        u = !![(a : ℤ), 0, 0; (b : ℤ), (c : ℤ), 0; (d : ℤ), (e : ℤ), (f : ℤ)]) ∧
      (∀ M : M3 ℤ, M.det = n ∨ M.det = -n → ∃! u, u ∈ U ∧ ∃ R s,
        IsCrystalSym (ColLattice P.transpose) (cell.map (fun d => (1, d))) R s ∧
        ColLattice (R * (P.transpose * M.map (fun x => (x : ℝ)))) = ColLattice (P.transpose * u.map (fun x => (x : ℝ)))) ∧
      degens = U.map (fun u => Set.ncard {S | ∃ R s,
        IsCrystalSym (ColLattice P.transpose) (cell.map (fun d => (1, d))) R s ∧
        S = ColLattice (R * (P.transpose * u.map (fun x => (x : ℝ))))}) := by
  obtain ⟨e1, he1, h1⟩ := pointGroup_char P hP
  obtain ⟨e3, he3, h3⟩ := finite_bring hP (sgVecs_finite hP (cell.map (fun d => (1, d))))
  obtain ⟨e4, he4, h4⟩ := finite_bring hP (dvVecs_finite hP hne)
  refine ⟨min (min e1 (1 / n)) (min e3 e4), lt_min (lt_min he1 (by positivity)) (lt_min he3 he4), fun eps h0 hlt => ?_⟩
  obtain ⟨l, l'⟩ := lt_min_iff.mp hlt
  obtain ⟨l1, l2⟩ := lt_min_iff.mp l
  obtain ⟨l3, l4⟩ := lt_min_iff.mp l'
  exact remove_duplicates_at P hP cell hne hcell hd hperm n hn latDim hdim h0 (h1 eps h0.le l1) (h3 eps h0 l3) (h4 eps h0 l4)
    (by rwa [lt_div_iff₀ (by positivity)] at l2)

/-- auxiliary: C54 at a tolerance at which the searches are exact -/
theorem get_HNFs_at (P : M3 ℝ) (hP : P.det ≠ 0) (bas cell : List V3) (hne : bas ≠ [])
    (hcell : List.Forall₂ (fun b c => b - c ∈ ColLattice P.transpose ∧ InCell P c) bas cell)
    (hd : ∀ i j, i < cell.length → j < cell.length → cell.getD i 0 - cell.getD j 0 ∈ ColLattice P.transpose → i = j)
    (hperm : ∀ R s, IsCrystalSym (ColLattice P.transpose) (bas.map (fun d => (1, d))) R s → ∀ d ∈ cell, ∃ c ∈ cell,
      R.transpose.mulVec d + s - c ∈ ColLattice P.transpose)
    (n : ℕ) (hn : 1 ≤ n) (latDim : ℕ) (hdim : latDim ≠ 2) {eps : ℝ} (hfine : FineTol P bas eps) (hepsn : eps * n < 1) :
    ∃ U, getHNFs n P bas latDim eps = some (.ok U) ∧
      U.Nodup ∧ (∀ u ∈ U, ∃ a b c d e f : ℕ, a * c * f = n ∧ b < c ∧ d < f ∧ e < f ∧
        u = !![(a : ℤ), 0, 0; (b : ℤ), (c : ℤ), 0; (d : ℤ), (e : ℤ), (f : ℤ)]) ∧
      ∀ M : M3 ℤ, M.det = n ∨ M.det = -n → ∃! u, u ∈ U ∧ ∃ R s,
        IsCrystalSym (ColLattice P.transpose) (bas.map (fun d => (1, d))) R s ∧
        ColLattice (R * (P.transpose * M.map (fun x => (x : ℝ)))) = ColLattice (P.transpose * u.map (fun x => (x : ℝ))) := by
  have hcan := canon_of_forall₂ hP hcell
  have hcne : cell ≠ [] := by rw [hcan]; simpa using hne
  have hin : ∀ d ∈ cell, InCell P d := by
    intro d hdm
    rw [hcan] at hdm
    obtain ⟨b, -, rfl⟩ := List.mem_map.mp hdm
    exact canonV_inCell P b
  have hsymiff : ∀ R s, IsCrystalSym (ColLattice P.transpose) (cell.map (fun d => (1, d))) R s ↔
      IsCrystalSym (ColLattice P.transpose) (bas.map (fun d => (1, d))) R s := by
    intro R s
    rw [hcan]
    exact crystalSym_canon hP bas R s
  obtain ⟨dp, U, degens, h1, h2, h3, h4, h5, -⟩ := remove_duplicates_at P hP cell hcne hin hd (fun R s hR => hperm R s ((hsymiff R s).mp hR)) n hn
    latDim hdim hfine.pos hfine.rot (by rw [hcan]; exact hfine.space) (by rw [hcan]; exact hfine.perm) hepsn
  refine ⟨U, ?_, h3, h4, ?_⟩
  · unfold getHNFs
    rw [if_neg hP, bringBasis_ok hfine.basis.1, ← hcan]
    simp only [pure_bind]
    rw [show dvectorPermutations P cell latDim eps = (pure dp : Run _) from h1]
    simp only [pure_bind]
    rw [show removeDuplicateLattices (findAllHNFs n) P cell dp eps = (pure (U, degens) : Run _) from h2]
    rfl
  · intro M hM
    obtain ⟨u, ⟨hu, R, s, hR, hL⟩, hun⟩ := h5 M hM
    refine ⟨u, ⟨hu, R, s, (hsymiff R s).mp hR, hL⟩, ?_⟩
    rintro v ⟨hv, R', s', hR', hL'⟩
    exact hun v ⟨hv, R', s', (hsymiff R' s').mpr hR', hL'⟩

/-- C54. `get_HNFs` for a crystal whose basis (`cell`: the translates in the unit cell) is permuted, up to lattice
vectors, by the transposed rotations with the translations of the symmetries: for every sufficiently small tolerance it
succeeds and lists exactly one HNF of every class of superlattices of index `n` under the symmetries of the crystal. -/
theorem C54_get_HNFs (P : M3 ℝ) (hP : P.det ≠ 0) (bas cell : List V3) (hne : bas ≠ [])
    (hcell : List.Forall₂ (fun b c => b - c ∈ ColLattice P.transpose ∧ InCell P c) bas cell)
    (hd : ∀ i j, i < cell.length → j < cell.length → cell.getD i 0 - cell.getD j 0 ∈ ColLattice P.transpose → i = j)
    (hperm : ∀ R s, IsCrystalSym (ColLattice P.transpose) (bas.map (fun d => (1, d))) R s → ∀ d ∈ cell, ∃ c ∈ cell,
      R.transpose.mulVec d + s - c ∈ ColLattice P.transpose)
    (n : ℕ) (hn : 1 ≤ n) (latDim : ℕ) (hdim : latDim ≠ 2) :
    ∃ e > 0, ∀ eps, 0 < eps → eps < e → ∃ U, getHNFs n P bas latDim eps = some (.ok U) ∧
      U.Nodup ∧ (∀ u ∈ U, ∃ a b c d e f : ℕ, a * c * f = n ∧ b < c ∧ d < f ∧ e < f ∧
        u = !![(a : ℤ), 0, 0; (b : ℤ), (c : ℤ), 0; (d : ℤ), (e : ℤ), (f : ℤ)]) ∧
      ∀ M : M3 ℤ, M.det = n ∨ M.det = -n → ∃! u, u ∈ U ∧ ∃ R s,
        IsCrystalSym (ColLattice P.transpose) (bas.map (fun d => (1, d))) R s ∧
        ColLattice (R * (P.transpose * M.map (fun x => (x : ℝ)))) = ColLattice (P.transpose * u.map (fun x => (x : ℝ))) := by
  obtain ⟨e1, he1, h1⟩ := fineTol_exists hP hne
  refine ⟨min e1 (1 / n), lt_min he1 (by positivity), fun eps h0 hlt => ?_⟩
  obtain ⟨l1, l2⟩ := lt_min_iff.mp hlt
  exact get_HNFs_at P hP bas cell hne hcell hd hperm n hn latDim hdim (h1 eps h0 l1) (by rwa [lt_div_iff₀ (by positivity)] at l2)

end Phenum
