import Verif.Proof.SpaceGroup
/-
C47: the space group of the crystal.
-/
namespace Phenum
open Spec

/-- auxiliary: the positions as Cartesian coordinates -/
def cartAtoms (P : M3 ℝ) (lattcoords : Bool) (atoms : List (ℕ × V3)) : List (ℕ × V3) :=
  if lattcoords then atoms.map (fun a => (a.1, P.transpose.mulVec a.2)) else atoms

theorem latSym_finite {P : M3 ℝ} (hP : P.det ≠ 0) : {R | IsLatSym P R}.Finite := by
  obtain ⟨e, he, h⟩ := pointGroup_char P hP
  obtain ⟨L, -, -, hm⟩ := h 0 le_rfl he
  refine (List.finite_toSet L).subset ?_
  intro R hR
  exact (hm R).mpr hR

theorem crystal_canon {P : M3 ℝ} (hP : P.det ≠ 0) (atoms : List (ℕ × V3)) :
    Crystal (ColLattice P.transpose) (atoms.map (fun a => (a.1, canonV P a.2))) = Crystal (ColLattice P.transpose) atoms := by
  ext ⟨t, x⟩
  constructor
  · rintro ⟨b, hb, e, h⟩
    obtain ⟨a, ha, rfl⟩ := List.mem_map.mp hb
    refine ⟨a, ha, e, ?_⟩
    have := colLat_sub h (canonV_sub hP a.2)
    rwa [sub_sub_sub_cancel_right] at this
  · rintro ⟨a, ha, e, h⟩
    refine ⟨_, List.mem_map.mpr ⟨a, ha, rfl⟩, e, ?_⟩
    have := colLat_add h (canonV_sub hP a.2)
    rwa [sub_add_sub_cancel] at this

theorem canonV_zero (P : M3 ℝ) : canonV P 0 = 0 := by
  unfold canonV
  rw [Matrix.mulVec_zero]
  simp only [Pi.zero_apply, Int.fract_zero]
  exact Matrix.mulVec_zero _

theorem Spec.IsCrystalSym.comp {Λ : Set V3} {atoms : List (ℕ × V3)} {R R' : M3 ℝ} {s s' : V3}
    (h : IsCrystalSym Λ atoms R s) (h' : IsCrystalSym Λ atoms R' s') :
    IsCrystalSym Λ atoms (R * R') (R.mulVec s' + s) := by
  refine ⟨?_, ?_, ?_⟩
  · rw [Matrix.transpose_mul]
    calc R * R' * (R'.transpose * R.transpose) = R * (R' * R'.transpose) * R.transpose := by simp only [Matrix.mul_assoc]
      _ = 1 := by rw [h'.orth, Matrix.mul_one, h.orth]
  · have : (R * R').mulVec = R.mulVec ∘ R'.mulVec := by funext v; simp [Matrix.mulVec_mulVec]
    rw [this, Set.image_comp, h'.lattice, h.lattice]
  · have : (fun a : ℕ × V3 => (a.1, (R * R').mulVec a.2 + (R.mulVec s' + s))) =
        (fun a : ℕ × V3 => (a.1, R.mulVec a.2 + s)) ∘ (fun a : ℕ × V3 => (a.1, R'.mulVec a.2 + s')) := by
      funext a
      simp [Matrix.mulVec_mulVec, Matrix.mulVec_add, add_assoc]
    rw [this, Set.image_comp, h'.crystal, h.crystal]

theorem Spec.IsCrystalSym.symm {Λ : Set V3} {atoms : List (ℕ × V3)} {R : M3 ℝ} {s : V3} (h : IsCrystalSym Λ atoms R s) :
    IsCrystalSym Λ atoms R.transpose (-(R.transpose.mulVec s)) := by
  have hT : R.transpose * R = 1 := mul_eq_one_comm.mp h.orth
  refine ⟨by rw [Matrix.transpose_transpose]; exact hT, ?_, ?_⟩
  · conv_lhs => rw [← h.lattice, ← Set.image_comp]
    have : R.transpose.mulVec ∘ R.mulVec = id := by
      funext v; simp [Matrix.mulVec_mulVec, hT]
    rw [this, Set.image_id]
  · conv_lhs => rw [← h.crystal, ← Set.image_comp]
    have : (fun a : ℕ × V3 => (a.1, R.transpose.mulVec a.2 + -(R.transpose.mulVec s))) ∘
        (fun a : ℕ × V3 => (a.1, R.mulVec a.2 + s)) = id := by
      funext a
      simp [Matrix.mulVec_mulVec, Matrix.mulVec_add, hT]
    rw [this, Set.image_id]

theorem Spec.IsCrystalSym.shift {Λ : Set V3} (hΛ : IsSub Λ) {atoms : List (ℕ × V3)} {R : M3 ℝ} {s s' : V3}
    (h : IsCrystalSym Λ atoms R s) (hs : s' - s ∈ Λ) : IsCrystalSym Λ atoms R s' := by
  rw [crystalSym_iff hΛ] at h ⊢
  refine ⟨h.1, h.2.1, fun b hb => ?_⟩
  obtain ⟨c, hc, e, hm⟩ := h.2.2 b hb
  refine ⟨c, hc, e, ?_⟩
  have := hΛ.add _ hm _ hs
  convert this using 1
  abel

/-- At this tolerance, on these vectors, `bring_into_cell` is exact and so is the comparison of the results. -/
def BringExact (P : M3 ℝ) (V : Set V3) (eps : ℝ) : Prop :=
    (∀ v ∈ V, bringIntoCell v (P.transpose)⁻¹ P.transpose eps = some (.ok (canonV P v))) ∧
    (∀ u ∈ V, ∀ v ∈ V, (∀ i, |canonV P u i - canonV P v i| ≤ eps) ↔ u - v ∈ ColLattice P.transpose)

theorem BringExact.mono {P : M3 ℝ} {V W : Set V3} {eps : ℝ} (h : BringExact P W eps) (hs : V ⊆ W) : BringExact P V eps :=
  ⟨fun v hv => h.1 v (hs hv), fun u hu v hv => h.2 u (hs hu) v (hs hv)⟩

/-- On a finite set of vectors and for small tolerances, `bring_into_cell` is exact and the comparison of the results too. -/
theorem finite_bring {P : M3 ℝ} (hP : P.det ≠ 0) {V : Set V3} (hV : V.Finite) : ∃ e > 0, ∀ eps, 0 < eps → eps < e →
    BringExact P V eps := by
  obtain ⟨e1, he1, hgap1⟩ := exists_gap (hV.prod (Set.finite_univ (α := Fin 3)))
    (fun p => 1 - Int.fract ((P.transpose)⁻¹.mulVec p.1 p.2))
  obtain ⟨e2, he2, hgap2⟩ := exists_gap ((hV.prod hV).prod (Set.finite_univ (α := Fin 3)))
    (fun p => |canonV P p.1.1 p.2 - canonV P p.1.2 p.2|)
  refine ⟨min 1 (min e1 e2), lt_min one_pos (lt_min he1 he2), ?_⟩
  intro eps h0 hlt
  obtain ⟨hlt1, hl2⟩ := lt_min_iff.mp hlt
  obtain ⟨hlte1, hlte2⟩ := lt_min_iff.mp hl2
  constructor
  · intro v hv
    apply bring_canon hP h0 hlt1
    intro i
    by_contra hcon
    have h1 := hgap1 (v, i) ⟨hv, Set.mem_univ _⟩ (by simp only; linarith)
    have h2 := Int.fract_lt_one ((P.transpose)⁻¹.mulVec v i)
    simp only at h1
    linarith
  · intro u hu v hv
    rw [← canonV_eq_iff hP]
    constructor
    · intro h
      funext i
      have := hgap2 ((u, v), i) ⟨⟨hu, hv⟩, Set.mem_univ _⟩ (lt_of_le_of_lt (h i) hlte2)
      exact sub_eq_zero.mp (abs_nonpos_iff.mp this)
    · intro h i
      rw [h, sub_self, abs_zero]
      exact h0.le

/-- The vectors brought into the cell by the search for the space group of the atoms `C`. -/
def sgVecs (P : M3 ℝ) (C : List (ℕ × V3)) : Set V3 :=
  (fun a : ℕ × V3 => a.2) '' {a | a ∈ C} ∪
  (fun p : M3 ℝ × (ℕ × V3) × (ℕ × V3) => canonV P p.2.1.2 - p.1.mulVec (canonV P p.2.2.2)) ''
    ({R | IsLatSym P R} ×ˢ {a | a ∈ C} ×ˢ {a | a ∈ C}) ∪
  (fun p : M3 ℝ × (ℕ × V3) × (ℕ × V3) × (ℕ × V3) => p.1.mulVec (canonV P p.2.2.1.2) +
      canonV P (canonV P p.2.1.2 - p.1.mulVec (canonV P p.2.2.2.2))) ''
    ({R | IsLatSym P R} ×ˢ {a | a ∈ C} ×ˢ {a | a ∈ C} ×ˢ {a | a ∈ C})

theorem sgVecs_finite {P : M3 ℝ} (hP : P.det ≠ 0) (C : List (ℕ × V3)) : (sgVecs P C).Finite := by
  have hC : {a | a ∈ C}.Finite := List.finite_toSet C
  have hS := latSym_finite hP
  exact ((hC.image _).union ((hS.prod (hC.prod hC)).image _)).union ((hS.prod (hC.prod (hC.prod hC))).image _)

/-- auxiliary: C47 at a tolerance at which the searches are exact -/
theorem space_group_at {P : M3 ℝ} (hP : P.det ≠ 0) (atoms : List (ℕ × V3)) (hne : atoms ≠ []) (lattcoords : Bool) {eps : ℝ}
    (hpg : PgExact P eps) (hbr : BringExact P (sgVecs P (cartAtoms P lattcoords atoms)) eps) :
    ∃ L, spaceGroup P atoms eps lattcoords = some (.ok L) ∧
      (∀ p ∈ L, IsCrystalSym (ColLattice P.transpose) (cartAtoms P lattcoords atoms) p.1 p.2) ∧
      (∀ R s, IsCrystalSym (ColLattice P.transpose) (cartAtoms P lattcoords atoms) R s →
        ∃ p ∈ L, p.1 = R ∧ p.2 - s ∈ ColLattice P.transpose) ∧
      IsSpaceGroup (ColLattice P.transpose) L ∧
      (∀ p ∈ L, ∃ y : V3, (∀ i, 0 ≤ y i ∧ y i < 1) ∧ P.transpose.mulVec y = p.2) ∧
      ((cartAtoms P lattcoords atoms).Pairwise (fun a b => ¬ (a.1 = b.1 ∧ a.2 - b.2 ∈ ColLattice P.transpose)) →
        L.Pairwise (fun p q => ¬ (p.1 = q.1 ∧ p.2 - q.2 ∈ ColLattice P.transpose))) := by
  have hΛ := colLat_isSub P.transpose
  set Λ := ColLattice P.transpose with hΛdef
  set C := cartAtoms P lattcoords atoms with hC
  have hCne : C ≠ [] := by
    rw [hC]; unfold cartAtoms
    cases lattcoords <;> simp [hne]
  set cv := canonV P with hcv
  set Q := C.map (fun a => (a.1, cv a.2)) with hQ
  obtain ⟨a0, Q', hQ0⟩ : ∃ a0 Q', Q = a0 :: Q' := by
    cases hq : Q with
    | nil => rw [hQ, List.map_eq_nil_iff] at hq; exact absurd hq hCne
    | cons a l => exact ⟨a, l, rfl⟩
  have ha0 : a0 ∈ Q := by rw [hQ0]; simp
  let fr : M3 ℝ → ℕ × V3 → V3 := fun R a => fun i => a.2 i - R.mulVec a0.2 i
  let im : M3 ℝ → ℕ × V3 → ℕ × V3 → V3 := fun R a b => fun i => R.mulVec b.2 i + cv (fr R a) i
  let V : Set V3 := sgVecs P C
  have hV1 : ∀ a ∈ C, a.2 ∈ V := fun a ha => Or.inl (Or.inl ⟨a, ha, rfl⟩)
  have hV2 : ∀ R, IsLatSym P R → ∀ a ∈ Q, fr R a ∈ V := by
    intro R hR a ha
    obtain ⟨a', ha', rfl⟩ := List.mem_map.mp ha
    obtain ⟨b', hb', e⟩ := List.mem_map.mp ha0
    exact Or.inl (Or.inr ⟨(R, a', b'), ⟨hR, ha', hb'⟩, by simp only [fr, ← e]; rfl⟩)
  have hV3 : ∀ R, IsLatSym P R → ∀ a ∈ Q, ∀ b ∈ Q, im R a b ∈ V := by
    intro R hR a ha b hb
    obtain ⟨a', ha', rfl⟩ := List.mem_map.mp ha
    obtain ⟨b', hb', rfl⟩ := List.mem_map.mp hb
    obtain ⟨c', hc', e⟩ := List.mem_map.mp ha0
    exact Or.inr ⟨(R, a', b', c'), ⟨hR, ha', hb', hc'⟩, by simp only [im, fr, ← e]; rfl⟩
  obtain ⟨hbring, hclose⟩ := hbr
  obtain ⟨ops, hops, hnd, hmem⟩ := hpg
  have hopsym : ∀ R, R ∈ ops ↔ IsLatSym P R := hmem
  have honeSym : IsLatSym P 1 := ⟨by simp, 1, by rw [realM_one, Matrix.one_mul, Matrix.mul_one]⟩
  obtain ⟨op0, ops', hops0⟩ : ∃ op0 ops', ops = op0 :: ops' := by
    cases ho : ops with
    | nil => have := (hopsym 1).mpr honeSym; rw [ho] at this; simp at this
    | cons a l => exact ⟨a, l, rfl⟩
  set L := ops.flatMap (fun op => (exactFracts cv eps op a0 Q Q).map (fun f => (op, f))) with hL
  have hrun : spaceGroup P atoms eps lattcoords = some (.ok L) := by
    unfold spaceGroup
    rw [if_neg (by rw [Matrix.det_transpose]; exact hP)]
    have hb := bringAtoms_eq (c2l := (P.transpose)⁻¹) (l2c := P.transpose) (eps := eps) (cv := cv) C
      (fun a ha => hbring _ (hV1 a ha))
    have hl := sgLoop_eq (c2l := (P.transpose)⁻¹) (l2c := P.transpose) (eps := eps) (cv := cv) (a0 := a0) (atoms := Q) ops
      (fun op hop a ha => hbring _ (hV2 op ((hopsym op).mp hop) a ha))
      (fun op hop a ha b hb => hbring _ (hV3 op ((hopsym op).mp hop) a ha b hb))
    have e0 : (if lattcoords = true then List.map (fun a => (a.1, P.transpose.mulVec a.2)) atoms else atoms) = C := rfl
    simp only [e0]
    rw [hb, hops]
    show (match ops, Q with
      | [], _ => pure []
      | _ :: _, [] => throw .indexError
      | _ :: _, a0 :: _ => sgLoop (P.transpose)⁻¹ P.transpose eps a0 Q ops : Run _) = _
    rw [hops0, hQ0]
    simp only
    rw [← hops0, ← hQ0, hl]
  have hexist : ∀ u ∈ V, ∀ t, doesMappingExist (cv u) t Q eps = true ↔ ∃ c ∈ Q, c.1 = t ∧ u - c.2 ∈ Λ := by
    intro u hu t
    unfold doesMappingExist
    simp only [List.any_eq_true, Bool.and_eq_true, decide_eq_true_eq]
    constructor
    · rintro ⟨c, hc, e, h⟩
      refine ⟨c, hc, e, ?_⟩
      obtain ⟨a, ha, rfl⟩ := List.mem_map.mp hc
      have h2 := (hclose u hu a.2 (hV1 a ha)).mp h
      have := colLat_add h2 (canonV_sub hP a.2)
      rwa [sub_add_sub_cancel] at this
    · rintro ⟨c, hc, e, h⟩
      refine ⟨c, hc, e, ?_⟩
      obtain ⟨a, ha, rfl⟩ := List.mem_map.mp hc
      apply (hclose u hu a.2 (hV1 a ha)).mpr
      have := colLat_sub h (canonV_sub hP a.2)
      rwa [sub_sub_sub_cancel_right] at this
  have hchar : ∀ R s, (R, s) ∈ L ↔ IsLatSym P R ∧ ∃ a ∈ Q, a.1 = a0.1 ∧ s = cv (fr R a) ∧ MapsInto Λ Q R s := by
    intro R s
    rw [hL]
    simp only [List.mem_flatMap, List.mem_map, exactFracts]
    constructor
    · rintro ⟨op, hop, f, ⟨a, ha, hf⟩, e⟩
      rw [Prod.mk.injEq] at e
      obtain ⟨rfl, rfl⟩ := e
      have hop' := (hopsym op).mp hop
      split_ifs at hf with hcond
      · rw [List.mem_singleton] at hf
        refine ⟨hop', a, ha, hcond.1, hf, fun b hb => ?_⟩
        have := List.all_eq_true.mp hcond.2 b hb
        obtain ⟨c, hc, e, h⟩ := (hexist (im op a b) (hV3 op hop' a ha b hb) b.1).mp this
        refine ⟨c, hc, e, ?_⟩
        rw [hf]
        exact h
      · simp at hf
    · rintro ⟨hR, a, ha, e, rfl, hm⟩
      refine ⟨R, (hopsym R).mpr hR, cv (fr R a), ⟨a, ha, ?_⟩, rfl⟩
      rw [if_pos]
      · exact List.mem_singleton.mpr rfl
      · refine ⟨e, List.all_eq_true.mpr fun b hb => ?_⟩
        exact (hexist (im R a b) (hV3 R hR a ha b hb) b.1).mpr (hm b hb)
  have hcr : Crystal Λ Q = Crystal Λ C := crystal_canon hP C
  have htrans : ∀ R s, IsCrystalSym Λ C R s ↔ IsCrystalSym Λ Q R s := by
    intro R s
    constructor
    · rintro ⟨h1, h2, h3⟩; exact ⟨h1, h2, by rw [hcr]; exact h3⟩
    · rintro ⟨h1, h2, h3⟩; exact ⟨h1, h2, by rw [← hcr]; exact h3⟩
  have hsound : ∀ p ∈ L, IsCrystalSym Λ C p.1 p.2 := by
    rintro ⟨R, s⟩ hp
    obtain ⟨hR, a, -, -, -, hm⟩ := (hchar R s).mp hp
    rw [htrans, crystalSym_iff hΛ]
    obtain ⟨h1, h2⟩ := (isLatSym_iff hP R).mp hR
    exact ⟨h1, h2, hm⟩
  have hcomplete : ∀ R s, IsCrystalSym Λ C R s → ∃ p ∈ L, p.1 = R ∧ p.2 - s ∈ Λ := by
    intro R s hsym
    have hsymQ := (htrans R s).mp hsym
    obtain ⟨h1, h2, h3⟩ := (crystalSym_iff hΛ).mp hsymQ
    obtain ⟨c, hc, e, h⟩ := h3 a0 ha0
    have hs : cv (fr R c) - s ∈ Λ := by
      have h4 := canonV_sub hP (fr R c)
      have := hΛ.neg _ (hΛ.add _ h _ h4)
      convert this using 1
      funext i
      simp only [fr, Pi.sub_apply, Pi.neg_apply, Pi.add_apply, hcv]
      ring
    refine ⟨(R, cv (fr R c)), (hchar _ _).mpr ⟨(isLatSym_iff hP R).mpr ⟨h1, h2⟩, c, hc, e, rfl, ?_⟩, rfl, hs⟩
    exact ((crystalSym_iff hΛ).mp (hsymQ.shift hΛ hs)).2.2
  refine ⟨L, hrun, hsound, hcomplete, ⟨?_, ?_, ?_⟩, ?_, ?_⟩
  · refine (hchar 1 0).mpr ⟨honeSym, a0, ha0, rfl, ?_, ?_⟩
    · have : fr 1 a0 = 0 := by
        funext i; simp [fr]
      rw [this, hcv, canonV_zero]
    · intro b hb
      exact ⟨b, hb, rfl, by rw [Matrix.one_mulVec, add_zero, sub_self]; exact hΛ.zero⟩
  · intro p hp q hq
    obtain ⟨r, hr, e, h⟩ := hcomplete _ _ ((hsound p hp).comp (hsound q hq))
    refine ⟨r, hr, e, ?_⟩
    have := hΛ.neg _ h
    rwa [neg_sub] at this
  · intro p hp
    obtain ⟨q, hq, e, h⟩ := hcomplete _ _ (hsound p hp).symm
    refine ⟨q, hq, by rw [e]; exact mul_eq_one_comm.mp (hsound p hp).orth, ?_⟩
    rw [e]
    rw [sub_neg_eq_add, add_comm] at h
    exact h
  · rintro ⟨R, s⟩ hp
    obtain ⟨-, a, -, -, e, -⟩ := (hchar R s).mp hp
    exact ⟨_, fun i => ⟨Int.fract_nonneg _, Int.fract_lt_one _⟩, e.symm⟩
  · intro hap
    have hapQ : Q.Pairwise (fun a b => ¬ (a.1 = b.1 ∧ a.2 - b.2 ∈ Λ)) := by
      rw [hQ, List.pairwise_map]
      refine hap.imp ?_
      rintro a b hab ⟨e, h⟩
      apply hab ⟨e, ?_⟩
      have := hΛ.add _ (hΛ.add _ (canonV_sub hP a.2) _ h) _ (hΛ.neg _ (canonV_sub hP b.2))
      convert this using 1
      simp only [hcv]
      abel
    rw [hL, List.pairwise_flatMap]
    constructor
    · intro op _
      rw [List.pairwise_map]
      unfold exactFracts
      rw [List.pairwise_flatMap]
      constructor
      · intro a _
        split_ifs <;> simp
      · refine hapQ.imp ?_
        intro a b hab x hx y hy
        split_ifs at hx with hcx
        · split_ifs at hy with hcy
          · rw [List.mem_singleton] at hx hy
            rintro ⟨-, h⟩
            apply hab ⟨hcx.1.trans hcy.1.symm, ?_⟩
            rw [hx, hy] at h
            have := hΛ.add _ (hΛ.add _ (canonV_sub hP (fr op a)) _ h) _ (hΛ.neg _ (canonV_sub hP (fr op b)))
            convert this using 1
            simp only [hcv, fr]
            funext i
            simp only [Pi.sub_apply, Pi.add_apply, Pi.neg_apply]
            ring
          · simp at hy
        · simp at hx
    · refine hnd.imp ?_
      intro R R' hne p hp q hq
      obtain ⟨f, -, rfl⟩ := List.mem_map.mp hp
      obtain ⟨g, -, rfl⟩ := List.mem_map.mp hq
      rintro ⟨e, -⟩
      exact hne e

/-- C47. For every non-singular lattice (rows of `P`), every non-empty list of atoms (type and position, Cartesian or
in lattice coordinates) and every sufficiently small positive tolerance, `get_spaceGroup` succeeds; every operation it
returns is a symmetry of the crystal; every symmetry of the crystal is returned up to a lattice translation; the
operations form a group up to lattice translations; the translations lie in the cell; and, if no two atoms coincide
modulo the lattice, no two of the operations coincide modulo the lattice. -/
theorem C47_space_group (P : M3 ℝ) (hP : P.det ≠ 0) (atoms : List (ℕ × V3)) (hne : atoms ≠ []) (lattcoords : Bool) :
    ∃ e > 0, ∀ eps, 0 < eps → eps < e → ∃ L, spaceGroup P atoms eps lattcoords = some (.ok L) ∧
      (∀ p ∈ L, IsCrystalSym (ColLattice P.transpose) (cartAtoms P lattcoords atoms) p.1 p.2) ∧
      (∀ R s, IsCrystalSym (ColLattice P.transpose) (cartAtoms P lattcoords atoms) R s →
        ∃ p ∈ L, p.1 = R ∧ p.2 - s ∈ ColLattice P.transpose) ∧
      IsSpaceGroup (ColLattice P.transpose) L ∧
      (∀ p ∈ L, ∃ y : V3, (∀ i, 0 ≤ y i ∧ y i < 1) ∧ P.transpose.mulVec y = p.2) ∧
      ((cartAtoms P lattcoords atoms).Pairwise (fun a b => ¬ (a.1 = b.1 ∧ a.2 - b.2 ∈ ColLattice P.transpose)) →
        L.Pairwise (fun p q => ¬ (p.1 = q.1 ∧ p.2 - q.2 ∈ ColLattice P.transpose))) := by
  obtain ⟨e1, he1, h1⟩ := pointGroup_char P hP
  obtain ⟨e2, he2, h2⟩ := finite_bring hP (sgVecs_finite hP (cartAtoms P lattcoords atoms))
  refine ⟨min e1 e2, lt_min he1 he2, fun eps h0 hlt => ?_⟩
  obtain ⟨l1, l2⟩ := lt_min_iff.mp hlt
  exact space_group_at hP atoms hne lattcoords (h1 eps h0.le l1) (h2 eps h0 l2)

/-- C47. A singular lattice is rejected, an empty list of atoms too. -/
theorem C47_rejects (P : M3 ℝ) (atoms : List (ℕ × V3)) (eps : ℝ) (lattcoords : Bool) :
    (P.det = 0 → spaceGroup P atoms eps lattcoords = some (.error .linAlgError)) ∧
    (P.det ≠ 0 → ∃ e > 0, 0 ≤ eps → eps < e → spaceGroup P [] eps lattcoords = some (.error .indexError)) := by
  constructor
  · intro h
    unfold spaceGroup
    rw [if_pos (by rw [Matrix.det_transpose]; exact h)]
    rfl
  · intro h
    obtain ⟨e, he, hpg⟩ := pointGroup_char P h
    refine ⟨e, he, fun h0 h1 => ?_⟩
    obtain ⟨ops, hops, -, hmem⟩ := hpg eps h0 h1
    have h1 : (1 : M3 ℝ) ∈ ops := (hmem 1).mpr ⟨by simp, 1, by rw [realM_one, Matrix.one_mul, Matrix.mul_one]⟩
    unfold spaceGroup
    rw [if_neg (by rw [Matrix.det_transpose]; exact h), hops]
    cases ops with
    | nil => simp at h1
    | cons a l => cases lattcoords <;> rfl

/-- CsCl: the inversion is found, the translation that exchanges the two species is not. -/
example : ∃ e > 0, ∀ eps, 0 < eps → eps < e →
    ∃ L, spaceGroup (1 : M3 ℝ) [(0, 0), (1, fun _ => 1 / 2)] eps false = some (.ok L) ∧ (∃ p ∈ L, p.1 = -1) ∧
      ¬ ∃ p ∈ L, p = (1, fun _ => 1 / 2) := by
  obtain ⟨e, he, h⟩ := C47_space_group (1 : M3 ℝ) (by simp) [(0, 0), (1, fun _ => 1 / 2)] (by simp) false
  have hsub := colLat_isSub (1 : M3 ℝ).transpose
  refine ⟨e, he, fun eps h0 h1 => ?_⟩
  obtain ⟨L, e1, h2, h3, -⟩ := h eps h0 h1
  refine ⟨L, e1, ?_, ?_⟩
  · have hsym : IsCrystalSym (ColLattice (1 : M3 ℝ).transpose) (cartAtoms 1 false [(0, 0), (1, fun _ => 1 / 2)]) (-1) 0 := by
      refine (crystalSym_iff hsub).mpr ⟨by simp, ?_, ?_⟩
      · apply Set.Subset.antisymm
        · rintro _ ⟨v, hv, rfl⟩
          rw [Matrix.neg_mulVec, Matrix.one_mulVec]; exact hsub.neg _ hv
        · intro v hv
          exact ⟨-v, hsub.neg _ hv, by rw [Matrix.neg_mulVec, Matrix.one_mulVec, neg_neg]⟩
      · intro b hb
        refine ⟨b, hb, rfl, ?_⟩
        simp only [cartAtoms, Bool.false_eq_true, if_false, List.mem_cons, List.not_mem_nil, or_false] at hb
        rcases hb with rfl | rfl
        · simpa using hsub.zero
        · refine ⟨fun _ => -1, ?_⟩
          rw [Matrix.transpose_one, Matrix.one_mulVec, Matrix.neg_mulVec, Matrix.one_mulVec]
          funext i
          simp
          norm_num
    obtain ⟨p, hp, hp1, -⟩ := h3 (-1) 0 hsym
    exact ⟨p, hp, hp1⟩
  · rintro ⟨p, hp, rfl⟩
    have h4 := ((crystalSym_iff hsub).mp (h2 _ hp)).2.2 (0, 0) (by simp [cartAtoms])
    obtain ⟨c, hc, e, x, hx⟩ := h4
    simp only [cartAtoms, Bool.false_eq_true, if_false, List.mem_cons, List.not_mem_nil, or_false] at hc
    rcases hc with rfl | rfl
    · have := congrFun hx 0
      simp at this
      have h5 : ((2 * x 0 : ℤ) : ℝ) = 1 := by push_cast; rw [this]; norm_num
      have h6 : 2 * x 0 = 1 := by exact_mod_cast h5
      omega
    · simp at e

end Phenum
