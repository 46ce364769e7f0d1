import Verif.Props.SymGroup
/-
C55: surface cells (`LatDim == 2`).
-/
namespace Phenum
open Spec

/-- The first coordinate axis. -/
def axis0 : V3 := ![1, 0, 0]

/-- A surface operation: the rotation maps the first axis (the surface normal) to itself or its negative. -/
def IsSurfaceOp (R : M3 ℝ) : Prop := R.mulVec axis0 = axis0 ∨ R.mulVec axis0 = -axis0

theorem surface_iff {R : M3 ℝ} (hR : R * R.transpose = 1) :
    IsSurfaceOp R ↔ ((R 0 1 = 0 ∧ R 0 2 = 0) ∧ (R 1 0 = 0 ∧ R 2 0 = 0) ∧ |R 0 0| - 1 = 0) := by
  have hcol : R.mulVec axis0 = ![R 0 0, R 1 0, R 2 0] := by
    funext i
    fin_cases i <;> simp [axis0, Matrix.mulVec, dotProduct, Fin.sum_univ_three]
  have hrow : R 0 0 ^ 2 + R 0 1 ^ 2 + R 0 2 ^ 2 = 1 := by
    have := congrFun (congrFun hR 0) 0
    rw [Matrix.mul_apply] at this
    simp [Fin.sum_univ_three] at this
    nlinarith
  unfold IsSurfaceOp
  rw [hcol]
  constructor
  · intro h
    have h3 : (R 0 0 = 1 ∨ R 0 0 = -1) ∧ R 1 0 = 0 ∧ R 2 0 = 0 := by
      rcases h with h | h
      · exact ⟨Or.inl (by simpa [axis0] using congrFun h 0), by simpa [axis0] using congrFun h 1, by simpa [axis0] using congrFun h 2⟩
      · exact ⟨Or.inr (by simpa [axis0] using congrFun h 0), by simpa [axis0] using congrFun h 1, by simpa [axis0] using congrFun h 2⟩
    obtain ⟨h1, h2, h3⟩ := h3
    have hsq : R 0 0 ^ 2 = 1 := by rcases h1 with h | h <;> rw [h] <;> norm_num
    have ha : R 0 1 ^ 2 + R 0 2 ^ 2 = 0 := by linarith
    refine ⟨⟨?_, ?_⟩, ⟨h2, h3⟩, ?_⟩
    · nlinarith [sq_nonneg (R 0 1), sq_nonneg (R 0 2)]
    · nlinarith [sq_nonneg (R 0 1), sq_nonneg (R 0 2)]
    · rcases h1 with h | h <;> rw [h] <;> norm_num
  · rintro ⟨-, ⟨h2, h3⟩, h⟩
    have : R 0 0 = 1 ∨ R 0 0 = -1 := by
      have : |R 0 0| = 1 := by linarith
      exact eq_or_eq_neg_of_abs_eq this
    rcases this with h | h
    · left; funext i; fin_cases i <;> simp [axis0, h, h2, h3]
    · right; funext i; fin_cases i <;> simp [axis0, h, h2, h3]

open Classical in
/-- C55. For lattice vectors of the form `x00`, `xxx`, `00x` (rows of `P`) and any list of operations with orthogonal
matrices, for every sufficiently small tolerance, `_rm_3D_operations` keeps exactly the operations that map the first axis to
itself or its negative, in their order. -/
theorem C55_surface_operations (P : M3 ℝ) (h01 : P 0 1 = 0) (h02 : P 0 2 = 0) (h20 : P 2 0 = 0) (h21 : P 2 1 = 0)
    (S : Set (M3 ℝ)) (hfin : S.Finite) (hS : ∀ R ∈ S, R * R.transpose = 1) :
    ∃ e > 0, ∀ eps, 0 ≤ eps → eps < e → ∀ ops : List (M3 ℝ × V3), (∀ p ∈ ops, p.1 ∈ S) →
      rm3D P ops eps = .ok (ops.filter (fun p => decide (IsSurfaceOp p.1))) := by
  obtain ⟨e, he, hgap⟩ := exists_gap hfin
    (fun R => max (max (max |R 0 1| |R 0 2|) (max |R 1 0| |R 2 0|)) (abs (abs (R 0 0) - 1)))
  refine ⟨e, he, fun eps h0 hlt ops hops => ?_⟩
  unfold rm3D
  rw [if_neg (by
    rw [h01, h02, h20, h21, abs_zero]
    simp [h0])]
  congr 1
  apply List.filter_congr
  intro p hp
  congr 1
  rw [eq_iff_iff, surface_iff (hS _ (hops p hp))]
  constructor
  · rintro ⟨⟨a, b⟩, ⟨c, d⟩, f⟩
    have := hgap p.1 (hops p hp) (by
      simp only [max_lt_iff]
      exact ⟨⟨⟨lt_of_le_of_lt a hlt, lt_of_le_of_lt b hlt⟩, ⟨lt_of_le_of_lt c hlt, lt_of_le_of_lt d hlt⟩⟩, lt_of_le_of_lt f hlt⟩)
    simp only [max_le_iff, abs_nonpos_iff] at this
    exact ⟨this.1.1, this.1.2, this.2⟩
  · rintro ⟨⟨a, b⟩, ⟨c, d⟩, f⟩
    rw [a, b, c, d, f, abs_zero]
    exact ⟨⟨h0, h0⟩, ⟨h0, h0⟩, h0⟩

/-- C55. Lattice vectors are rejected with ValueError exactly if one of the entries 2, 3 of the first vector or 1, 2 of
the third exceeds the tolerance. -/
theorem C55_rejects (P : M3 ℝ) (ops : List (M3 ℝ × V3)) (eps : ℝ) :
    rm3D P ops eps = .error .valueError ↔ eps < |P 0 1| ∨ eps < |P 0 2| ∨ eps < |P 2 0| ∨ eps < |P 2 1| := by
  unfold rm3D
  split_ifs with h
  · simp only [true_iff]
    rcases h with h | h
    · rw [not_and_or, not_le, not_le] at h; tauto
    · rw [not_and_or, not_le, not_le] at h; tauto
  · simp only [reduceCtorEq, false_iff]
    intro hc
    apply h
    rw [not_and_or, not_and_or, not_le, not_le, not_le, not_le]
    tauto

/-- C55, consequence. The message says that vectors of the form `x00`, `0xx`, `0xx` are allowed; such a cell is rejected,
and one that is not of this form is accepted. -/
theorem C55_form_not_checked :
    (∀ ops eps, eps < 1 / 2 → rm3D !![1, 0, 0; 0, 1, 0; 0, 1 / 2, 1] ops eps = .error .valueError) ∧
    (∀ ops eps, 0 ≤ eps → rm3D !![1, 0, 0; 1 / 2, 1, 0; 0, 0, 1] ops eps ≠ .error .valueError) := by
  constructor
  · intro ops eps h
    rw [C55_rejects]
    right; right; right
    simp
    linarith
  · intro ops eps h0 h
    rw [C55_rejects] at h
    simp at h
    linarith

/-- the scaled identity -/
def kCube (k : ℕ) : M3 ℤ := !![(k : ℤ), 0, 0; 0, k, 0; 0, 0, k]

theorem kCube_det (k : ℕ) : (kCube k).det = (k : ℤ) ^ 3 := by
  rw [kCube, Matrix.det_fin_three]
  simp
  ring

theorem kCube_cast (A : M3 ℝ) (k : ℕ) : A * (kCube k).map (fun x => (x : ℝ)) = (k : ℝ) • A := by
  have : (kCube k).map (fun x => (x : ℝ)) = (k : ℝ) • (1 : M3 ℝ) := by
    apply Matrix.ext
    intro i j
    fin_cases i <;> fin_cases j <;> simp [kCube]
  rw [this, Matrix.mul_smul, Matrix.mul_one]

theorem colLat_smul_img (A : M3 ℝ) (k : ℝ) : ColLattice (k • A) = (fun v => k • v) '' ColLattice A := by
  ext w
  constructor
  · rintro ⟨x, rfl⟩
    exact ⟨A.mulVec (fun i => (x i : ℝ)), ⟨x, rfl⟩, by simp [Matrix.smul_mulVec]⟩
  · rintro ⟨_, ⟨x, rfl⟩, rfl⟩
    exact ⟨x, by simp [Matrix.smul_mulVec]⟩

open Classical in
/-- C55, the failure of the drivers. For a surface cell with one atom at a lattice point whose lattice has a symmetry that
is not a surface operation (every cubic lattice has), `get_sym_group` with `LatDim = 2` fails with IndexError for every
supercell of `k` x `k` x `k` cells, and `get_HNFs` with `LatDim = 2` fails with IndexError for `n = 1`: the basis
permutations are computed for the surface operations only, but looked up with the index of all operations. -/
theorem C55_surface_fails (P : M3 ℝ) (hP : P.det ≠ 0) (h01 : P 0 1 = 0) (h02 : P 0 2 = 0) (h20 : P 2 0 = 0) (h21 : P 2 1 = 0)
    (d : V3) (hd : d ∈ ColLattice P.transpose) (R : M3 ℝ) (hR : R * R.transpose = 1)
    (hRΛ : R.mulVec '' ColLattice P.transpose = ColLattice P.transpose) (hR3 : ¬ IsSurfaceOp R) :
    (∀ k, 1 ≤ k → ∃ e > 0, ∀ eps, 0 < eps → eps < e → ∀ arrows,
      getSymGroup P [d] (kCube k) 2 eps arrows = some (.error .indexError)) ∧
    ∃ e > 0, ∀ eps, 0 < eps → eps < e → getHNFs 1 P [d] 2 eps = some (.error .indexError) := by
  have hΛ := colLat_isSub P.transpose
  set Λ := ColLattice P.transpose with hΛdef
  have hA : P.transpose.det ≠ 0 := by rwa [Matrix.det_transpose]
  have h0Λ : (0 : V3) ∈ Λ := hΛ.zero
  have hcan : [d].map (canonV P) = [0] := by
    simp only [List.map_cons, List.map_nil, List.cons.injEq, and_true]
    rw [← canonV_zero P, canonV_eq_iff hP, sub_zero]
    exact hd
  have hin0 : InCell P 0 := ⟨0, fun i => ⟨le_refl _, one_pos⟩, by rw [Matrix.mulVec_zero]⟩
  have hs0 : ∀ R s, IsCrystalSym Λ ([0].map (fun d : V3 => (1, d))) R s → s ∈ Λ := by
    intro R s h
    obtain ⟨-, -, h3⟩ := (crystalSym_iff hΛ).mp h
    obtain ⟨c, hc, -, hm⟩ := h3 (1, 0) (by simp)
    simp only [List.map_cons, List.map_nil, List.mem_singleton] at hc
    subst hc
    simpa using hm
  have hsymR : IsCrystalSym Λ ([0].map (fun d : V3 => (1, d))) R 0 := by
    rw [crystalSym_iff hΛ]
    refine ⟨hR, hRΛ, ?_⟩
    intro b hb
    simp only [List.map_cons, List.map_nil, List.mem_singleton] at hb
    subst hb
    refine ⟨(1, 0), by simp, rfl, by simpa using h0Λ⟩
  obtain ⟨e1, he1, hdv⟩ := dvectors_ok hP (bas := [0]) (by simp) (by
      intro x hx
      simp only [List.mem_singleton] at hx
      subst hx; exact hin0)
    (by intro i j hi hj _; simp at hi hj; omega)
    (by
      intro R s h x hx
      simp only [List.mem_singleton] at hx
      subst hx
      exact ⟨0, by simp, by simpa using hs0 R s h⟩)
  obtain ⟨e2, he2, hbr⟩ := finite_bring hP (List.finite_toSet [d])
  obtain ⟨e3, he3, hrm⟩ := C55_surface_operations P h01 h02 h20 h21 {R | IsLatSym P R} (latSym_finite hP)
    (fun R hR => ((isLatSym_iff hP R).mp hR).1)
  -- common part
  have hcommon : ∀ eps, 0 < eps → eps < min (min e1 e2) e3 → ∃ (L : List (M3 ℝ × V3)) (dp : List (List V3 × List ℕ)),
      bringBasis P [d] eps = (pure [0] : Run _) ∧
      spaceGroup P ([0].map (fun d => (1, d))) eps false = (pure L : Run _) ∧
      dvectorPermutations P [0] 2 eps = (pure dp : Run _) ∧ dp.length < L.length ∧
      (∀ p ∈ L, ColLattice (p.1 * P.transpose) = Λ) ∧ IsMatGroup (L.map (·.1)) := by
    intro eps h0 hlt
    obtain ⟨hlt', hlt3⟩ := lt_min_iff.mp hlt
    obtain ⟨hlt1, hlt2⟩ := lt_min_iff.mp hlt'
    obtain ⟨L, g, hsg, ⟨hs, hc, hG⟩, -, -, hF, -⟩ := hdv eps h0 hlt1
    have hLsym : ∀ p ∈ L, p.1 ∈ {R | IsLatSym P R} := fun p hp =>
      (isLatSym_iff hP p.1).mpr ⟨(hs p hp).orth, (hs p hp).lattice⟩
    have hrm' := hrm eps h0.le hlt3 L hLsym
    refine ⟨L, _, ?_, hsg, hF _ hrm' (fun x hx => List.mem_of_mem_filter hx), ?_, ?_, sg_matGroup hG⟩
    · rw [bringBasis_ok (hbr eps h0 hlt2).1, hcan]
    · rw [List.length_map]
      obtain ⟨p, hp, e, -⟩ := hc R 0 hsymR
      rw [List.length_filter_lt_length_iff_exists]
      exact ⟨p, hp, by rw [e]; simpa using hR3⟩
    · intro p hp
      rw [colLat_image]
      exact (hs p hp).lattice
  have hfixed : ∀ (k : ℕ), 1 ≤ k → ∀ eps : ℝ, 0 < eps → eps * (k ^ 3 : ℕ) < 1 → ∀ (L : List (M3 ℝ × V3)) (dp : List (List V3 × List ℕ)),
      dp.length < L.length → (∀ p ∈ L, ColLattice (p.1 * P.transpose) = Λ) → IsMatGroup (L.map (·.1)) →
      ∃ kept deg, fixingOperations P.transpose (kCube k) eps (withData L dp) = .ok (kept, deg) ∧
        takeData kept = .error .indexError := by
    intro k hk eps h0 hek L dp hlen hL hG
    have hmapfst : (withData L dp).map (·.1) = L.map (·.1) := by
      unfold withData
      apply List.ext_getElem
      · simp
      · intro i h1 h2
        have hi : i < L.length := by simpa using h2
        simp only [List.getElem_map, List.getElem_range]
        rw [getD_lt hi]
    have hopL : ∀ op ∈ withData L dp, ColLattice (op.1 * P.transpose) = Λ := by
      intro op hop
      have : op.1 ∈ (withData L dp).map (·.1) := List.mem_map_of_mem hop
      rw [hmapfst] at this
      obtain ⟨p, hp, e⟩ := List.mem_map.mp this
      rw [← e]; exact hL p hp
    obtain ⟨kept, deg, hf, hkept, -, -⟩ := C44_fixing_operations P.transpose hA (withData L dp) (by rw [hmapfst]; exact hG)
      hopL (k ^ 3) (Nat.one_le_pow _ _ hk) eps h0.le hek (kCube k)
      (Or.inl (by rw [kCube_det]; push_cast; rfl))
    refine ⟨kept, deg, hf, takeData_error ?_⟩
    have hlast : (withData L dp)[dp.length]? = some (L[dp.length].1, (L[dp.length].2, none)) := by
      unfold withData
      rw [List.getElem?_map, List.getElem?_range hlen, Option.map_some]
      rw [getD_lt hlen]
      simp
    have hm := List.mem_of_getElem? hlast
    refine ⟨_, ?_, (rfl : ((L[dp.length].1, (L[dp.length].2, (none : Option (List V3 × List ℕ)))) : M3 ℝ × (V3 × _)).2.2 = none)⟩
    rw [hkept, List.mem_filter]
    refine ⟨hm, ?_⟩
    simp only [decide_eq_true_eq]
    rw [kCube_cast, Matrix.mul_smul, colLat_smul_img, colLat_smul_img, hL _ (List.getElem_mem hlen)]
  constructor
  · intro k hk
    refine ⟨min (min (min e1 e2) e3) (1 / (k ^ 3 : ℕ)), lt_min (lt_min (lt_min he1 he2) he3) (by positivity), ?_⟩
    intro eps h0 hlt arrows
    obtain ⟨hlt1, hlt2⟩ := lt_min_iff.mp hlt
    obtain ⟨L, dp, hb, hsg, hdp, hlen, hL, hG⟩ := hcommon eps h0 hlt1
    have hek : eps * (k ^ 3 : ℕ) < 1 := by rwa [lt_div_iff₀ (by positivity)] at hlt2
    obtain ⟨kept, deg, hf, ht⟩ := hfixed k hk eps h0 hek L dp hlen hL hG
    unfold getSymGroup
    rw [if_neg hP, hb]
    simp only [pure_bind]
    rw [hdp]
    simp only [pure_bind]
    rw [hsg]
    simp only [pure_bind]
    rw [hf]
    show (do
      let ops ← runPy (takeData kept)
      _ : Run _) = _
    rw [ht]
    rfl
  · refine ⟨min (min (min e1 e2) e3) 1, lt_min (lt_min (lt_min he1 he2) he3) one_pos, ?_⟩
    intro eps h0 hlt
    obtain ⟨hlt1, hlt2⟩ := lt_min_iff.mp hlt
    obtain ⟨L, dp, hb, hsg, hdp, hlen, hL, hG⟩ := hcommon eps h0 hlt1
    obtain ⟨kept, deg, hf, ht⟩ := hfixed 1 le_rfl eps h0 (by simpa using hlt2) L dp hlen hL hG
    have hone : findAllHNFs 1 = [kCube 1] := by decide +kernel
    unfold getHNFs
    rw [if_neg hP, hb]
    simp only [pure_bind]
    rw [hdp]
    simp only [pure_bind]
    unfold removeDuplicateLattices
    rw [hsg]
    simp only [pure_bind]
    rw [hone]
    unfold removeDuplicates
    rw [if_pos (by simp)]
    have hcf : checkFixing P eps (withData L dp) [kCube 1] = .error .indexError := by
      unfold checkFixing
      rw [List.mapM_cons, hf]
      change (do
        let _ ← takeData kept
        _ : Py _) >>= _ = _
      rw [ht]
      rfl
    show (do
      let r ← (do
        let degens ← runPy (checkFixing P eps (withData L dp) [kCube 1])
        pure ([kCube 1], degens) : Run _)
      pure r.1 : Run _) = _
    rw [hcf]
    rfl

end Phenum
