import Verif.Proof.NoiseSym
import Verif.Props.Tolerance
/-
C73: the searches for symmetries with rounding errors. Whenever the code compares or rounds a number, the number may be off by up to `δ`
(Model/Noise.lean); every possible outcome is the exact one.
-/
namespace Phenum
open Spec

/-- The only possible outcome of a call with rounding errors. -/
def Spec.AlwaysReturns {α : Type} (call : Noisy α) (value : α) : Prop := ∀ r, call r ↔ r = .ok value

theorem always_of_sure {α : Type} {y : Noisy α} {a : α} (h : y = sure (.ok a)) : AlwaysReturns y a := by
  intro r
  rw [h]
  exact Iff.rfl

theorem settled_ok {α : Type} {y : Noisy α} {x : Run α} {a : α} (h : Settled y x) (hx : x = (some (.ok a) : Option (Py α))) : AlwaysReturns y a := by
  obtain ⟨r, h1, h2⟩ := h
  rw [hx] at h1
  cases h1
  exact always_of_sure h2

theorem settled_iff {α : Type} {y : Noisy α} {x : Run α} (h : Settled y x) : ∃ r : Py α, x = (some r : Option (Py α)) ∧ ∀ r', y r' ↔ r' = r := by
  obtain ⟨r, h1, rfl⟩ := h
  exact ⟨r, h1, fun r' => Iff.rfl⟩

/-- C73. `get_lattice_pointGroup` with rounding errors of up to `δ`, smaller than the tolerance: for lattice vectors with components of at most `K` whose
scalar products are multiples of a fraction `1/g` that tolerance plus error do not reach, it always returns the orthogonal matrices that map the lattice
onto itself. -/
theorem C73_point_group {A : M3 ℝ} (hA : A.det ≠ 0) {K K' : ℝ} {g D : ℕ} {eps δ : ℝ} (h0 : 0 ≤ δ) (hlt : δ < eps) (h : Coarse A [] K K' g D (eps + δ)) :
    ∃ L, AlwaysReturns (latticePointGroupN δ A eps) L ∧ L.Nodup ∧
      ∀ R, R ∈ L ↔ R * R.transpose = 1 ∧ R.mulVec '' ColLattice A.transpose = ColLattice A.transpose := by
  have N := noiseOk_coarse hA h0 hlt h
  have C := N.coarse (bas := []) (by simp)
  obtain ⟨L, e1, hn, hm⟩ := C63_point_group hA C.gpos C.entries C.products C.pos.le C.small C.angles
  exact ⟨L, always_of_sure (by rw [N.pointGroup, e1]), hn, hm⟩

/-- C73. `get_spaceGroup` with rounding errors always returns the symmetries of the crystal, each once up to lattice translations. -/
theorem C73_space_group {P : M3 ℝ} (hP : P.det ≠ 0) {atoms : List (ℕ × V3)} (hne : atoms ≠ []) {K K' : ℝ} {g D : ℕ} {eps δ : ℝ} (h0 : 0 ≤ δ) (hlt : δ < eps)
    (h : Coarse P (atoms.map (·.2)) K K' g D (eps + δ)) :
    ∃ L, AlwaysReturns (spaceGroupN δ P atoms eps) L ∧
      (∀ p ∈ L, IsCrystalSym (ColLattice P.transpose) atoms p.1 p.2) ∧
      (∀ R s, IsCrystalSym (ColLattice P.transpose) atoms R s → ∃ p ∈ L, p.1 = R ∧ p.2 - s ∈ ColLattice P.transpose) := by
  have N := noiseOk_coarse hP h0 hlt h
  have hat : ∀ a ∈ atoms, a.2 ∈ Grid P D := fun a ha => h.atoms _ (List.mem_map_of_mem ha)
  obtain ⟨L, e1, h2, h3⟩ := C63_space_group hP hne (N.coarse h.atoms)
  obtain ⟨L', e2, e3⟩ := N.spaceGroup hne hat
  rw [e1] at e2
  cases e2
  exact ⟨L, always_of_sure e3, h2, h3⟩

/-- C73. `get_HNFs` with rounding errors, for any atoms: the one possible outcome, be it a result or an exit, is that of exact arithmetic. -/
theorem C73_get_HNFs_same {P : M3 ℝ} (hP : P.det ≠ 0) {bas : List V3} (hne : bas ≠ []) {K K' : ℝ} {g D : ℕ} {eps δ : ℝ} (h0 : 0 ≤ δ) (hlt : δ < eps)
    (h : Coarse P bas K K' g D (eps + δ)) {n : ℕ} (hn : 1 ≤ n) (hepsn : (eps + δ) * n < 1) :
    ∃ r, getHNFs n P bas 3 eps = some r ∧ ∀ r', getHNFsN δ n P bas eps r' ↔ r' = r :=
  settled_iff ((noiseOk_coarse hP h0 hlt h).getHNFs hne h.atoms hn hepsn (by norm_num))

/-- C73. `get_HNFs` with rounding errors, for a crystal whose basis is permuted by the transposed rotations as in C54: it always succeeds and lists exactly one
HNF of every class of superlattices of index `n` under the symmetries of the crystal. -/
theorem C73_get_HNFs {P : M3 ℝ} (hP : P.det ≠ 0) {bas cell : List V3} (hne : bas ≠ [])
    (hcell : List.Forall₂ (fun b c => b - c ∈ ColLattice P.transpose ∧ InCell P c) bas cell)
    (hd : ∀ i j, i < cell.length → j < cell.length → cell.getD i 0 - cell.getD j 0 ∈ ColLattice P.transpose → i = j)
    (hperm : ∀ R s, IsCrystalSym (ColLattice P.transpose) (bas.map (fun d => (1, d))) R s → ∀ d ∈ cell, ∃ c ∈ cell,
      R.transpose.mulVec d + s - c ∈ ColLattice P.transpose)
    {K K' : ℝ} {g D : ℕ} {eps δ : ℝ} (h0 : 0 ≤ δ) (hlt : δ < eps)
    (h : Coarse P bas K K' g D (eps + δ)) {n : ℕ} (hn : 1 ≤ n) (hepsn : (eps + δ) * n < 1) :
    ∃ U, AlwaysReturns (getHNFsN δ n P bas eps) U ∧
      U.Nodup ∧ (∀ u ∈ U, ∃ a b c d e f : ℕ, a * c * f = n ∧ b < c ∧ d < f ∧ e < f ∧
        u = !![(a : ℤ), 0, 0; (b : ℤ), (c : ℤ), 0; (d : ℤ), (e : ℤ), (f : ℤ)]) ∧
      ∀ M : M3 ℤ, M.det = n ∨ M.det = -n → ∃! u, u ∈ U ∧ ∃ R s,
        IsCrystalSym (ColLattice P.transpose) (bas.map (fun d => (1, d))) R s ∧
        ColLattice (R * (P.transpose * M.map (fun x => (x : ℝ)))) = ColLattice (P.transpose * u.map (fun x => (x : ℝ))) := by
  have N := noiseOk_coarse hP h0 hlt h
  have hn0 : (0 : ℝ) ≤ n := Nat.cast_nonneg n
  obtain ⟨U, e, hU⟩ := get_HNFs_at P hP bas cell hne hcell hd hperm n hn 3 (by norm_num) (fineTol_coarse hP (N.coarse h.atoms)) (by nlinarith)
  exact ⟨U, settled_ok (N.getHNFs hne h.atoms hn hepsn (by norm_num)) e, hU⟩

/-- A rotation that permutes the arrow directions has no entry near a half. -/
theorem arrows_noHalf {R : M3 ℝ} (h : ∀ k a, IsArrowDir k a → ∃ m b, IsArrowDir m b ∧ R.mulVec (fun i => (a i : ℝ)) = (fun i => (b i : ℝ)))
    {δ : ℝ} (hδ : δ < 1 / 2) (i j : Fin 3) : δ < |(|R i j| - 1 / 2)| := by
  have hdir : ∀ m b, IsArrowDir m b → ∀ i, (b i : ℝ) = 0 ∨ (b i : ℝ) = 1 ∨ (b i : ℝ) = -1 := by
    intro m b hb i
    rcases hb with ⟨-, rfl⟩ | ⟨-, rfl⟩ | ⟨-, rfl⟩ | ⟨-, rfl⟩ | ⟨-, rfl⟩ | ⟨-, rfl⟩ <;> fin_cases i <;> simp
  have hent : R i j = 0 ∨ R i j = 1 ∨ R i j = -1 := by
    fin_cases j
    · obtain ⟨m, b, hb, e⟩ := h 0 ![1, 0, 0] (Or.inl ⟨rfl, rfl⟩)
      have := congrFun e i
      have e' : R i 0 = b i := by simpa [Matrix.mulVec, dotProduct, Fin.sum_univ_three] using this
      exact e' ▸ hdir m b hb i
    · obtain ⟨m, b, hb, e⟩ := h 2 ![0, 1, 0] (Or.inr (Or.inr (Or.inl ⟨rfl, rfl⟩)))
      have := congrFun e i
      have e' : R i 1 = b i := by simpa [Matrix.mulVec, dotProduct, Fin.sum_univ_three] using this
      exact e' ▸ hdir m b hb i
    · obtain ⟨m, b, hb, e⟩ := h 4 ![0, 0, 1] (Or.inr (Or.inr (Or.inr (Or.inr (Or.inl ⟨rfl, rfl⟩)))))
      have := congrFun e i
      have e' : R i 2 = b i := by simpa [Matrix.mulVec, dotProduct, Fin.sum_univ_three] using this
      exact e' ▸ hdir m b hb i
  rcases hent with e | e | e <;> rw [e]
  · rw [abs_zero, zero_sub, abs_neg, abs_of_pos (by norm_num)]; exact hδ
  · rw [abs_one, abs_of_pos (by norm_num)]; linarith
  · rw [abs_neg, abs_one, abs_of_pos (by norm_num)]; linarith

/-- C73. `get_sym_group` with rounding errors, for any atoms: the one possible outcome, be it a result or an exit, is that of exact arithmetic, provided no entry of
a rotation of the crystal is within `δ` of one half or minus one half. -/
theorem C73_get_sym_group_same {P : M3 ℝ} (hP : P.det ≠ 0) {bas : List V3} (hne : bas ≠ []) {K K' : ℝ} {g D : ℕ} {eps δ : ℝ} (h0 : 0 ≤ δ) (hlt : δ < eps)
    (h : Coarse P bas K K' g D (eps + δ)) {H : M3 ℤ} (hH : H = 1 ∨ 2 ≤ H.det) (hepsn : (eps + δ) * H.det.toNat < 1)
    (hhalf : ∀ R s, IsCrystalSym (ColLattice P.transpose) (bas.map (fun d => (1, d))) R s → ∀ i j, δ < |(|R i j| - 1 / 2)|) (arrows : Bool) :
    ∃ r, getSymGroup P bas H 3 eps arrows = some r ∧ ∀ r', getSymGroupN δ P bas H eps arrows r' ↔ r' = r :=
  settled_iff ((noiseOk_coarse hP h0 hlt h).getSymGroup hne h.atoms hH hepsn hhalf (by norm_num) arrows)

/-- C73. `get_sym_group` with rounding errors, for a crystal as in C53 (without arrows also: no entry of a rotation within `δ` of one half or minus one half): it
always succeeds, and the result is exactly the group of the permutations of sites and arrows induced by the symmetries of the crystal that map the superlattice
to itself. `H` is the identity or has at least two cells. -/
theorem C73_get_sym_group {P : M3 ℝ} (hP : P.det ≠ 0) {bas cell : List V3} (hne : bas ≠ [])
    (hcell : List.Forall₂ (fun b c => b - c ∈ ColLattice P.transpose ∧ InCell P c) bas cell)
    (hd : ∀ i j, i < cell.length → j < cell.length → cell.getD i 0 - cell.getD j 0 ∈ ColLattice P.transpose → i = j)
    {H : M3 ℤ} (hH : H = 1 ∨ 2 ≤ H.det) (hH' : H.det < 2 ^ 24)
    (hconv : ∀ R s, IsCrystalSym (ColLattice P.transpose) (bas.map (fun d => (1, d))) R s →
      ∃ u ∈ ColLattice P.transpose, ∀ d ∈ cell, R.transpose.mulVec d = R.mulVec d + u)
    (arrows : Bool)
    (harr : ∀ R s, IsCrystalSym (ColLattice P.transpose) (bas.map (fun d => (1, d))) R s → ∀ k a, IsArrowDir k a →
      ∃ m b, IsArrowDir m b ∧ if arrows then R.mulVec (fun i => (a i : ℝ)) = (fun i => (b i : ℝ))
        else ∀ i, RoundsTo (R.transpose.mulVec (fun i => (b i : ℝ)) i) (a i))
    {K K' : ℝ} {g D : ℕ} {eps δ : ℝ} (h0 : 0 ≤ δ) (hlt : δ < eps) (h : Coarse P bas K K' g D (eps + δ)) (hepsn : (eps + δ) * H.det.toNat < 1)
    (hhalf : arrows = false → ∀ R s, IsCrystalSym (ColLattice P.transpose) (bas.map (fun d => (1, d))) R s → ∀ i j, δ < |(|R i j| - 1 / 2)|) :
    ∃ G pos, AlwaysReturns (getSymGroupN δ P bas H eps arrows) G ∧
      (∀ k, k < cell.length * H.det.toNat → pos k - cell.getD (k / H.det.toNat) 0 ∈ ColLattice P.transpose) ∧
      (∀ a, a < cell.length → ∀ l ∈ ColLattice P.transpose, ∃! k, k < cell.length * H.det.toNat ∧
        cell.getD a 0 + l - pos k ∈ ColLattice (P.transpose * H.map (fun x => (x : ℝ)))) ∧
      (∀ g, g ∈ G ↔ ∃ R s, IsCrystalSym (ColLattice P.transpose) (bas.map (fun d => (1, d))) R s ∧
        ColLattice (R * (P.transpose * H.map (fun x => (x : ℝ)))) = ColLattice (P.transpose * H.map (fun x => (x : ℝ))) ∧
        Induces (ColLattice (P.transpose * H.map (fun x => (x : ℝ)))) (cell.length * H.det.toNat) pos R s g.1 ∧
        if arrows then TurnsArrows R g.2 else g.2 = List.range 6) ∧
      IsOpGroup (cell.length * H.det.toNat) 6 G := by
  have N := noiseOk_coarse hP h0 hlt h
  have hd1 : 1 ≤ H.det := by
    rcases hH with rfl | h
    · rw [Matrix.det_one]
    · omega
  have hn0 : (0 : ℝ) ≤ (H.det.toNat : ℝ) := Nat.cast_nonneg _
  obtain ⟨G, pos, e, r1, r2, r3, r4, -⟩ := sym_group_at P hP bas cell hne hcell hd H hd1 hH' hconv arrows harr 3 (by norm_num)
    (fineTol_coarse hP (N.coarse h.atoms)) (by nlinarith)
  refine ⟨G, pos, settled_ok (N.getSymGroup hne h.atoms hH hepsn ?_ (by norm_num) arrows) e, r1, r2, r3, r4⟩
  cases arrows with
  | false => exact hhalf rfl
  | true =>
    intro R s hs
    refine arrows_noHalf (fun k a hk => ?_) N.half
    obtain ⟨m, b, hb, e⟩ := harr R s hs k a hk
    rw [if_pos rfl] at e
    exact ⟨m, b, hb, e⟩

section
variable {P0 : Matrix (Fin 3) (Fin 3) ℚ} {b0 : List (Fin 3 → ℚ)} {D : ℕ}

/-- C73. The tolerance of `get_HNFs`, 1E-7, for crystals with ordinary numbers and at most nine million cells: errors of up to 1E-8 in every number that is compared
change nothing. -/
theorem C73_shipped_HNFs (hP : (realMat P0).det ≠ 0) (hne : b0 ≠ []) (h : DecimalCrystal P0 b0 D) {δ : ℝ} (h0 : 0 ≤ δ) (hlt : δ ≤ 1 / 10 ^ 8) {n : ℕ} (hn : 1 ≤ n)
    (hn' : n ≤ 9 * 10 ^ 6) :
    ∃ r, getHNFs n (realMat P0) (realVecs b0) 3 (1 / 10 ^ 7) = some r ∧ ∀ r', getHNFsN δ n (realMat P0) (realVecs b0) (1 / 10 ^ 7) r' ↔ r' = r := by
  refine C73_get_HNFs_same hP (by simpa [realVecs] using hne) h0 (by linarith) (coarse_mono (decimal_coarse_le h) (by linarith) (by linarith)) hn ?_
  have : (n : ℝ) ≤ 9 * 10 ^ 6 := by exact_mod_cast hn'
  have hn0 : (0 : ℝ) ≤ n := Nat.cast_nonneg n
  nlinarith

/-- C73. The tolerance of `get_sym_group`, 1E-10, for crystals with ordinary numbers and supercells of at most a billion cells: errors smaller than 1E-10 change nothing,
if the rotations have no entries near one half. -/
theorem C73_shipped_sym_group (hP : (realMat P0).det ≠ 0) (hne : b0 ≠ []) (h : DecimalCrystal P0 b0 D) {δ : ℝ} (h0 : 0 ≤ δ) (hlt : δ < 1 / 10 ^ 10) {H : M3 ℤ}
    (hH : H = 1 ∨ 2 ≤ H.det) (hn' : H.det ≤ 10 ^ 9)
    (hhalf : ∀ R s, IsCrystalSym (ColLattice (realMat P0).transpose) ((realVecs b0).map (fun d => (1, d))) R s → ∀ i j, δ < |(|R i j| - 1 / 2)|) (arrows : Bool) :
    ∃ r, getSymGroup (realMat P0) (realVecs b0) H 3 (1 / 10 ^ 10) arrows = some r ∧
      ∀ r', getSymGroupN δ (realMat P0) (realVecs b0) H (1 / 10 ^ 10) arrows r' ↔ r' = r := by
  refine C73_get_sym_group_same hP (by simpa [realVecs] using hne) h0 hlt (coarse_mono (decimal_coarse_le h) (by linarith) (by linarith)) hH ?_ hhalf arrows
  have : (H.det.toNat : ℝ) ≤ 10 ^ 9 := by
    have : H.det.toNat ≤ 10 ^ 9 := by omega
    exact_mod_cast this
  have hn0 : (0 : ℝ) ≤ (H.det.toNat : ℝ) := Nat.cast_nonneg _
  nlinarith

end

/-! ## Concrete crystals -/

theorem fcc_coarse {e : ℝ} (h0 : 0 < e) (h : e ≤ 11 / 10 ^ 8) : ∃ K K' g D, Coarse (realMat fccP0) [0] K K' g D e := by
  have := coarse_mono (decimal_coarse_le fcc_decimal) h0 h
  rw [realVecs_zero] at this
  exact ⟨_, _, _, _, this⟩

theorem fcc_usable : Usable (realMat fccP0) [0] [0] true := (cubic_usable fccP0_det fccP0_cubic (d := 0) (colLat_isSub _).zero true).1

/-- C73 for the face-centred cubic lattice: with errors of up to 1E-8, `get_HNFs` at its tolerance always lists one HNF of every class of superlattices
with four cells. -/
example {δ : ℝ} (h0 : 0 ≤ δ) (h1 : δ ≤ 1 / 10 ^ 8) : ∃ U, AlwaysReturns (getHNFsN δ 4 (realMat fccP0) [0] (1 / 10 ^ 7)) U ∧ U.Nodup ∧
    ∀ M : M3 ℤ, M.det = 4 ∨ M.det = -4 → ∃! u, u ∈ U ∧ ∃ R s,
        IsCrystalSym (ColLattice (realMat fccP0).transpose) ([0].map (fun d => (1, d))) R s ∧
        ColLattice (R * ((realMat fccP0).transpose * M.map (fun x => (x : ℝ)))) = ColLattice ((realMat fccP0).transpose * u.map (fun x => (x : ℝ))) := by
  obtain ⟨K, K', g, D, h⟩ := fcc_coarse (e := 1 / 10 ^ 7 + δ) (by positivity) (by linarith)
  obtain ⟨U, r1, r2, -, r4⟩ := C73_get_HNFs fccP0_det (bas := [0]) (cell := [0]) (by simp) fcc_usable.reps fcc_usable.distinct (by
    intro R s hs d hd
    refine ⟨0, by simp, ?_⟩
    rw [List.mem_singleton] at hd
    subst hd
    rw [Matrix.mulVec_zero, zero_add, sub_zero]
    exact ((one_atom_sym (colLat_isSub _).zero R s).mp hs).2.2) h0 (by linarith) h (n := 4) (by norm_num) (by norm_num; linarith)
  exact ⟨U, r1, r2, fun M hM => r4 M hM⟩

/-- C73 for the face-centred cubic lattice: with errors smaller than 1E-10, `get_sym_group` with arrows at its tolerance always returns a group, for every
supercell of two to 2^24 cells. -/
example {δ : ℝ} (h0 : 0 ≤ δ) (h1 : δ < 1 / 10 ^ 10) (H : M3 ℤ) (hH : 2 ≤ H.det) (hH' : H.det < 2 ^ 24) :
    ∃ G, AlwaysReturns (getSymGroupN δ (realMat fccP0) [0] H (1 / 10 ^ 10) true) G ∧ IsOpGroup (1 * H.det.toNat) 6 G := by
  obtain ⟨K, K', g, D, h⟩ := fcc_coarse (e := 1 / 10 ^ 10 + δ) (by positivity) (by linarith)
  obtain ⟨G, pos, r1, -, -, -, r5⟩ := C73_get_sym_group fccP0_det (bas := [0]) (cell := [0]) (by simp) fcc_usable.reps fcc_usable.distinct (Or.inr hH) hH'
    fcc_usable.conv true fcc_usable.turns h0 h1 h (by
      have : (H.det.toNat : ℝ) ≤ 2 ^ 24 := by
        have : H.det.toNat ≤ 2 ^ 24 := by omega
        exact_mod_cast this
      have hn0 : (0 : ℝ) ≤ (H.det.toNat : ℝ) := Nat.cast_nonneg _
      nlinarith) (fun h => by simp at h)
  exact ⟨G, r1, r5⟩

end Phenum
