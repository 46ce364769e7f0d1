import Verif.Props.Surface
/-
C53, C54, C55 for cubic crystals, and concrete cases.
-/
namespace Phenum
open Spec

/-- Integer solutions of `x² + y² + z² = 4`. -/
theorem four_squares {x y z : ℤ} (h : x * x + y * y + z * z = 4) :
    ((x = 2 ∨ x = -2) ∧ y = 0 ∧ z = 0) ∨ (x = 0 ∧ (y = 2 ∨ y = -2) ∧ z = 0) ∨ (x = 0 ∧ y = 0 ∧ (z = 2 ∨ z = -2)) := by
  have hx : -2 ≤ x ∧ x ≤ 2 := by constructor <;> nlinarith [mul_self_nonneg y, mul_self_nonneg z]
  have hy : -2 ≤ y ∧ y ≤ 2 := by constructor <;> nlinarith [mul_self_nonneg x, mul_self_nonneg z]
  have hz : -2 ≤ z ∧ z ≤ 2 := by constructor <;> nlinarith [mul_self_nonneg y, mul_self_nonneg x]
  obtain ⟨hx1, hx2⟩ := hx
  obtain ⟨hy1, hy2⟩ := hy
  obtain ⟨hz1, hz2⟩ := hz
  interval_cases x <;> interval_cases y <;> interval_cases z <;> simp_all

/-- A cubic lattice (simple, body-centred or face-centred) with lattice constant `a`: it contains the vectors of length
`a` along the axes, and all coordinates are multiples of `a / 2`. -/
structure IsCubic (a : ℝ) (Λ : Set V3) : Prop where
  pos : 0 < a
  ax0 : (![a, 0, 0] : V3) ∈ Λ
  ax1 : (![0, a, 0] : V3) ∈ Λ
  ax2 : (![0, 0, a] : V3) ∈ Λ
  half : ∀ v ∈ Λ, ∃ z : Fin 3 → ℤ, ∀ i, v i = a / 2 * z i

theorem orth_dot {R : M3 ℝ} (hR : R * R.transpose = 1) (v : V3) : R.mulVec v ⬝ᵥ R.mulVec v = v ⬝ᵥ v := by
  have h : R.transpose * R = 1 := mul_eq_one_comm.mp hR
  rw [Matrix.dotProduct_mulVec, ← Matrix.mulVec_transpose, Matrix.mulVec_mulVec, h, Matrix.one_mulVec]

/-- The rotations of a cubic lattice permute the six arrow directions. -/
theorem cubic_axis {a : ℝ} {Λ : Set V3} (hc : IsCubic a Λ) {w : V3} (hw : w ∈ Λ) (hn : w ⬝ᵥ w = a * a) :
    ∃ m b, IsArrowDir m b ∧ w = a • (fun i => ((b i : ℤ) : ℝ)) := by
  obtain ⟨z, hz⟩ := hc.half w hw
  have h4 : z 0 * z 0 + z 1 * z 1 + z 2 * z 2 = 4 := by
    have : (a / 2 * z 0) * (a / 2 * z 0) + (a / 2 * z 1) * (a / 2 * z 1) + (a / 2 * z 2) * (a / 2 * z 2) = a * a := by
      rw [← hn, ← hz, ← hz, ← hz]
      simp [dotProduct, Fin.sum_univ_three]
    have ha : a * a ≠ 0 := mul_ne_zero hc.pos.ne' hc.pos.ne'
    have h : (a * a) * ((z 0 * z 0 + z 1 * z 1 + z 2 * z 2 : ℤ) : ℝ) = (a * a) * 4 := by
      push_cast; linarith
    have := mul_left_cancel₀ ha h
    exact_mod_cast this
  have hw' : ∀ b : Fin 3 → ℤ, (∀ i, z i = 2 * b i) → w = a • (fun i => ((b i : ℤ) : ℝ)) := by
    intro b hb
    funext i
    rw [hz, hb]
    simp
    ring
  rcases four_squares h4 with ⟨h | h, h1, h2⟩ | ⟨h0, h | h, h2⟩ | ⟨h0, h1, h | h⟩
  · exact ⟨0, ![1, 0, 0], by simp [IsArrowDir], hw' _ (by intro i; fin_cases i <;> simp [*])⟩
  · exact ⟨1, ![-1, 0, 0], by simp [IsArrowDir], hw' _ (by intro i; fin_cases i <;> simp [*])⟩
  · exact ⟨2, ![0, 1, 0], by simp [IsArrowDir], hw' _ (by intro i; fin_cases i <;> simp [*])⟩
  · exact ⟨3, ![0, -1, 0], by simp [IsArrowDir], hw' _ (by intro i; fin_cases i <;> simp [*])⟩
  · exact ⟨4, ![0, 0, 1], by simp [IsArrowDir], hw' _ (by intro i; fin_cases i <;> simp [*])⟩
  · exact ⟨5, ![0, 0, -1], by simp [IsArrowDir], hw' _ (by intro i; fin_cases i <;> simp [*])⟩

theorem cubic_arrows {a : ℝ} {Λ : Set V3} (hc : IsCubic a Λ) (hΛ : IsSub Λ) {R : M3 ℝ} (hR : R * R.transpose = 1)
    (hL : R.mulVec '' Λ = Λ) {k : ℕ} {x : Fin 3 → ℤ} (hx : IsArrowDir k x) :
    ∃ m b, IsArrowDir m b ∧ R.mulVec (fun i => (x i : ℝ)) = (fun i => (b i : ℝ)) := by
  have hxΛ : (a • (fun i => (x i : ℝ)) : V3) ∈ Λ ∧ (fun i => (x i : ℝ)) ⬝ᵥ (fun i => (x i : ℝ)) = 1 := by
    have e0 : (![a, 0, 0] : V3) = a • ![1, 0, 0] := by funext i; fin_cases i <;> simp
    have e1 : (![0, a, 0] : V3) = a • ![0, 1, 0] := by funext i; fin_cases i <;> simp
    have e2 : (![0, 0, a] : V3) = a • ![0, 0, 1] := by funext i; fin_cases i <;> simp
    have h0 := hc.ax0
    have h1 := hc.ax1
    have h2 := hc.ax2
    rw [e0] at h0; rw [e1] at h1; rw [e2] at h2
    have n0 := hΛ.neg _ h0
    have n1 := hΛ.neg _ h1
    have n2 := hΛ.neg _ h2
    rw [← smul_neg] at n0 n1 n2
    unfold IsArrowDir at hx
    rcases hx with h | h | h | h | h | h <;> rw [h.2] <;> refine ⟨?_, by simp [dotProduct, Fin.sum_univ_three]⟩
    · convert h0 using 2; funext i; fin_cases i <;> simp
    · convert n0 using 2; funext i; fin_cases i <;> simp
    · convert h1 using 2; funext i; fin_cases i <;> simp
    · convert n1 using 2; funext i; fin_cases i <;> simp
    · convert h2 using 2; funext i; fin_cases i <;> simp
    · convert n2 using 2; funext i; fin_cases i <;> simp
  have hm := image_maps hL hxΛ.1
  have hn : R.mulVec (a • (fun i => (x i : ℝ)) : V3) ⬝ᵥ R.mulVec (a • (fun i => (x i : ℝ)) : V3) = a * a := by
    rw [orth_dot hR, smul_dotProduct, dotProduct_smul, hxΛ.2]
    simp
  obtain ⟨m, b, hb, e⟩ := cubic_axis hc hm hn
  refine ⟨m, b, hb, ?_⟩
  rw [Matrix.mulVec_smul] at e
  exact smul_right_injective _ hc.pos.ne' e

theorem roundsTo_self (z : ℤ) : RoundsTo (z : ℝ) z := by
  left; simp

theorem arrows_of_maps {R : M3 ℝ} (hR : R * R.transpose = 1) (arrows : Bool)
    (h : ∀ k x, IsArrowDir k x → ∃ m b, IsArrowDir m b ∧ R.mulVec (fun i => (x i : ℝ)) = (fun i => (b i : ℝ))) :
    ∀ k a, IsArrowDir k a → ∃ m b, IsArrowDir m b ∧ if arrows then R.mulVec (fun i => (a i : ℝ)) = (fun i => (b i : ℝ))
        else ∀ i, RoundsTo (R.transpose.mulVec (fun i => (b i : ℝ)) i) (a i) := by
  intro k a ha
  obtain ⟨m, b, hb, e⟩ := h k a ha
  refine ⟨m, b, hb, ?_⟩
  cases arrows
  · simp only [Bool.false_eq_true, if_false]
    intro i
    rw [← e, Matrix.mulVec_mulVec, mul_eq_one_comm.mp hR, Matrix.one_mulVec]
    exact roundsTo_self _
  · simpa using e

/-- C53. Simple cubic, body-centred and face-centred cubic lattices with one atom per cell (at a lattice point): for
every supercell of fewer than 2^24 cells and every sufficiently small tolerance `get_sym_group` succeeds, and its result
is exactly the group of permutations of the sites of the supercell (and arrow directions) induced by the symmetries of the
lattice that map the superlattice to itself. -/
theorem C53_cubic (P : M3 ℝ) (hP : P.det ≠ 0) (a : ℝ) (hcub : IsCubic a (ColLattice P.transpose))
    (d : V3) (hd : d ∈ ColLattice P.transpose) (H : M3 ℤ) (hH : 1 ≤ H.det) (hH' : H.det < 2 ^ 24) (arrows : Bool)
    (latDim : ℕ) (hdim : latDim ≠ 2) :
    ∃ e > 0, ∀ eps, 0 < eps → eps < e → ∃ G pos, getSymGroup P [d] H latDim eps arrows = some (.ok G) ∧
      (∀ k, k < H.det.toNat → pos k ∈ ColLattice P.transpose) ∧
      (∀ l ∈ ColLattice P.transpose, ∃! k, k < H.det.toNat ∧
        l - pos k ∈ ColLattice (P.transpose * H.map (fun x => (x : ℝ)))) ∧
      (∀ g, g ∈ G ↔ ∃ (R : M3 ℝ) (s : V3), R * R.transpose = 1 ∧ R.mulVec '' ColLattice P.transpose = ColLattice P.transpose ∧
        s ∈ ColLattice P.transpose ∧
        ColLattice (R * (P.transpose * H.map (fun x => (x : ℝ)))) = ColLattice (P.transpose * H.map (fun x => (x : ℝ))) ∧
        Induces (ColLattice (P.transpose * H.map (fun x => (x : ℝ)))) H.det.toNat pos R s g.1 ∧
        if arrows then TurnsArrows R g.2 else g.2 = List.range 6) ∧
      IsOpGroup H.det.toNat 6 G :=
  C53_one_atom P hP d hd H hH hH' arrows
    (fun _ hR hL => arrows_of_maps hR arrows (fun _ _ hx => cubic_arrows hcub (colLat_isSub _) hR hL hx)) latDim hdim

/-! Concrete cubic lattices. -/

/-- primitive vectors of the face-centred cubic lattice (rows) -/
noncomputable def fccP : M3 ℝ := !![0, 1 / 2, 1 / 2; 1 / 2, 0, 1 / 2; 1 / 2, 1 / 2, 0]

/-- primitive vectors of the body-centred cubic lattice (rows) -/
noncomputable def bccP : M3 ℝ := !![-1 / 2, 1 / 2, 1 / 2; 1 / 2, -1 / 2, 1 / 2; 1 / 2, 1 / 2, -1 / 2]

theorem fcc_cubic : IsCubic 1 (ColLattice fccP.transpose) := by
  refine ⟨one_pos, ⟨![-1, 1, 1], ?_⟩, ⟨![1, -1, 1], ?_⟩, ⟨![1, 1, -1], ?_⟩, ?_⟩
  · funext i; fin_cases i <;> simp [fccP, Matrix.mulVec, dotProduct, Fin.sum_univ_three] <;> norm_num
  · funext i; fin_cases i <;> simp [fccP, Matrix.mulVec, dotProduct, Fin.sum_univ_three] <;> norm_num
  · funext i; fin_cases i <;> simp [fccP, Matrix.mulVec, dotProduct, Fin.sum_univ_three] <;> norm_num
  · rintro _ ⟨x, rfl⟩
    refine ⟨![x 1 + x 2, x 0 + x 2, x 0 + x 1], fun i => ?_⟩
    fin_cases i <;> simp [fccP, Matrix.mulVec, dotProduct, Fin.sum_univ_three] <;> ring

theorem bcc_cubic : IsCubic 1 (ColLattice bccP.transpose) := by
  refine ⟨one_pos, ⟨![0, 1, 1], ?_⟩, ⟨![1, 0, 1], ?_⟩, ⟨![1, 1, 0], ?_⟩, ?_⟩
  · funext i; fin_cases i <;> simp [bccP, Matrix.mulVec, dotProduct, Fin.sum_univ_three] <;> norm_num
  · funext i; fin_cases i <;> simp [bccP, Matrix.mulVec, dotProduct, Fin.sum_univ_three] <;> norm_num
  · funext i; fin_cases i <;> simp [bccP, Matrix.mulVec, dotProduct, Fin.sum_univ_three] <;> norm_num
  · rintro _ ⟨x, rfl⟩
    refine ⟨![-x 0 + x 1 + x 2, x 0 - x 1 + x 2, x 0 + x 1 - x 2], fun i => ?_⟩
    fin_cases i <;> simp [bccP, Matrix.mulVec, dotProduct, Fin.sum_univ_three] <;> ring

theorem sc_cubic : IsCubic 1 (ColLattice (1 : M3 ℝ).transpose) := by
  rw [Matrix.transpose_one]
  refine ⟨one_pos, ⟨![1, 0, 0], ?_⟩, ⟨![0, 1, 0], ?_⟩, ⟨![0, 0, 1], ?_⟩, ?_⟩
  · rw [Matrix.one_mulVec]; funext i; fin_cases i <;> simp
  · rw [Matrix.one_mulVec]; funext i; fin_cases i <;> simp
  · rw [Matrix.one_mulVec]; funext i; fin_cases i <;> simp
  · rintro _ ⟨x, rfl⟩
    refine ⟨fun i => 2 * x i, fun i => ?_⟩
    rw [Matrix.one_mulVec]
    push_cast; ring

theorem fcc_det : fccP.det ≠ 0 := by
  rw [fccP, Matrix.det_fin_three]; simp

theorem bcc_det : bccP.det ≠ 0 := by
  rw [bccP, Matrix.det_fin_three]; simp; norm_num

/-- a face-centred cubic crystal and a supercell of 6 cells that is not symmetric -/
example : ∃ e > 0, ∀ eps, 0 < eps → eps < e → ∃ G, getSymGroup fccP [0] !![1, 0, 0; 0, 2, 0; 1, 2, 3] 3 eps true = some (.ok G) ∧
    IsOpGroup 6 6 G := by
  have hdet : (!![1, 0, 0; 0, 2, 0; 1, 2, 3] : M3 ℤ).det = 6 := by decide +kernel
  obtain ⟨e, he, h⟩ := C53_cubic fccP fcc_det 1 fcc_cubic 0 (colLat_zero _) !![1, 0, 0; 0, 2, 0; 1, 2, 3] (by rw [hdet]; norm_num)
    (by rw [hdet]; norm_num) true 3 (by norm_num)
  refine ⟨e, he, fun eps h0 h1 => ?_⟩
  obtain ⟨G, pos, e1, -, -, -, hG⟩ := h eps h0 h1
  rw [hdet] at hG
  exact ⟨G, e1, hG⟩

/-- the fourfold rotation about the third axis -/
def rot4 : M3 ℝ := !![0, -1, 0; 1, 0, 0; 0, 0, 1]

theorem rot4_orth : rot4 * rot4.transpose = 1 := by
  ext i j; fin_cases i <;> fin_cases j <;> simp [rot4, Matrix.mul_apply, Fin.sum_univ_three]

theorem rot4_mulVec (v : V3) : rot4.mulVec v = ![-v 1, v 0, v 2] := by
  funext i
  fin_cases i <;> simp [rot4, Matrix.mulVec, dotProduct, Fin.sum_univ_three]

theorem rot4T_mulVec (v : V3) : rot4.transpose.mulVec v = ![v 1, -v 0, v 2] := by
  funext i
  fin_cases i <;> simp [rot4, Matrix.mulVec, dotProduct, Fin.sum_univ_three]

theorem rot4_sc : rot4.mulVec '' ColLattice (1 : M3 ℝ).transpose = ColLattice (1 : M3 ℝ).transpose := by
  rw [Matrix.transpose_one]
  apply Set.Subset.antisymm
  · rintro _ ⟨_, ⟨x, rfl⟩, rfl⟩
    refine ⟨![-x 1, x 0, x 2], ?_⟩
    rw [Matrix.one_mulVec, Matrix.one_mulVec]
    funext i
    fin_cases i <;> simp [rot4, Matrix.mulVec, dotProduct, Fin.sum_univ_three]
  · rintro _ ⟨x, rfl⟩
    refine ⟨fun i => ((![x 1, -x 0, x 2] i : ℤ) : ℝ), ⟨_, by rw [Matrix.one_mulVec]⟩, ?_⟩
    rw [Matrix.one_mulVec]
    funext i
    fin_cases i <;> simp [rot4, Matrix.mulVec, dotProduct, Fin.sum_univ_three]

/-- C53, the failure for a concrete crystal: one atom per cell of the simple cubic lattice, at (1/4, 0, 0) instead of the
origin. -/
theorem C53_exits_one_atom : ∃ e > 0, ∀ eps, 0 < eps → eps < e → ∀ latDim, latDim ≠ 2 →
    (∀ H arrows, getSymGroup 1 [![1 / 4, 0, 0]] H latDim eps arrows = some (.error .sysExit)) ∧
    (∀ n, getHNFs n 1 [![1 / 4, 0, 0]] latDim eps = some (.error .sysExit)) := by
  have hΛ := colLat_isSub (1 : M3 ℝ).transpose
  refine C53_exits 1 (by simp) [![1 / 4, 0, 0]] [![1 / 4, 0, 0]] ?_ rot4 ![1 / 4, -1 / 4, 0] ![1 / 4, 0, 0] ?_ (by simp) ?_
  · refine List.Forall₂.cons ⟨by rw [sub_self]; exact hΛ.zero, ![1 / 4, 0, 0], fun i => ?_, ?_⟩ .nil
    · fin_cases i <;> simp <;> norm_num
    · simp
  · rw [crystalSym_iff hΛ]
    refine ⟨rot4_orth, rot4_sc, ?_⟩
    intro b hb
    simp only [List.map_cons, List.map_nil, List.mem_singleton] at hb
    subst hb
    refine ⟨(1, ![1 / 4, 0, 0]), by simp, rfl, ?_⟩
    convert hΛ.zero using 1
    simp only
    rw [rot4_mulVec]
    funext i
    fin_cases i <;> simp <;> norm_num
  · intro c hc
    simp only [List.mem_singleton] at hc
    subst hc
    rintro ⟨x, hx⟩
    rw [rot4T_mulVec] at hx
    have := congrFun hx 1
    simp at this
    have h2 : ((2 * x 1 : ℤ) : ℝ) = ((-1 : ℤ) : ℝ) := by push_cast; linarith
    have h3 : 2 * x 1 = -1 := by exact_mod_cast h2
    omega

/-- C54. One atom per cell at a lattice point of any lattice: `get_HNFs` lists exactly one HNF of every class of
superlattices of index `n` under the symmetries of the lattice. -/
theorem C54_one_atom (P : M3 ℝ) (hP : P.det ≠ 0) (d : V3) (hd : d ∈ ColLattice P.transpose) (n : ℕ) (hn : 1 ≤ n)
    (latDim : ℕ) (hdim : latDim ≠ 2) :
    ∃ e > 0, ∀ eps, 0 < eps → eps < e → ∃ U, getHNFs n P [d] latDim eps = some (.ok U) ∧
      U.Nodup ∧ (∀ u ∈ U, ∃ a b c d e f : ℕ, a * c * f = n ∧ b < c ∧ d < f ∧ e < f ∧
        u = !![(a : ℤ), 0, 0; (b : ℤ), (c : ℤ), 0; (d : ℤ), (e : ℤ), (f : ℤ)]) ∧
      ∀ M : M3 ℤ, M.det = n ∨ M.det = -n → ∃! u, u ∈ U ∧ ∃ R : M3 ℝ,
        R * R.transpose = 1 ∧ R.mulVec '' ColLattice P.transpose = ColLattice P.transpose ∧
        ColLattice (R * (P.transpose * M.map (fun x => (x : ℝ)))) = ColLattice (P.transpose * u.map (fun x => (x : ℝ))) := by
  have hΛ := colLat_isSub P.transpose
  have hsym : ∀ R s, IsCrystalSym (ColLattice P.transpose) ([d].map (fun d => (1, d))) R s ↔
      R * R.transpose = 1 ∧ R.mulVec '' ColLattice P.transpose = ColLattice P.transpose ∧ s ∈ ColLattice P.transpose := by
    intro R s
    rw [crystalSym_iff hΛ]
    constructor
    · rintro ⟨h1, h2, h3⟩
      refine ⟨h1, h2, ?_⟩
      obtain ⟨c, hc, -, h⟩ := h3 (1, d) (by simp)
      simp only [List.map_cons, List.map_nil, List.mem_singleton] at hc
      subst hc
      have := hΛ.add _ (hΛ.add _ h _ (hΛ.neg _ (image_maps h2 hd))) _ hd
      convert this using 1
      simp only
      abel
    · rintro ⟨h1, h2, h3⟩
      refine ⟨h1, h2, ?_⟩
      intro b hb
      simp only [List.map_cons, List.map_nil, List.mem_singleton] at hb
      subst hb
      refine ⟨(1, d), by simp, rfl, ?_⟩
      exact colLat_sub (hΛ.add _ (image_maps h2 hd) _ h3) hd
  obtain ⟨e, he, h⟩ := C54_get_HNFs P hP [d] [0] (by simp)
    (List.Forall₂.cons ⟨by rw [sub_zero]; exact hd, 0, fun i => ⟨le_refl _, one_pos⟩, by rw [Matrix.mulVec_zero]⟩ .nil)
    (by intro i j hi hj _; simp at hi hj; omega)
    (by
      intro R s h x hx
      simp only [List.mem_singleton] at hx
      subst hx
      exact ⟨0, by simp, by simpa using ((hsym R s).mp h).2.2⟩) n hn latDim hdim
  refine ⟨e, he, fun eps h0 h1 => ?_⟩
  obtain ⟨U, h1, h2, h3, h4⟩ := h eps h0 h1
  refine ⟨U, h1, h2, h3, fun M hM => ?_⟩
  obtain ⟨u, ⟨hu, R, s, hR, hL⟩, hun⟩ := h4 M hM
  refine ⟨u, ⟨hu, R, ((hsym R s).mp hR).1, ((hsym R s).mp hR).2.1, hL⟩, ?_⟩
  rintro v ⟨hv, R', a, b, hL'⟩
  exact hun v ⟨hv, R', 0, (hsym R' 0).mpr ⟨a, b, hΛ.zero⟩, hL'⟩

/-- index 4 in the body-centred cubic lattice -/
example : ∃ e > 0, ∀ eps, 0 < eps → eps < e → ∃ U, getHNFs 4 bccP [0] 3 eps = some (.ok U) ∧ U.Nodup ∧ U ≠ [] := by
  obtain ⟨e, he, h⟩ := C54_one_atom bccP bcc_det 0 (colLat_zero _) 4 (by norm_num) 3 (by norm_num)
  refine ⟨e, he, fun eps h0 h1 => ?_⟩
  obtain ⟨U, e1, h2, -, h4⟩ := h eps h0 h1
  refine ⟨U, e1, h2, ?_⟩
  rintro rfl
  obtain ⟨u, ⟨hu, -⟩, -⟩ := h4 !![4, 0, 0; 0, 1, 0; 0, 0, 1] (Or.inl (by decide +kernel))
  simp at hu

theorem rot4_not_surface : ¬ IsSurfaceOp rot4 := by
  rintro (h | h)
  · have := congrFun h 0
    simp [rot4, axis0, Matrix.mulVec, dotProduct, Fin.sum_univ_three] at this
  · have := congrFun h 0
    simp [rot4, axis0, Matrix.mulVec, dotProduct, Fin.sum_univ_three] at this

/-- C55, the failure for a concrete surface cell: the simple cubic lattice with one atom. -/
theorem C55_surface_fails_cubic :
    (∀ k, 1 ≤ k → ∃ e > 0, ∀ eps, 0 < eps → eps < e → ∀ arrows,
      getSymGroup 1 [0] (kCube k) 2 eps arrows = some (.error .indexError)) ∧
    ∃ e > 0, ∀ eps, 0 < eps → eps < e → getHNFs 1 1 [0] 2 eps = some (.error .indexError) :=
  C55_surface_fails 1 (by simp) (by simp) (by simp) (by simp) (by simp) 0 (colLat_zero _) rot4 rot4_orth rot4_sc rot4_not_surface

/-- C53. A crystal all of whose symmetries have rotations of order one or two (triclinic, monoclinic, orthorhombic), with
any number of atoms in any places: the result of `get_sym_group` is exact. -/
theorem C53_order_two (P : M3 ℝ) (hP : P.det ≠ 0) (bas cell : List V3) (hne : bas ≠ [])
    (hcell : List.Forall₂ (fun b c => b - c ∈ ColLattice P.transpose ∧ InCell P c) bas cell)
    (hd : ∀ i j, i < cell.length → j < cell.length → cell.getD i 0 - cell.getD j 0 ∈ ColLattice P.transpose → i = j)
    (H : M3 ℤ) (hH : 1 ≤ H.det) (hH' : H.det < 2 ^ 24)
    (hconv : ∀ R s, IsCrystalSym (ColLattice P.transpose) (bas.map (fun d => (1, d))) R s → R * R = 1)
    (arrows : Bool)
    (harr : ∀ R s, IsCrystalSym (ColLattice P.transpose) (bas.map (fun d => (1, d))) R s → ∀ k a, IsArrowDir k a →
      ∃ m b, IsArrowDir m b ∧ R.mulVec (fun i => (a i : ℝ)) = (fun i => (b i : ℝ)))
    (latDim : ℕ) (hdim : latDim ≠ 2) :
    ∃ e > 0, ∀ eps, 0 < eps → eps < e → ∃ G pos, getSymGroup P bas H latDim eps arrows = some (.ok G) ∧
      (∀ k, k < cell.length * H.det.toNat → pos k - cell.getD (k / H.det.toNat) 0 ∈ ColLattice P.transpose) ∧
      (∀ a, a < cell.length → ∀ l ∈ ColLattice P.transpose, ∃! k, k < cell.length * H.det.toNat ∧
        cell.getD a 0 + l - pos k ∈ ColLattice (P.transpose * H.map (fun x => (x : ℝ)))) ∧
      (∀ g, g ∈ G ↔ ∃ R s, IsCrystalSym (ColLattice P.transpose) (bas.map (fun d => (1, d))) R s ∧
        ColLattice (R * (P.transpose * H.map (fun x => (x : ℝ)))) = ColLattice (P.transpose * H.map (fun x => (x : ℝ))) ∧
        Induces (ColLattice (P.transpose * H.map (fun x => (x : ℝ)))) (cell.length * H.det.toNat) pos R s g.1 ∧
        if arrows then TurnsArrows R g.2 else g.2 = List.range 6) ∧
      IsOpGroup (cell.length * H.det.toNat) 6 G := by
  obtain ⟨e, he, h⟩ := C53_sym_group P hP bas cell hne hcell hd H hH hH'
    (by
      intro R s hR
      refine ⟨0, colLat_zero _, fun d _ => ?_⟩
      have h1 := hconv R s hR
      have h2 := hR.orth
      have : R.transpose = R := by
        calc R.transpose = R * R * R.transpose := by rw [h1, one_mul]
          _ = R := by rw [mul_assoc, h2, mul_one]
      rw [this, add_zero])
    arrows (fun R s hR => arrows_of_maps hR.orth arrows (harr R s hR)) latDim hdim
  refine ⟨e, he, fun eps h0 h1 => ?_⟩
  obtain ⟨G, pos, h1, h2, h3, h4, h5, -⟩ := h eps h0 h1
  exact ⟨G, pos, h1, h2, h3, h4, h5⟩

/-! A concrete orthorhombic crystal with two atoms. -/

/-- lattice vectors 1, 2, 4 along the axes -/
def orthoP : M3 ℝ := !![1, 0, 0; 0, 2, 0; 0, 0, 4]

theorem ortho_mulVec (v : V3) : orthoP.transpose.mulVec v = ![v 0, 2 * v 1, 4 * v 2] := by
  funext i
  fin_cases i <;> simp [orthoP, Matrix.mulVec, dotProduct, Fin.sum_univ_three]

theorem ortho_diag {R : M3 ℝ} (hR : R * R.transpose = 1)
    (hL : R.mulVec '' ColLattice orthoP.transpose = ColLattice orthoP.transpose) :
    ∃ s : Fin 3 → ℤ, (∀ i, s i = 1 ∨ s i = -1) ∧ R = Matrix.diagonal (fun i => (s i : ℝ)) := by
  have hRT : R.transpose * R = 1 := mul_eq_one_comm.mp hR
  have hdot : ∀ i j, R 0 i * R 0 j + R 1 i * R 1 j + R 2 i * R 2 j = if i = j then 1 else 0 := by
    intro i j
    have := congrFun (congrFun hRT i) j
    rw [Matrix.mul_apply, Fin.sum_univ_three, Matrix.one_apply] at this
    simpa using this
  have hcol : ∀ x : Fin 3 → ℤ, ∃ y : Fin 3 → ℤ, ![(y 0 : ℝ), 2 * y 1, 4 * y 2] = R.mulVec ![(x 0 : ℝ), 2 * x 1, 4 * x 2] := by
    intro x
    have hx : (![(x 0 : ℝ), 2 * x 1, 4 * x 2] : V3) ∈ ColLattice orthoP.transpose := ⟨x, by rw [ortho_mulVec]⟩
    obtain ⟨y, hy⟩ := image_maps hL hx
    rw [ortho_mulVec] at hy
    exact ⟨y, hy⟩
  have hmv : ∀ v : V3, R.mulVec v = ![R 0 0 * v 0 + R 0 1 * v 1 + R 0 2 * v 2, R 1 0 * v 0 + R 1 1 * v 1 + R 1 2 * v 2,
      R 2 0 * v 0 + R 2 1 * v 1 + R 2 2 * v 2] := by
    intro v
    funext i
    fin_cases i <;> simp [Matrix.mulVec, dotProduct, Fin.sum_univ_three]
  obtain ⟨x, hx⟩ := hcol ![1, 0, 0]
  obtain ⟨y, hy⟩ := hcol ![0, 1, 0]
  obtain ⟨z, hz⟩ := hcol ![0, 0, 1]
  rw [hmv] at hx hy hz
  have x0 : R 0 0 = x 0 := by simpa using (congrFun hx 0).symm
  have x1 : R 1 0 = 2 * x 1 := by simpa using (congrFun hx 1).symm
  have x2 : R 2 0 = 4 * x 2 := by simpa using (congrFun hx 2).symm
  have y0 : 2 * R 0 1 = y 0 := by have := congrFun hy 0; simp at this; linarith
  have y1 : R 1 1 = y 1 := by have := congrFun hy 1; simp at this; linarith
  have y2 : R 2 1 = 2 * y 2 := by have := congrFun hy 2; simp at this; linarith
  have z0 : 4 * R 0 2 = z 0 := by have := congrFun hz 0; simp at this; linarith
  have z1 : 2 * R 1 2 = z 1 := by have := congrFun hz 1; simp at this; linarith
  have z2 : R 2 2 = z 2 := by have := congrFun hz 2; simp at this; linarith
  have hxx : x 0 * x 0 + 4 * (x 1 * x 1) + 16 * (x 2 * x 2) = 1 := by
    have := hdot 0 0
    rw [x0, x1, x2] at this
    simp only [if_true] at this
    have h : ((x 0 * x 0 + 4 * (x 1 * x 1) + 16 * (x 2 * x 2) : ℤ) : ℝ) = ((1 : ℤ) : ℝ) := by push_cast; linarith
    exact_mod_cast h
  have hx1 : x 1 = 0 := by nlinarith [mul_self_nonneg (x 0), mul_self_nonneg (x 1), mul_self_nonneg (x 2)]
  have hx2 : x 2 = 0 := by nlinarith [mul_self_nonneg (x 0), mul_self_nonneg (x 1), mul_self_nonneg (x 2)]
  have hx0 : x 0 * x 0 = 1 := by rw [hx1, hx2] at hxx; linarith
  rw [hx1] at x1; rw [hx2] at x2
  simp at x1 x2
  have hx0' : R 0 0 ≠ 0 := by
    intro h
    rw [h] at x0
    have : x 0 = 0 := by exact_mod_cast x0.symm
    rw [this] at hx0
    omega
  have hy0 : R 0 1 = 0 := by
    have := hdot 0 1
    rw [x1, x2] at this
    simp at this
    rcases this with h | h
    · exact absurd h hx0'
    · exact h
  have hyy : y 1 * y 1 + 4 * (y 2 * y 2) = 1 := by
    have := hdot 1 1
    rw [hy0, y1, y2] at this
    simp only [if_true] at this
    have h : ((y 1 * y 1 + 4 * (y 2 * y 2) : ℤ) : ℝ) = ((1 : ℤ) : ℝ) := by push_cast; linarith
    exact_mod_cast h
  have hy2 : y 2 = 0 := by nlinarith [mul_self_nonneg (y 1), mul_self_nonneg (y 2)]
  have hy1 : y 1 * y 1 = 1 := by rw [hy2] at hyy; linarith
  rw [hy2] at y2
  simp at y2
  have hy1' : R 1 1 ≠ 0 := by
    intro h
    rw [h] at y1
    have : y 1 = 0 := by exact_mod_cast y1.symm
    rw [this] at hy1
    omega
  have hz0 : R 0 2 = 0 := by
    have := hdot 0 2
    rw [x1, x2] at this
    simp at this
    rcases this with h | h
    · exact absurd h hx0'
    · exact h
  have hz1 : R 1 2 = 0 := by
    have := hdot 1 2
    rw [hy0, y2] at this
    simp at this
    rcases this with h | h
    · exact absurd h hy1'
    · exact h
  have hz2 : z 2 * z 2 = 1 := by
    have := hdot 2 2
    rw [hz0, hz1, z2] at this
    simp only [if_true] at this
    have h : ((z 2 * z 2 : ℤ) : ℝ) = ((1 : ℤ) : ℝ) := by push_cast; linarith
    exact_mod_cast h
  refine ⟨![x 0, y 1, z 2], ?_, ?_⟩
  · intro i
    fin_cases i
    · exact Int.isUnit_eq_one_or (IsUnit.of_mul_eq_one _ hx0)
    · exact Int.isUnit_eq_one_or (IsUnit.of_mul_eq_one _ hy1)
    · exact Int.isUnit_eq_one_or (IsUnit.of_mul_eq_one _ hz2)
  · ext i j
    fin_cases i <;> fin_cases j <;> simp [x0, x1, x2, hy0, y1, y2, hz0, hz1, z2]

example : ∃ e > 0, ∀ eps, 0 < eps → eps < e → ∃ G,
    getSymGroup orthoP [0, ![1 / 4, 1, 1]] !![2, 0, 0; 1, 2, 0; 0, 1, 2] 3 eps true = some (.ok G) ∧ IsOpGroup 16 6 G := by
  have hdet : (!![2, 0, 0; 1, 2, 0; 0, 1, 2] : M3 ℤ).det = 8 := by decide +kernel
  have hΛ := colLat_isSub orthoP.transpose
  have hnot : (![1 / 4, 1, 1] : V3) ∉ ColLattice orthoP.transpose := by
    rintro ⟨x, hx⟩
    rw [ortho_mulVec] at hx
    have := congrFun hx 1
    simp at this
    have : ((2 * x 1 : ℤ) : ℝ) = ((1 : ℤ) : ℝ) := by push_cast; exact this
    have : 2 * x 1 = 1 := by exact_mod_cast this
    omega
  obtain ⟨e, he, h⟩ := C53_order_two orthoP (by rw [orthoP, Matrix.det_fin_three]; simp) [0, ![1 / 4, 1, 1]] [0, ![1 / 4, 1, 1]]
    (by simp)
    (.cons ⟨by rw [sub_self]; exact hΛ.zero, 0, fun i => ⟨le_refl _, one_pos⟩, by rw [Matrix.mulVec_zero]⟩
      (.cons ⟨by rw [sub_self]; exact hΛ.zero, ![1 / 4, 1 / 2, 1 / 4], by
        intro i; fin_cases i <;> simp <;> norm_num, by
        rw [ortho_mulVec]; funext i; fin_cases i <;> simp⟩ .nil))
    (by
      intro i j hi hj h
      simp only [List.length_cons, List.length_nil] at hi hj
      have hi' : i = 0 ∨ i = 1 := by omega
      have hj' : j = 0 ∨ j = 1 := by omega
      rcases hi' with rfl | rfl <;> rcases hj' with rfl | rfl
      · rfl
      · simp only [List.getD_cons_zero, List.getD_cons_succ, zero_sub] at h
        exact absurd (by simpa using hΛ.neg _ h) hnot
      · simp only [List.getD_cons_zero, List.getD_cons_succ, sub_zero] at h
        exact absurd h hnot
      · rfl)
    !![2, 0, 0; 1, 2, 0; 0, 1, 2] (by rw [hdet]; norm_num) (by rw [hdet]; norm_num)
    (by
      intro R s hR
      obtain ⟨t, ht, rfl⟩ := ortho_diag hR.orth hR.lattice
      rw [Matrix.diagonal_mul_diagonal, ← Matrix.diagonal_one]
      congr 1
      funext i
      rcases ht i with h | h <;> rw [h] <;> norm_num)
    true
    (by
      intro R s hR k a ha
      obtain ⟨t, ht, rfl⟩ := ortho_diag hR.orth hR.lattice
      have hv : (Matrix.diagonal (fun i => (t i : ℝ))).mulVec (fun i => (a i : ℝ)) = fun i => ((t i * a i : ℤ) : ℝ) := by
        funext i
        rw [Matrix.mulVec_diagonal]
        push_cast; rfl
      rw [hv]
      have : ∃ m, IsArrowDir m (fun i => t i * a i) := by
        unfold IsArrowDir at ha
        rcases ha with h | h | h | h | h | h <;> rw [h.2]
        · rcases ht 0 with e | e
          · exact ⟨0, by left; refine ⟨rfl, ?_⟩; funext i; fin_cases i <;> simp [e]⟩
          · exact ⟨1, by right; left; refine ⟨rfl, ?_⟩; funext i; fin_cases i <;> simp [e]⟩
        · rcases ht 0 with e | e
          · exact ⟨1, by right; left; refine ⟨rfl, ?_⟩; funext i; fin_cases i <;> simp [e]⟩
          · exact ⟨0, by left; refine ⟨rfl, ?_⟩; funext i; fin_cases i <;> simp [e]⟩
        · rcases ht 1 with e | e
          · exact ⟨2, by right; right; left; refine ⟨rfl, ?_⟩; funext i; fin_cases i <;> simp [e]⟩
          · exact ⟨3, by right; right; right; left; refine ⟨rfl, ?_⟩; funext i; fin_cases i <;> simp [e]⟩
        · rcases ht 1 with e | e
          · exact ⟨3, by right; right; right; left; refine ⟨rfl, ?_⟩; funext i; fin_cases i <;> simp [e]⟩
          · exact ⟨2, by right; right; left; refine ⟨rfl, ?_⟩; funext i; fin_cases i <;> simp [e]⟩
        · rcases ht 2 with e | e
          · exact ⟨4, by right; right; right; right; left; refine ⟨rfl, ?_⟩; funext i; fin_cases i <;> simp [e]⟩
          · exact ⟨5, by right; right; right; right; right; refine ⟨rfl, ?_⟩; funext i; fin_cases i <;> simp [e]⟩
        · rcases ht 2 with e | e
          · exact ⟨5, by right; right; right; right; right; refine ⟨rfl, ?_⟩; funext i; fin_cases i <;> simp [e]⟩
          · exact ⟨4, by right; right; right; right; left; refine ⟨rfl, ?_⟩; funext i; fin_cases i <;> simp [e]⟩
      obtain ⟨m, hm⟩ := this
      exact ⟨m, _, hm, rfl⟩)
    3 (by norm_num)
  refine ⟨e, he, fun eps h0 h1 => ?_⟩
  obtain ⟨G, pos, e1, -, -, -, hG⟩ := h eps h0 h1
  rw [hdet] at hG
  exact ⟨G, e1, hG⟩

end Phenum
