import Verif.Proof.Tolerance
import Verif.Props.ProgramPoscar
import Verif.Props.ProgramExamples
import Verif.Props.PointGroup
/-
C63: the tolerances of the program. The theorems about symmetries and about complete runs, for the tolerances that are written in the
code instead of sufficiently small ones.
-/
namespace Phenum
open Spec

/-- The tolerances in the code: `get_HNFs` (HNFs.py 140), `get_sym_group` (grouptheory.py 732), `get_concs_for_size` (symmetry.py 32). -/
noncomputable def Spec.shippedTol : Tol := ⟨1 / 10 ^ 7, 1 / 10 ^ 10, 1 / 10 ^ 10⟩

/-- A crystal with ordinary numbers: the components of the lattice vectors (rows of `P0`) have at most two decimals and are at most 10; the
lattice coordinates of the atoms are multiples of `1/D` for a `D` of at most a million, and at most 10000 times the volume of the cell. -/
structure Spec.DecimalCrystal (P0 : Matrix (Fin 3) (Fin 3) ℚ) (b0 : List (Fin 3 → ℚ)) (D : ℕ) : Prop where
  size : ∀ i j, |P0 i j| ≤ 10
  decimals : ∀ i j, ∃ z : ℤ, P0 i j = z / 100
  atoms : ∀ v ∈ b0, ∃ x : Fin 3 → ℤ, ∀ j, v j = ∑ i, P0 i j * ((x i : ℚ) / D)
  dpos : 0 < D
  small : D ≤ 10 ^ 6
  volume : (D : ℚ) ≤ 10 ^ 4 * |P0.det|

theorem coarse_mono {P : M3 ℝ} {bas : List V3} {K K' : ℝ} {g D : ℕ} {e e' : ℝ} (h : Coarse P bas K K' g D e) (h0 : 0 < e') (hle : e' ≤ e) :
    Coarse P bas K K' g D e' := by
  have hK0 : 0 ≤ K := le_trans (abs_nonneg _) (h.entries 0 0)
  have hK0' : 0 ≤ K' := le_trans (abs_nonneg _) (h.inverse 0 0)
  refine ⟨h.entries, h.inverse, h.products, h.atoms, h.gpos, h.dpos, h0, ?_, ?_, ?_, ?_⟩
  · exact lt_of_le_of_lt (mul_le_mul_of_nonneg_left hle (by positivity)) h.small
  · exact lt_of_le_of_lt (mul_le_mul_of_nonneg_left hle (by positivity)) h.angles
  · exact lt_of_le_of_lt (mul_le_mul_of_nonneg_right hle (by positivity)) h.coords
  · exact lt_of_le_of_lt (mul_le_mul_of_nonneg_left hle (by positivity)) h.apart

/-- Such a tolerance is exact for the searches of a run. -/
theorem coarse_exact {P0 : Matrix (Fin 3) (Fin 3) ℚ} {b0 : List (Fin 3 → ℚ)} {K K' : ℝ} {g D hi : ℕ} (hP : (realMat P0).det ≠ 0)
    (h : Coarse (realMat P0) (realVecs b0) K K' g D (1 / 10 ^ 7)) (hhi : hi ≤ 20) : ExactTol P0 b0 hi shippedTol := by
  have h20 : (hi : ℝ) ≤ 20 := by exact_mod_cast hhi
  have h10 : Coarse (realMat P0) (realVecs b0) K K' g D (1 / 10 ^ 10) := coarse_mono h (by norm_num) (by norm_num)
  refine ⟨fineTol_coarse hP h, fineTol_coarse hP h10, ?_, ?_⟩
  · show (1 / 10 ^ 7 : ℝ) * hi < 1
    linarith
  · show (1 / 10 ^ 10 : ℝ) * hi < 1
    linarith

section
variable {P : M3 ℝ}

theorem inv_entries {K : ℝ} (hK : ∀ i j, |P i j| ≤ K) (i j : Fin 3) : |P⁻¹ i j| ≤ 2 * K ^ 2 / |P.det| := by
  have hK0 : 0 ≤ K := le_trans (abs_nonneg _) (hK 0 0)
  have key : ∀ a b c d : ℝ, |a| ≤ K → |b| ≤ K → |c| ≤ K → |d| ≤ K → |a * b - c * d| ≤ 2 * K ^ 2 := by
    intro a b c d ha hb hc hd
    have h1 : |a * b| ≤ K * K := by rw [abs_mul]; exact mul_le_mul ha hb (abs_nonneg _) hK0
    have h2 : |c * d| ≤ K * K := by rw [abs_mul]; exact mul_le_mul hc hd (abs_nonneg _) hK0
    calc |a * b - c * d| ≤ |a * b| + |c * d| := abs_sub _ _
      _ ≤ 2 * K ^ 2 := by nlinarith
  rw [Matrix.inv_def, Matrix.smul_apply, smul_eq_mul, Ring.inverse_eq_inv', abs_mul, abs_inv, inv_mul_eq_div]
  apply div_le_div_of_nonneg_right _ (abs_nonneg _)
  have h3 : |P.adjugate i j| ≤ 2 * K ^ 2 := by
    rw [Matrix.adjugate_fin_three]
    have key' : ∀ a b c d : ℝ, |a| ≤ K → |b| ≤ K → |c| ≤ K → |d| ≤ K → |-(a * b) + c * d| ≤ 2 * K ^ 2 := by
      intro a b c d ha hb hc hd
      have := key c d a b hc hd ha hb
      rwa [show -(a * b) + c * d = c * d - a * b by ring]
    fin_cases i <;> fin_cases j <;> simp <;> first
      | exact key _ _ _ _ (hK _ _) (hK _ _) (hK _ _) (hK _ _)
      | exact key' _ _ _ _ (hK _ _) (hK _ _) (hK _ _) (hK _ _)
  exact h3
end

/-- Ordinary numbers are coarse compared with 1.1E-7. -/
theorem decimal_coarse_le {P0 : Matrix (Fin 3) (Fin 3) ℚ} {b0 : List (Fin 3 → ℚ)} {D : ℕ} (h : DecimalCrystal P0 b0 D) :
    Coarse (realMat P0) (realVecs b0) 10 (2 * 10 ^ 2 / |(realMat P0).det|) (10 ^ 4) D (11 / 10 ^ 8) := by
  have hent : ∀ i j, |realMat P0 i j| ≤ 10 := by
    intro i j
    have := h.size i j
    have h1 : ((|P0 i j| : ℚ) : ℝ) ≤ 10 := by exact_mod_cast this
    simpa [realMat] using h1
  have hdet : ((P0.det : ℚ) : ℝ) = (realMat P0).det := by
    rw [Matrix.det_fin_three, Matrix.det_fin_three]
    simp [realMat]
  have hvol : (D : ℝ) ≤ 10 ^ 4 * |(realMat P0).det| := by
    have := h.volume
    have h1 : ((D : ℚ) : ℝ) ≤ ((10 ^ 4 * |P0.det| : ℚ) : ℝ) := by exact_mod_cast this
    rw [← hdet]
    simpa using h1
  have hD : (1 : ℝ) ≤ D := by exact_mod_cast h.dpos
  have hdpos : 0 < |(realMat P0).det| := by
    by_contra hc
    have : |(realMat P0).det| ≤ 0 := not_lt.mp hc
    nlinarith
  refine ⟨hent, inv_entries hent, ?_, ?_, by norm_num, h.dpos, by norm_num, by norm_num, by norm_num, ?_, ?_⟩
  · intro i j
    choose z hz using h.decimals
    refine ⟨∑ k, z i k * z j k, ?_⟩
    have hz' : ∀ i j, realMat P0 i j = (z i j : ℝ) / 100 := by
      intro i j
      show ((P0 i j : ℚ) : ℝ) = _
      rw [hz]
      push_cast
      rfl
    rw [Matrix.mul_apply]
    simp only [Matrix.transpose_apply, hz', Fin.sum_univ_three]
    push_cast
    ring
  · intro d hd
    obtain ⟨v, hv, rfl⟩ := List.mem_map.mp hd
    obtain ⟨x, hx⟩ := h.atoms v hv
    refine ⟨x, ?_⟩
    funext j
    show ((v j : ℚ) : ℝ) = _
    rw [hx j]
    simp [Matrix.mulVec, dotProduct, realMat]
  · have : (D : ℝ) ≤ 10 ^ 6 := by exact_mod_cast h.small
    linarith
  · rw [show (3 : ℝ) * (2 * 10 ^ 2 / |(realMat P0).det|) * D * (11 / 10 ^ 8) = (6600 * (D : ℝ) / 10 ^ 8) / |(realMat P0).det| by
      field_simp
      norm_num]
    rw [div_lt_one hdpos]
    nlinarith

/-- Ordinary numbers are coarse compared with 1E-7. -/
theorem decimal_coarse {P0 : Matrix (Fin 3) (Fin 3) ℚ} {b0 : List (Fin 3 → ℚ)} {D : ℕ} (h : DecimalCrystal P0 b0 D) :
    Coarse (realMat P0) (realVecs b0) 10 (2 * 10 ^ 2 / |(realMat P0).det|) (10 ^ 4) D (1 / 10 ^ 7) :=
  coarse_mono (decimal_coarse_le h) (by norm_num) (by norm_num)

/-- C63. The point group at the tolerance of the program is exact: the routine returns exactly the orthogonal matrices that map the
lattice onto itself, for lattice vectors whose scalar products are multiples of a fraction `1/g` that the tolerance does not reach. -/
theorem C63_point_group {A : M3 ℝ} (hA : A.det ≠ 0) {K : ℝ} {g : ℕ} (hg : 0 < g) (hK : ∀ i j, |A i j| ≤ K)
    (hprod : ∀ i j, ∃ z : ℤ, (A * A.transpose) i j = (z : ℝ) / g) {eps : ℝ} (h0 : 0 ≤ eps) (hs : 4 * K * eps < 1) (ha : 9 * K ^ 2 * g * eps < 1) :
    ∃ L, latticePointGroup A eps = .ok L ∧ L.Nodup ∧
      ∀ R, R ∈ L ↔ R * R.transpose = 1 ∧ R.mulVec '' ColLattice A.transpose = ColLattice A.transpose := by
  obtain ⟨L, e1, hn, hm⟩ := pg_coarse hA hg h0 hK hprod hs ha
  exact ⟨L, e1, hn, fun R => (hm R).trans (isLatSym_iff hA R)⟩

/-- C63. The space group at such a tolerance. -/
theorem C63_space_group {P : M3 ℝ} (hP : P.det ≠ 0) {atoms : List (ℕ × V3)} (hne : atoms ≠ []) {K K' : ℝ} {g D : ℕ} {eps : ℝ}
    (h : Coarse P (atoms.map (·.2)) K K' g D eps) :
    ∃ L, spaceGroup P atoms eps false = some (.ok L) ∧
      (∀ p ∈ L, IsCrystalSym (ColLattice P.transpose) atoms p.1 p.2) ∧
      (∀ R s, IsCrystalSym (ColLattice P.transpose) atoms R s → ∃ p ∈ L, p.1 = R ∧ p.2 - s ∈ ColLattice P.transpose) := by
  have hbr := grid_bring hP h.dpos h.pos h.coords h.inverse h.apart
  have hsub : sgVecs P (cartAtoms P false atoms) ⊆ Grid P D := by
    refine sgVecs_grid hP h.dpos (fun a ha => ?_)
    have : cartAtoms P false atoms = atoms := by simp [cartAtoms]
    rw [this] at ha
    exact h.atoms _ (List.mem_map_of_mem ha)
  obtain ⟨L, h1, h2, h3, -⟩ := space_group_at hP atoms hne false (pg_coarse hP h.gpos h.pos.le h.entries h.products h.small h.angles)
    (hbr.mono hsub)
  have : cartAtoms P false atoms = atoms := by simp [cartAtoms]
  rw [this] at h2 h3
  exact ⟨L, h1, h2, h3⟩

section
variable {text : Str} {lat : LatticeIn} {P0 : Matrix (Fin 3) (Fin 3) ℚ} {b0 : List (Fin 3 → ℚ)} {lo hi k : ℕ}

theorem size_hi (h : CrystalInput text lat P0 b0 lo hi k) (hsize : b0.length * hi ≤ 20) : hi ≤ 20 := by
  have hb : 0 < b0.length := by
    have := List.length_pos_iff.mpr h.cell.nonempty
    rwa [realVecs_length] at this
  exact le_trans (Nat.le_mul_of_pos_left hi hb) hsize

/-- C63. C58 with the tolerances of the code: `enumeration.py -enum -super` on a lattice.in without restrictions lists every structure exactly once. -/
theorem C63_all_structures (h : CrystalInput text lat P0 b0 lo hi k) (hfree : lat.restricted = false) (hsize : b0.length * hi ≤ 20)
    {K K' : ℝ} {g D : ℕ} (hc : Coarse (realMat P0) (realVecs b0) K K' g D (1 / 10 ^ 7)) :
    ∀ (w : World) (a : Args) (lattice : Str) (d : Dir), (∀ l, (w.listdir l).Perm l) → (∀ i l, ((w.rnd i).shuffle l).Perm l) →
        PlainCall a lattice true → FreshDir lattice text d →
      ∃ (rows : List EnumEntry) (d' : Dir), scriptEnum w shippedTol a d = (pure d' : Run Dir) ∧
        dictGet d' "enum.out".toList = some (enumOutFile (lat.enumParams (P0, b0)) w.now rows) ∧ rows.Nodup ∧
        ∀ (n : ℕ) (M : M3 ℤ), lo ≤ n → n ≤ hi → M.det = n ∨ M.det = -n → ∀ χ : Decoration,
          PeriodicOn (CrystalSites (ColLattice (realMat P0).transpose) (realVecs b0)) (SupLat (realMat P0) M) χ →
          (∀ x ∈ CrystalSites (ColLattice (realMat P0).transpose) (realVecs b0), (χ x).2 = 0 ∧ 1 ≤ (χ x).1 ∧ (χ x).1 ≤ k) →
          ∃! row, row ∈ rows ∧ ∃ ψ, RowDescribes (realMat P0) (realVecs b0) row ψ ∧
            SameStructure (ColLattice (realMat P0).transpose) (realVecs b0) (SupLat (realMat P0) M) χ (rowLattice (realMat P0) row) ψ :=
  all_structures_at h hfree hsize (coarse_exact h.cell.det hc (size_hi h hsize))

/-- C63. C58 with ranges of concentrations and displaced atoms, with the tolerances of the code. -/
theorem C63_ranges {rows : List ConcRange} {d : ℤ} (h : CrystalInput text lat P0 b0 lo hi k) (hr : RangesInput lat k rows d)
    (hsize : b0.length * hi ≤ 20) (harr : lat.arrowFractions.sum = 0 ∨ b0.length * hi < 12)
    (hne : ∃ n c, lo ≤ n ∧ n ≤ hi ∧ InConcRanges rows (b0.length * n) c) (hd : d ≤ 10 ^ 8)
    {K K' : ℝ} {g D : ℕ} (hc : Coarse (realMat P0) (realVecs b0) K K' g D (1 / 10 ^ 7)) :
    ∃ (C : ℕ → List Conc), (∀ n, lo ≤ n → n ≤ hi → (C n).Nodup ∧ ∀ c, c ∈ C n ↔ InConcRanges rows (b0.length * n) c) ∧
      ∃ (U : ℕ → List (M3 ℤ)) (cnt : ℕ → M3 ℤ → Conc → ℕ), CountsAll shippedTol lat P0 b0 lo hi C U cnt ∧
        RunListsAll shippedTol text lat P0 b0 lo hi C U cnt := by
  have hd' : (d : ℚ) ≤ 10 ^ 8 := by exact_mod_cast hd
  obtain ⟨C, h1, h2⟩ := ranges_at h hr hsize harr hne (t := 1 / 10 ^ 10) (by norm_num) (by linarith)
  exact ⟨C, h1, h2 _ (coarse_exact h.cell.det hc (size_hi h hsize)) rfl⟩

/-- C63. C61 with the tolerances of the code: the default call lists every crystal exactly once. -/
theorem C63_all_crystals (h : CrystalInput text lat P0 b0 1 hi k) (hfree : lat.restricted = false) (hk3 : k ≤ 3) (hsize : b0.length * hi ≤ 20)
    {K K' : ℝ} {g D : ℕ} (hc : Coarse (realMat P0) (realVecs b0) K K' g D (1 / 10 ^ 7)) :
    ∀ (w : World) (a : Args) (lattice : Str) (d : Dir), (∀ l, (w.listdir l).Perm l) →
        PlainCall a lattice false → FreshDir lattice text d →
      ∃ (rows : List EnumEntry) (d' : Dir), scriptEnum w shippedTol a d = (pure d' : Run Dir) ∧
        dictGet d' "enum.out".toList = some (enumOutFile (lat.enumParams (P0, b0)) w.now rows) ∧ rows.Nodup ∧
        ∀ (M : M3 ℤ), 1 ≤ M.det.natAbs → M.det.natAbs ≤ hi → ∀ χ : Decoration,
          PeriodicOn (CrystalSites (ColLattice (realMat P0).transpose) (realVecs b0)) (SupLat (realMat P0) M) χ →
          (∀ x ∈ CrystalSites (ColLattice (realMat P0).transpose) (realVecs b0), (χ x).2 = 0 ∧ 1 ≤ (χ x).1 ∧ (χ x).1 ≤ k) →
          ∃! row, row ∈ rows ∧ ∃ ψ, RowDescribes (realMat P0) (realVecs b0) row ψ ∧
            SameDecoration (ColLattice (realMat P0).transpose) (realVecs b0) χ ψ :=
  all_crystals_at h hfree hk3 hsize (coarse_exact h.cell.det hc (size_hi h hsize))

/-- C63. C62 with the tolerances of the code: one POSCAR for every crystal. -/
theorem C63_one_poscar (h : CrystalInput text lat P0 b0 1 hi k) (hfree : lat.restricted = false) (hk3 : k ≤ 3) (h7 : hi ≤ 7) (hsize : b0.length * hi ≤ 18)
    (hdec : ∀ i j, SevenDecimals (P0 i j)) (hdec' : ∀ v ∈ b0, ∀ i, SevenDecimals (v i))
    {K K' : ℝ} {g D : ℕ} (hc : Coarse (realMat P0) (realVecs b0) K K' g D (1 / 10 ^ 7)) :
    ∀ (w : World) (a : Args) (lattice : Str) (d : Dir), (∀ l, (w.listdir l).Perm l) → '\n' ∉ w.now →
        PlainCall a lattice false → FreshDir lattice text d →
      ∃ (file : Str) (d' : Dir), scriptEnum w shippedTol a d = (pure d' : Run Dir) ∧ dictGet d' "enum.out".toList = some file ∧
        ∀ m : MakeArgs, AllPoscars m → CanReduce (realMat P0).transpose hi m.mink.truth → ∀ rnd : ReadStruct → ℕ → ℕ → ℝ,
        ∃ outs : List (Str × Poscar), makeStr (some m) file rnd = some (.ok (outs.map (fun o => OutFile.poscar o.1 o.2))) ∧ (outs.map (·.1)).Nodup ∧
          (∀ o ∈ outs, ∃ ψ, PoscarShows (CrystalSites (ColLattice (realMat P0).transpose) (realVecs b0)) k o.2 ψ) ∧
          ∀ (M : M3 ℤ), 1 ≤ M.det.natAbs → M.det.natAbs ≤ hi → ∀ χ : Decoration,
            PeriodicOn (CrystalSites (ColLattice (realMat P0).transpose) (realVecs b0)) (SupLat (realMat P0) M) χ →
            (∀ x ∈ CrystalSites (ColLattice (realMat P0).transpose) (realVecs b0), (χ x).2 = 0 ∧ 1 ≤ (χ x).1 ∧ (χ x).1 ≤ k) →
            ∃! o, o ∈ outs ∧ ∃ ψ, PoscarShows (CrystalSites (ColLattice (realMat P0).transpose) (realVecs b0)) k o.2 ψ ∧
              SameDecoration (ColLattice (realMat P0).transpose) (realVecs b0) χ ψ :=
  one_poscar_per_crystal_at h hfree hk3 h7 hsize hdec hdec' (coarse_exact h.cell.det hc (size_hi h (by omega)))

/-- C63. For crystals with ordinary numbers nothing has to be assumed about the tolerances. -/
theorem C63_decimals {D : ℕ} (h : DecimalCrystal P0 b0 D) : ∃ K K' g, Coarse (realMat P0) (realVecs b0) K K' g D (1 / 10 ^ 7) :=
  ⟨_, _, _, decimal_coarse h⟩

end

theorem fcc_decimal : DecimalCrystal fccP0 [![0, 0, 0]] 1 := by
  refine ⟨?_, ?_, ?_, by norm_num, by norm_num, ?_⟩
  · intro i j
    fin_cases i <;> fin_cases j <;> simp [fccP0] <;> norm_num [abs_le]
  · intro i j
    have h1 : ∃ z : ℤ, (1 / 2 : ℚ) = z / 100 := ⟨50, by norm_num⟩
    have h0 : ∃ z : ℤ, (0 : ℚ) = z / 100 := ⟨0, by norm_num⟩
    fin_cases i <;> fin_cases j <;> first | exact h1 | exact h0
  · intro v hv
    rw [List.mem_singleton] at hv
    subst hv
    refine ⟨fun _ => 0, fun j => ?_⟩
    fin_cases j <;> simp
  · rw [Matrix.det_fin_three]
    simp [fccP0]
    norm_num

/-- C63 for input/fcc/lattice.in, with no assumption about tolerances: a run of the program lists every structure of the fifteen compositions
(four cells, three species, half of the atoms of the second and of the third species displaced) exactly once. -/
theorem C63_fcc_file : ∃ (C : ℕ → List Conc), (C 4).Nodup ∧ (∀ c, c ∈ C 4 ↔ c.length = 3 ∧ c.sum = 4) ∧
    ∃ (U : ℕ → List (M3 ℤ)) (cnt : ℕ → M3 ℤ → Conc → ℕ), CountsAll shippedTol fccLat fccP0 [![0, 0, 0]] 4 4 C U cnt ∧
      RunListsAll shippedTol fccText fccLat fccP0 [![0, 0, 0]] 4 4 C U cnt := by
  obtain ⟨C, h1, h2⟩ := C63_ranges fcc_crystal fcc_ranges (by simp) (Or.inr (by simp)) ⟨4, [4, 0, 0], le_refl _, le_refl _, fcc_in_ranges.mpr ⟨rfl, rfl⟩⟩
    (by norm_num) (decimal_coarse fcc_decimal)
  obtain ⟨h3, h4⟩ := h1 4 (le_refl _) (le_refl _)
  refine ⟨C, h3, fun c => ?_, h2⟩
  rw [h4]
  exact fcc_in_ranges

theorem sc_decimal : DecimalCrystal (Matrix.of ![![1, 0, 0], ![0, 1, 0], ![0, 0, 1]]) [![0, 0, 0]] 1 := by
  refine ⟨?_, ?_, ?_, by norm_num, by norm_num, ?_⟩
  · intro i j
    fin_cases i <;> fin_cases j <;> simp
  · intro i j
    have h1 : ∃ z : ℤ, (1 : ℚ) = z / 100 := ⟨100, by norm_num⟩
    have h0 : ∃ z : ℤ, (0 : ℚ) = z / 100 := ⟨0, by norm_num⟩
    fin_cases i <;> fin_cases j <;> first | exact h1 | exact h0
  · intro v hv
    rw [List.mem_singleton] at hv
    subst hv
    refine ⟨fun _ => 0, fun j => ?_⟩
    fin_cases j <;> simp
  · rw [Matrix.det_fin_three]
    simp
    norm_num

/-- C63 for the simple cubic file of the examples, with no assumption about tolerances: the default call lists alternating layers, and also the crystal
with a single species, exactly once. -/
example (w : World) (hw : ∀ l, (w.listdir l).Perm l) :
    ∃ (rows : List EnumEntry) (d' : Dir),
      scriptEnum w shippedTol ⟨false, true, "lattice.in".toList, none, none, none, none, false, none, false, none⟩ scDir = (pure d' : Run Dir) ∧
      dictGet d' "enum.out".toList = some (enumOutFile (scLat.enumParams (Matrix.of ![![1, 0, 0], ![0, 1, 0], ![0, 0, 1]], [![0, 0, 0]])) w.now rows) ∧ rows.Nodup ∧
      (∃! row, row ∈ rows ∧ ∃ ψ, RowDescribes 1 [0] row ψ ∧ SameDecoration (ColLattice (1 : M3 ℝ).transpose) [0] layers ψ) ∧
      (∃! row, row ∈ rows ∧ ∃ ψ, RowDescribes 1 [0] row ψ ∧ SameDecoration (ColLattice (1 : M3 ℝ).transpose) [0] (fun _ => (1, 0)) ψ) := by
  obtain ⟨rows, d', r1, r2, r3, r4⟩ := C63_all_crystals sc_crystal rfl (by norm_num) (by simp) (decimal_coarse sc_decimal) w
    ⟨false, true, "lattice.in".toList, none, none, none, none, false, none, false, none⟩ "lattice.in".toList scDir hw
    (by constructor <;> rfl) (by
      refine ⟨by decide +kernel, ?_, by decide +kernel⟩
      have : ∀ f ∈ ["notes.txt".toList, "lattice.in".toList], ¬ f.head? = some 'p' := by decide +kernel
      exact fun f hf h => this f hf h.2)
  rw [realVecs_zero, realMat_sc] at r4
  have hdet : (!![2, 0, 0; 0, 1, 0; 0, 0, 1] : M3 ℤ).det = 2 := by rw [Matrix.det_fin_three]; simp
  refine ⟨rows, d', r1, r2, r3, ?_, ?_⟩
  · refine r4 !![2, 0, 0; 0, 1, 0; 0, 0, 1] (by rw [hdet]; decide) (by rw [hdet]; decide) layers layers_structure.1 ?_
    intro x _
    unfold layers
    split <;> simp
  · refine r4 1 (by simp) (by simp) _ (fun x _ t _ => rfl) (fun x _ => ⟨rfl, le_refl _, by norm_num⟩)

/-- C63. A tolerance that is too large for the crystal gives wrong symmetries: the tetragonal lattice with edges `1, 1, 1 + δ` where `δ` is at most a quarter of the tolerance. The routine returns a matrix that exchanges the two
different edges, and that is not even orthogonal. -/
theorem C63_too_close {δ eps : ℝ} (h0 : 0 < δ) (h1 : 4 * δ ≤ eps) (h2 : eps ≤ 1 / 10) :
    ∃ L, latticePointGroup !![1, 0, 0; 0, 1, 0; 0, 0, 1 + δ] eps = .ok L ∧ ∃ R ∈ L, R * R.transpose ≠ 1 ∧
      R.mulVec ![0, 1, 0] = ![0, 0, 1 / (1 + δ)] := by
  set A : M3 ℝ := !![1, 0, 0; 0, 1, 0; 0, 0, 1 + δ] with hA
  have hpos : 0 < 1 + δ := by linarith
  have hdet : A.det = 1 + δ := by rw [hA, Matrix.det_fin_three]; simp
  have hd0 : A.det ≠ 0 := by rw [hdet]; exact hpos.ne'
  have n0 : vnorm (A 0) = 1 := by simp [vnorm, hA]
  have n1 : vnorm (A 1) = 1 := by simp [vnorm, hA]
  have n2 : vnorm (A 2) = 1 + δ := by simp [vnorm, hA, Real.sqrt_sq hpos.le]
  have hmax : maxNorm A = 1 + δ := by
    unfold maxNorm
    rw [n0, n1, n2, max_self, max_eq_right (by linarith)]
  have hm : maxNorm A * (2 * eps) < 1 := by rw [hmax]; nlinarith
  have hvol : cellVolume A = 1 + δ := by
    simp [cellVolume, vdot, vcross, hA, abs_of_pos hpos]
  have hrow : ∀ i, A i ∈ sphereVecs A eps := by
    intro i
    have hle := row_le_maxNorm A i
    have hc : comb A (fun j => if j = i then 1 else 0) = A i := by
      funext c
      fin_cases i <;> simp [comb]
    exact mem_sphereVecs.mpr ⟨fun j => if j = i then 1 else 0, inBox_of_norm hd0 (by linarith) hm (by rw [hc]; exact hle), hc, by linarith⟩
  have hidx : ∀ i, ∃ a, a < (sphereVecs A eps).length ∧ (sphereVecs A eps).getD a 0 = A i := by
    intro i
    obtain ⟨a, ha, e⟩ := List.getElem_of_mem (hrow i)
    exact ⟨a, ha, by rw [getD_lt ha]; exact e⟩
  choose f hf1 hf2 using hidx
  have hinj : ∀ i j, A i = A j → i = j := by
    intro i j h
    have k0 := congrFun h 0
    have k1 := congrFun h 1
    have k2 := congrFun h 2
    fin_cases i <;> fin_cases j <;> simp [hA] at k0 k1 k2 ⊢
  have hfne : ∀ i j, i ≠ j → f i ≠ f j := by
    intro i j hij h
    apply hij
    apply hinj
    rw [← hf2 i, ← hf2 j, h]
  have hinv : A⁻¹ * (show M3 ℝ from ![A 0, A 2, A 1]) = !![1, 0, 0; 0, 0, 1 + δ; 0, 1 / (1 + δ), 0] := by
    have hu := isUnit_iff_ne_zero.2 hd0
    have : (show M3 ℝ from ![A 0, A 2, A 1]) = A * !![1, 0, 0; 0, 0, 1 + δ; 0, 1 / (1 + δ), 0] := by
      ext i j
      fin_cases i <;> fin_cases j <;> simp [hA, Matrix.mul_apply, Fin.sum_univ_three]
      field_simp
    rw [this, ← Matrix.mul_assoc, Matrix.nonsing_inv_mul _ hu, Matrix.one_mul]
  set R : M3 ℝ := !![1, 0, 0; 0, 0, 1 + δ; 0, 1 / (1 + δ), 0] with hR
  have hRR : R * R.transpose = !![1, 0, 0; 0, (1 + δ) ^ 2, 0; 0, 0, 1 / (1 + δ) ^ 2] := by
    ext i j
    fin_cases i <;> fin_cases j <;> simp [hR, Matrix.mul_apply, Fin.sum_univ_three]
    · ring
    · field_simp
  refine ⟨_, if_neg hd0, R, ?_, ?_, ?_⟩
  · simp only [List.mem_flatMap]
    refine ⟨(f 0, f 2, f 1), mem_triples.mpr ⟨hf1 0, hf1 2, hf1 1, hfne _ _ (by decide), hfne _ _ (by decide), hfne _ _ (by decide)⟩, ?_⟩
    simp only [hf2]
    unfold tryTriple
    simp only
    have hNd : (show M3 ℝ from ![A 0, A 2, A 1]).det = -(1 + δ) := by
      rw [Matrix.det_fin_three]
      simp [hA]
    rw [if_neg, hinv, if_pos]
    · simp
    · intro i j
      rw [hRR]
      have a1 : (1 + δ) ^ 2 ≥ 1 := by nlinarith
      have a2 : (1 + δ) ^ 2 - 1 ≤ eps := by nlinarith
      have a3 : 1 / (1 + δ) ^ 2 ≤ 1 := by rw [div_le_one (by positivity)]; exact a1
      have a4 : 1 - eps ≤ 1 / (1 + δ) ^ 2 := by
        rw [le_div_iff₀ (by positivity)]
        nlinarith
      have a5 : 0 ≤ eps := by linarith
      fin_cases i <;> fin_cases j <;> simp [a5] <;> rw [abs_le] <;> constructor <;> (rw [one_div] at a3 a4; linarith)
    · rw [n0, n1, n2, hvol, hNd]
      have : (0 : ℝ) ≤ eps := by linarith
      rw [abs_neg, abs_of_pos hpos]
      push Not
      refine ⟨by simpa, by rw [abs_le]; constructor <;> linarith, by rw [abs_le]; constructor <;> linarith, by simpa⟩
  · intro h
    rw [hRR] at h
    have : (1 + δ) ^ 2 = 1 := congrFun (congrFun h 1) 1
    nlinarith
  · funext i
    fin_cases i <;> simp [hR, Matrix.mulVec, dotProduct, Fin.sum_univ_three]

/-- an instance at the tolerance of `get_HNFs` -/
example : ∃ L, latticePointGroup !![1, 0, 0; 0, 1, 0; 0, 0, 1 + 1 / 10 ^ 8] (1 / 10 ^ 7) = .ok L ∧ ∃ R ∈ L, R * R.transpose ≠ 1 := by
  obtain ⟨L, h1, R, h2, h3, -⟩ := C63_too_close (δ := 1 / 10 ^ 8) (eps := 1 / 10 ^ 7) (by norm_num) (by norm_num) (by norm_num)
  exact ⟨L, h1, R, h2, h3⟩

end Phenum
