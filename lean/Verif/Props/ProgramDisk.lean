import Verif.Props.PoscarNames
import Verif.Props.MakeDir
/-
C87: from lattice.in to POSCAR files on the disk, as a reader finds them.
-/
namespace Phenum
open Spec

/-- What is read from the file is the POSCAR `P`: the title begins with its names, its scale is rounded to two decimals, its cell and its positions to eight, and the numbers of atoms are the same. -/
def Spec.PoscarMatches (P : Poscar) (R : PoscarRead) : Prop :=
  (∃ rest, pySplit R.title = P.names.map String.toList ++ rest) ∧ Rounded 2 P.scale R.scale ∧
    (∃ a b c, R.cell = [a, b, c] ∧ RoundedVec 8 (P.cell 0) a ∧ RoundedVec 8 (P.cell 1) b ∧ RoundedVec 8 (P.cell 2) c) ∧ R.counts = P.counts ∧ List.Forall₂ (RoundedVec 8) P.atoms R.atoms

/-- What makeStr makes of the directory with the names `els`: it comes to its end, and changes no files but those of the POSCARs, which have different names. In each of these one reads,
with the numbers rounded, a POSCAR that shows a crystal of the kind asked for, and every such crystal is, up to a symmetry of the parent crystal, shown by exactly one of them. -/
def Spec.OnePoscarFileEach (P0 : Matrix (Fin 3) (Fin 3) ℚ) (b0 : List (Fin 3 → ℚ)) (hi k : ℕ) (ranges : List ConcRange) (els : List String) (d : Dir) : Prop :=
  ∀ m : MakeArgs, NamedPoscars m els → CanReduce (realMat P0).transpose hi m.mink.truth → ∀ (rnd : ReadStruct → ℕ → ℕ → ℝ) (rz : Bool),
    rz = (if m.removeZeros = .str "t".toList then true else m.removeZeros.truth) →
    ∃ (d' : Dir) (outs : List (Str × Poscar)), makeStrDir m "enum.out".toList rnd d = (pure d' : Run Dir) ∧ (outs.map (·.1)).Nodup ∧
      (∀ f, f ∉ outs.map (·.1) → dictGet d' f = dictGet d f) ∧
      (∀ o ∈ outs, (∃ text R, dictGet d' o.1 = some text ∧ readPoscarText text = .ok R ∧ PoscarMatches o.2 R) ∧
        ∃ ψ, AllowedCrystal (realMat P0) (realVecs b0) hi k ranges ψ ∧
          PoscarOf (realMat P0).transpose b0.length (CrystalSites (ColLattice (realMat P0).transpose) (realVecs b0)) els rz o.2 ψ) ∧
      ∀ χ, AllowedCrystal (realMat P0) (realVecs b0) hi k ranges χ →
        ∃! o, o ∈ outs ∧ ∃ ψ, PoscarOf (realMat P0).transpose b0.length (CrystalSites (ColLattice (realMat P0).transpose) (realVecs b0)) els rz o.2 ψ ∧
          SameDecoration (ColLattice (realMat P0).transpose) (realVecs b0) χ ψ

theorem onePoscarFileEach {P0 : Matrix (Fin 3) (Fin 3) ℚ} {b0 : List (Fin 3 → ℚ)} {hi k : ℕ} {ranges : List ConcRange} {els : List String} {file : Str}
    (h : OneNamedPoscarEach P0 b0 hi k ranges els file) {d : Dir} (hd : dictGet d "enum.out".toList = some file) : OnePoscarFileEach P0 b0 hi k ranges els d := by
  intro m hm hred rnd rz hrz
  obtain ⟨outs, h1, h2, h3, h4⟩ := h m hm hred rnd rz hrz
  obtain ⟨d', g1, g2, g3⟩ := C85_written hm.config h1 h2 hd
  refine ⟨d', outs, g1, h2, g2, fun o ho => ⟨?_, h3 o ho⟩, h4⟩
  obtain ⟨sys, N, text, k1, -, R, k2, k3, k4, k5, k6, k7⟩ := g3 o ho
  refine ⟨text, R, k1, k2, ⟨pySplit sys ++ ["str".toList, "#:".toList, intStr N], ?_⟩, k4, k5, k6, k7⟩
  rw [k3, hm.species]
  simp [List.append_assoc]

section
variable {fl : ℚ → ℚ} {δ : ℝ} {text : Str} {lat : LatticeIn} {P0 : Matrix (Fin 3) (Fin 3) ℚ} {b0 : List (Fin 3 → ℚ)} {hi k : ℕ} {ranges : List ConcRange} {d : ℤ} {els : List String}

/-- C87. From lattice.in with ranges of concentrations to POSCAR files on the disk, with the tolerances of the code. -/
theorem C87_poscar_files (h : CrystalInput text lat P0 b0 1 hi k) (hr : RangesInput lat k ranges d) (hk3 : k ≤ 3) (hna : lat.arrowFractions.sum = 0) (h7 : hi ≤ 7)
    (hsize : b0.length * hi ≤ 18) (hdec : ∀ i j, SevenDecimals (P0 i j)) (hdec' : ∀ v ∈ b0, ∀ i, SevenDecimals (v i))
    (hne : ∃ n c, 1 ≤ n ∧ n ≤ hi ∧ InConcRanges ranges (b0.length * n) c) (hd : d ≤ 10 ^ 8) (hel : KnownElements els) (hlk : els.length = k)
    {K K' : ℝ} {g D : ℕ} (hc : Coarse (realMat P0) (realVecs b0) K K' g D (1 / 10 ^ 7)) :
    ∀ (w : World) (a : Args) (lattice : Str) (dir : Dir), (∀ l, (w.listdir l).Perm l) → '\n' ∉ w.now →
        PlainCall a lattice false → FreshDir lattice text dir →
      ∃ dir' : Dir, scriptEnum w shippedTol a dir = (pure dir' : Run Dir) ∧ OnePoscarFileEach P0 b0 hi k ranges els dir' := by
  intro w a lattice dir hw hnow ha hdir
  obtain ⟨file, dir', r1, r2, r3⟩ := C79_named_poscars h hr hk3 hna h7 hsize hdec hdec' hne hd hel hlk hc w a lattice dir hw hnow ha hdir
  exact ⟨dir', r1, onePoscarFileEach r3 r2⟩

/-- C87. The same without restrictions. -/
theorem C87_poscar_files_free (h : CrystalInput text lat P0 b0 1 hi k) (hfree : lat.restricted = false) (hk3 : k ≤ 3) (h7 : hi ≤ 7)
    (hsize : b0.length * hi ≤ 18) (hdec : ∀ i j, SevenDecimals (P0 i j)) (hdec' : ∀ v ∈ b0, ∀ i, SevenDecimals (v i)) (hel : KnownElements els) (hlk : els.length = k)
    {K K' : ℝ} {g D : ℕ} (hc : Coarse (realMat P0) (realVecs b0) K K' g D (1 / 10 ^ 7)) :
    ∀ (w : World) (a : Args) (lattice : Str) (dir : Dir), (∀ l, (w.listdir l).Perm l) → '\n' ∉ w.now →
        PlainCall a lattice false → FreshDir lattice text dir →
      ∃ dir' : Dir, scriptEnum w shippedTol a dir = (pure dir' : Run Dir) ∧ OnePoscarFileEach P0 b0 hi k [] els dir' := by
  intro w a lattice dir hw hnow ha hdir
  obtain ⟨file, dir', r1, r2, r3⟩ := C79_named_free h hfree hk3 h7 hsize hdec hdec' hel hlk hc w a lattice dir hw hnow ha hdir
  exact ⟨dir', r1, onePoscarFileEach r3 r2⟩

/-- C87. With rounding errors in enumeration.py. -/
theorem C87_poscar_files_noise (h : CrystalInput text lat P0 b0 1 hi k) (hr : RangesInput lat k ranges d) (hk3 : k ≤ 3) (hna : lat.arrowFractions.sum = 0) (h7 : hi ≤ 7)
    (hle : ∀ r ∈ ranges, max r.1 r.2.1 ≤ d) (hsize : b0.length * hi ≤ 18) (hdec : ∀ i j, SevenDecimals (P0 i j)) (hdec' : ∀ v ∈ b0, ∀ i, SevenDecimals (v i))
    (hne : ∃ n c, 1 ≤ n ∧ n ≤ hi ∧ InConcRanges ranges (b0.length * n) c) (hd : d ≤ 10 ^ 8) (hel : KnownElements els) (hlk : els.length = k)
    {K K' : ℝ} {g D : ℕ} (h0 : 0 ≤ δ) (hlt : δ < 1 / 10 ^ 10) (hc : Coarse (realMat P0) (realVecs b0) K K' g D (1 / 10 ^ 7 + δ)) (hfl : RoundsToNearest fl) :
    ∀ (w : World) (a : Args) (lattice : Str) (dir : Dir), (∀ l, (w.listdir l).Perm l) → '\n' ∉ w.now →
        PlainCall a lattice false → FreshDir lattice text dir →
      ∃ dir' : Dir, AlwaysReturns (scriptEnumN fl δ w shippedTol a dir) dir' ∧ OnePoscarFileEach P0 b0 hi k ranges els dir' := by
  intro w a lattice dir hw hnow ha hdir
  obtain ⟨file, dir', r1, r2, r3⟩ := C79_named_noise h hr hk3 hna h7 hle hsize hdec hdec' hne hd hel hlk h0 hlt hc hfl w a lattice dir hw hnow ha hdir
  exact ⟨dir', r1, onePoscarFileEach r3 r2⟩

/-- C87. Without restrictions, with rounding errors in enumeration.py. -/
theorem C87_poscar_files_free_noise (h : CrystalInput text lat P0 b0 1 hi k) (hfree : lat.restricted = false) (hk3 : k ≤ 3) (h7 : hi ≤ 7)
    (hsize : b0.length * hi ≤ 18) (hdec : ∀ i j, SevenDecimals (P0 i j)) (hdec' : ∀ v ∈ b0, ∀ i, SevenDecimals (v i)) (hel : KnownElements els) (hlk : els.length = k)
    {K K' : ℝ} {g D : ℕ} (h0 : 0 ≤ δ) (hlt : δ < 1 / 10 ^ 10) (hc : Coarse (realMat P0) (realVecs b0) K K' g D (1 / 10 ^ 7 + δ)) (hfl : RoundsToNearest fl) :
    ∀ (w : World) (a : Args) (lattice : Str) (dir : Dir), (∀ l, (w.listdir l).Perm l) → '\n' ∉ w.now →
        PlainCall a lattice false → FreshDir lattice text dir →
      ∃ dir' : Dir, AlwaysReturns (scriptEnumN fl δ w shippedTol a dir) dir' ∧ OnePoscarFileEach P0 b0 hi k [] els dir' := by
  intro w a lattice dir hw hnow ha hdir
  obtain ⟨file, dir', r1, r2, r3⟩ := C79_named_free_noise h hfree hk3 h7 hsize hdec hdec' hel hlk h0 hlt hc hfl w a lattice dir hw hnow ha hdir
  exact ⟨dir', r1, onePoscarFileEach r3 r2⟩

end

/-- C87 for the simple cubic lattice with one or two cells and between one and three quarters of each element: on the disk there is exactly one POSCAR of alternating layers of Al and Ni,
and lattice.in is still there. -/
example (w : World) (hw : ∀ l, (w.listdir l).Perm l) (hnow : '\n' ∉ w.now) (rnd : ReadStruct → ℕ → ℕ → ℝ) :
    ∃ (d1 d2 : Dir) (outs : List (Str × Poscar)),
      scriptEnum w shippedTol ⟨false, true, "lattice.in".toList, none, none, none, none, false, none, false, none⟩
        [("notes.txt".toList, []), ("lattice.in".toList, scrText)] = (pure d1 : Run Dir) ∧
      makeStrDir alNiArgs "enum.out".toList rnd d1 = (pure d2 : Run Dir) ∧
        (∀ o ∈ outs, ∃ text R, dictGet d2 o.1 = some text ∧ readPoscarText text = .ok R ∧ PoscarMatches o.2 R) ∧
        (∃! o, o ∈ outs ∧ ∃ ψ, PoscarOf (1 : M3 ℝ).transpose 1 (CrystalSites (ColLattice (1 : M3 ℝ).transpose) [0]) ["Al", "Ni"] true o.2 ψ ∧
          SameDecoration (ColLattice (1 : M3 ℝ).transpose) [0] layers ψ) := by
  have h0 : SevenDecimals 0 := ⟨0, by norm_num⟩
  have h1 : SevenDecimals 1 := ⟨10 ^ 7, by norm_num⟩
  obtain ⟨d1, r1, r3⟩ := C87_poscar_files scr_crystal scr_ranges (by norm_num) (by rw [scr_fractions]; simp) (by norm_num) (by simp)
    (by intro i j; fin_cases i <;> fin_cases j <;> first | exact h0 | exact h1)
    (by
      intro v hv i
      rw [List.mem_singleton] at hv
      subst hv
      fin_cases i <;> exact h0) ⟨2, [1, 1], by norm_num, le_refl _, scr_some⟩ (by norm_num) alNi_known rfl (decimal_coarse sc_decimal) w
    ⟨false, true, "lattice.in".toList, none, none, none, none, false, none, false, none⟩ "lattice.in".toList [("notes.txt".toList, []), ("lattice.in".toList, scrText)] hw hnow
    (by constructor <;> rfl) (by
      refine ⟨by decide +kernel, ?_, by decide +kernel⟩
      have : ∀ f ∈ ["notes.txt".toList, "lattice.in".toList], ¬ f.head? = some 'p' := by decide +kernel
      exact fun f hf h => this f hf h.2)
  obtain ⟨d2, outs, q1, -, -, q3, q4⟩ := r3 alNiArgs ⟨by decide, rfl, rfl, "vasp.".toList, [], by decide, by simp, Or.inl rfl⟩ (fun h => absurd h (by decide)) rnd true rfl
  rw [realVecs_zero, realMat_sc] at q4
  exact ⟨d1, d2, outs, r1, q1, fun o ho => (q3 o ho).1, q4 layers scr_layers⟩

end Phenum
