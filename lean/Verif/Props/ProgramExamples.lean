import Verif.Props.ProgramInput
import Verif.Props.StepsFail
/-
C58 for concrete input files: the file input/fcc/lattice.in of the repository, and a simple cubic one without restrictions.
-/
namespace Phenum
open Spec

/-- a text made of lines -/
def ofLines (l : List String) : Str := l.flatMap (fun s => s.toList ++ ['\n'])

/-- /repo/input/fcc/lattice.in -/
def fccText : Str := ofLines [
  "# Which cell-sizes do you want to search?",
  "4 4",
  "#---------------------------------------",
  "# Bulk or surface?",
  "bulk",
  "# List the primitive cell's lattice vectors",
  "0.5 0.5 0",
  "0.5 0 0.5",
  "0 0.5 0.5",
  "# number of atomic species in the cell",
  "3",
  "# basis atoms",
  "1",
  "0 0 0",
  "#----------------------------------------",
  "# Concentrations",
  "#",
  "# - use specific concentration range (T/F)",
  "# - use arrows on some of the atoms (T/F)",
  "# The concentration ranges for each atom are specified by three",
  "# integers, which define 2 fractions. The third number is the",
  "# denominator for the fraction, the first two numbers are the",
  "# numerator. The first two numbers need not be listed in ascending",
  "# order.",
  "#",
  "# If displacement directions are to be used then a fourth number",
  "# follows the fractions the fourth number should be a decimal that",
  "# indicates the fractional amount of displaced atoms of that species.",
  "T",
  "T",
  "0 4 4 0",
  "0 4 4 0.5",
  "0 4 4 0.5"]

/-- what `read_lattice` returns for it -/
def fccLat : LatticeIn where
  bulk := true
  sizes := [4, 4]
  latVecs := [[1/2, 1/2, 0], [1/2, 0, 1/2], [0, 1/2, 1/2]]
  nspecies := 3
  basisVecs := [[0, 0, 0]]
  restricted := true
  arrows := true
  concs := [[0, 4, 4, 0], [0, 4, 4, 1/2], [0, 4, 4, 1/2]]

theorem fcc_read' : (match readLattice fccText with | .ok l => decide (l = fccLat) | .error _ => false) = true := by decide +kernel

theorem read_of_match {t : Str} {lat : LatticeIn} (h : (match readLattice t with | .ok l => decide (l = lat) | .error _ => false) = true) :
    readLattice t = .ok lat := by
  cases e : readLattice t with
  | ok l => rw [e] at h; simp at h; rw [h]
  | error x => rw [e] at h; simp at h

/-- the lattice vectors of the file -/
def fccP0 : Matrix (Fin 3) (Fin 3) ℚ := Matrix.of ![![1/2, 1/2, 0], ![1/2, 0, 1/2], ![0, 1/2, 1/2]]

theorem fccP0_cubic : IsCubic 1 (ColLattice (realMat fccP0).transpose) := by
  refine ⟨one_pos, ⟨![1, 1, -1], ?_⟩, ⟨![1, -1, 1], ?_⟩, ⟨![-1, 1, 1], ?_⟩, ?_⟩
  · funext i; fin_cases i <;> simp [fccP0, realMat, Matrix.mulVec, dotProduct, Fin.sum_univ_three] <;> norm_num
  · funext i; fin_cases i <;> simp [fccP0, realMat, Matrix.mulVec, dotProduct, Fin.sum_univ_three] <;> norm_num
  · funext i; fin_cases i <;> simp [fccP0, realMat, Matrix.mulVec, dotProduct, Fin.sum_univ_three] <;> norm_num
  · rintro _ ⟨x, rfl⟩
    refine ⟨![x 0 + x 1, x 0 + x 2, x 1 + x 2], fun i => ?_⟩
    fin_cases i <;> simp [fccP0, realMat, Matrix.mulVec, dotProduct, Fin.sum_univ_three] <;> ring

theorem fccP0_det : (realMat fccP0).det ≠ 0 := by
  rw [Matrix.det_fin_three]
  simp [fccP0, realMat]
  norm_num

theorem realVecs_zero : realVecs [![0, 0, 0]] = [0] := by
  unfold realVecs
  rw [List.map_cons, List.map_nil]
  congr 1
  funext i
  fin_cases i <;> simp

theorem fcc_crystal : CrystalInput fccText fccLat fccP0 [![0, 0, 0]] 4 4 3 := by
  obtain ⟨hu, hp⟩ := cubic_usable fccP0_det fccP0_cubic (d := 0) (colLat_isSub _).zero true
  refine ⟨read_of_match fcc_read', rfl, ⟨[], rfl⟩, by norm_num, le_refl _, ?_, ?_, Or.inr ?_, rfl, by norm_num, by norm_num⟩
  · rw [realVecs_zero]; exact hu
  · rw [realVecs_zero]; exact hp
  · rw [realVecs_zero]; rfl

theorem fcc_ranges : RangesInput fccLat 3 [(0, 4, 4), (0, 4, 4), (0, 4, 4)] 4 := by
  refine ⟨rfl, by decide +kernel, rfl, ⟨by norm_num, by simp⟩, by simp, ?_⟩
  have : fccLat.arrowFractions = [0, 1/2, 1/2] := by decide +kernel
  rw [this]
  intro x hx
  simp at hx
  rcases hx with rfl | rfl | rfl <;> norm_num

theorem fcc_in_ranges {c : Conc} : InConcRanges [(0, 4, 4), (0, 4, 4), (0, 4, 4)] (([![0, 0, 0]] : List (Fin 3 → ℚ)).length * 4) c ↔ c.length = 3 ∧ c.sum = 4 := by
  unfold InConcRanges InRanges
  rw [List.length_singleton, one_mul]
  constructor
  · rintro ⟨h1, h2⟩
    refine ⟨?_, h1⟩
    have := h2.length_eq
    simpa using this
  · rintro ⟨h1, h2⟩
    refine ⟨h2, ?_⟩
    match c, h1 with
    | [x, y, z], _ =>
      simp only [List.sum_cons, List.sum_nil] at h2
      have key : ∀ u : ℕ, u ≤ 4 → (((min 0 4 : ℤ) : ℚ) / (4 : ℤ) ≤ ((u : ℤ) : ℚ) / (4 : ℕ) ∧ ((u : ℤ) : ℚ) / (4 : ℕ) ≤ ((max 0 4 : ℤ) : ℚ) / (4 : ℤ)) := by
        intro u hu
        interval_cases u <;> norm_num
      exact .cons (key x (by omega)) (.cons (key y (by omega)) (.cons (key z (by omega)) .nil))

/-- C58 for input/fcc/lattice.in (four cells, three species, half of the atoms of the second and of the third species displaced): the
program lists every structure of the fifteen compositions exactly once. -/
theorem C58_fcc_file : ∃ (C : ℕ → List Conc), (C 4).Nodup ∧ (∀ c, c ∈ C 4 ↔ c.length = 3 ∧ c.sum = 4) ∧
    ∃ e > 0, ∀ tol : Tol, 0 < tol.hnf → tol.hnf < e → 0 < tol.sym → tol.sym < e → tol.conc = 1 / 10 ^ 10 →
      ∃ (U : ℕ → List (M3 ℤ)) (cnt : ℕ → M3 ℤ → Conc → ℕ), CountsAll tol fccLat fccP0 [![0, 0, 0]] 4 4 C U cnt ∧
        RunListsAll tol fccText fccLat fccP0 [![0, 0, 0]] 4 4 C U cnt := by
  obtain ⟨C, h1, h2⟩ := C58_ranges fcc_crystal fcc_ranges (by simp) (Or.inr (by simp)) ⟨4, [4, 0, 0], le_refl _, le_refl _, fcc_in_ranges.mpr ⟨rfl, rfl⟩⟩ (t := 1 / 10 ^ 10) (by norm_num) (by norm_num)
  obtain ⟨h3, h4⟩ := h1 4 (le_refl _) (le_refl _)
  refine ⟨C, h3, fun c => ?_, h2⟩
  rw [h4]
  exact fcc_in_ranges

/-- a simple cubic lattice, one or two cells, two species, no restrictions -/
def scText : Str := ofLines ["# sizes", "1 2", "bulk", "1 0 0", "0 1 0", "0 0 1", "# species", "2", "# atoms", "1", "0 0 0", "F"]

/-- what `read_lattice` returns for it -/
def scLat : LatticeIn where
  bulk := true
  sizes := [1, 2]
  latVecs := [[1, 0, 0], [0, 1, 0], [0, 0, 1]]
  nspecies := 2
  basisVecs := [[0, 0, 0]]
  restricted := false
  arrows := false
  concs := []

theorem sc_read' : (match readLattice scText with | .ok l => decide (l = scLat) | .error _ => false) = true := by decide +kernel

theorem realMat_sc : realMat (Matrix.of ![![1, 0, 0], ![0, 1, 0], ![0, 0, 1]]) = 1 := by
  ext i j
  fin_cases i <;> fin_cases j <;> simp [realMat]

theorem sc_crystal : CrystalInput scText scLat (Matrix.of ![![1, 0, 0], ![0, 1, 0], ![0, 0, 1]]) [![0, 0, 0]] 1 2 2 := by
  obtain ⟨hu, hp⟩ := cubic_usable (P := 1) (by simp) sc_cubic (d := 0) (colLat_isSub _).zero true
  refine ⟨read_of_match sc_read', rfl, ⟨[], rfl⟩, by norm_num, by norm_num, ?_, ?_, Or.inr ?_, rfl, by norm_num, by norm_num⟩
  · rw [realVecs_zero, realMat_sc]; exact hu
  · rw [realVecs_zero, realMat_sc]; exact hp
  · rw [realVecs_zero]; rfl

/-- C58 for that file and the structure with alternating layers: exactly one row of enum.out describes it. -/
example : ∃ e > 0, ∀ tol : Tol, 0 < tol.hnf → tol.hnf < e → 0 < tol.sym → tol.sym < e →
    ∀ (w : World) (a : Args) (lattice : Str) (d : Dir), (∀ l, (w.listdir l).Perm l) → (∀ i l, ((w.rnd i).shuffle l).Perm l) →
      PlainCall a lattice true → FreshDir lattice scText d →
    ∃ (rows : List EnumEntry) (d' : Dir), scriptEnum w tol a d = (pure d' : Run Dir) ∧
      dictGet d' "enum.out".toList = some (enumOutFile (scLat.enumParams (Matrix.of ![![1, 0, 0], ![0, 1, 0], ![0, 0, 1]], [![0, 0, 0]])) w.now rows) ∧ rows.Nodup ∧
      ∃! row, row ∈ rows ∧ ∃ ψ, RowDescribes 1 [0] row ψ ∧
        SameStructure (ColLattice (1 : M3 ℝ).transpose) [0] (SupLat 1 !![2, 0, 0; 0, 1, 0; 0, 0, 1]) layers (rowLattice 1 row) ψ := by
  obtain ⟨e, he, h⟩ := C58_all_structures sc_crystal rfl (by simp)
  refine ⟨e, he, fun tol t1 t2 t3 t4 w a lattice d hw hs ha hd => ?_⟩
  obtain ⟨rows, d', r1, r2, r3, r4⟩ := h tol t1 t2 t3 t4 w a lattice d hw hs ha hd
  refine ⟨rows, d', r1, r2, r3, ?_⟩
  rw [realVecs_zero, realMat_sc] at r4
  refine r4 2 !![2, 0, 0; 0, 1, 0; 0, 0, 1] (by norm_num) (le_refl _) (Or.inl (by rw [Matrix.det_fin_three]; simp)) layers layers_structure.1 ?_
  intro x _
  unfold layers
  split <;> simp

/-- a call and a directory that meet the hypotheses of C58 -/
example : ∃ (w : World) (a : Args) (d : Dir), (∀ l, (w.listdir l).Perm l) ∧ (∀ i l, ((w.rnd i).shuffle l).Perm l) ∧
    PlainCall a "lattice.in".toList true ∧ FreshDir "lattice.in".toList scText d := by
  refine ⟨⟨id, [], fun _ => 0, fun _ => ⟨id, fun _ => 0, fun _ => [], fun _ _ => 0, fun _ => true, fun _ => true, fun _ _ => true⟩⟩, ⟨false, true, "lattice.in".toList, none, none, none, none, true, none, false, none⟩,
    [("notes.txt".toList, []), ("lattice.in".toList, scText)], fun l => List.Perm.refl _, fun i l => List.Perm.refl _, ?_, ?_⟩
  · constructor <;> rfl
  · refine ⟨by decide +kernel, ?_, by decide +kernel⟩
    have : ∀ f ∈ ["notes.txt".toList, "lattice.in".toList], ¬ f.head? = some 'p' := by decide +kernel
    exact fun f hf h => this f hf h.2

/-- the call and the directory of the examples -/
def scArgs : Args := ⟨false, true, "lattice.in".toList, none, none, none, none, true, none, false, none⟩
def scDir : Dir := [("notes.txt".toList, []), ("lattice.in".toList, scText)]
def scWorld : World := ⟨id, [], fun _ => 0, fun _ => ⟨id, fun _ => 0, fun _ => [], fun _ _ => 0, fun _ => true, fun _ => true, fun _ _ => true⟩⟩

theorem scArgs_call : EnumCall scArgs := ⟨rfl, rfl, rfl, rfl, (fun _ hl => nomatch hl), (fun _ hq => nomatch hq)⟩

theorem scDir_fresh : NoResults scDir := ⟨by decide +kernel, by decide +kernel⟩

/-- a successful run -/
theorem sc_run : ∃ (tol : Tol) (d' : Dir), scriptEnum scWorld tol scArgs scDir = (pure d' : Run Dir) ∧ (∃ f ∈ d'.map (·.1), "polya.out.".toList <+: f) := by
  have hd : FreshDir "lattice.in".toList scText scDir := by
    refine ⟨by decide +kernel, ?_, by decide +kernel⟩
    have : ∀ f ∈ ["notes.txt".toList, "lattice.in".toList], ¬ f.head? = some 'p' := by decide +kernel
    exact fun f hf h => this f hf h.2
  obtain ⟨e, he, h⟩ := C58_small (free_input sc_crystal rfl (by norm_num)) (by simp) (Or.inl (by decide +kernel))
  obtain ⟨U, cnt, -, hrun⟩ := h ⟨e / 2, e / 2, 0⟩ (by simp only; linarith) (by simp only; linarith) (by simp only; linarith) (by simp only; linarith) (Set.mem_univ _)
  obtain ⟨rows, d', r1, -, -, -, r5, -⟩ := hrun scWorld scArgs "lattice.in".toList scDir (fun l => List.Perm.refl _) (fun i l => List.Perm.refl _)
    (by constructor <;> rfl) hd
  refine ⟨_, d', r1, "polya.out.".toList ++ natStr 1, ?_, List.prefix_append _ _⟩
  by_contra hm
  have := r5 1 (le_refl _) (by norm_num)
  rw [dictGet_none.mpr hm] at this
  cases this

/-- C57, C60: the successful run meets the hypotheses of `C57_rerun` and `C60_polya_and_enum`. -/
example : ∃ (tol : Tol) (d' d'' : Dir), scriptEnum scWorld tol scArgs scDir = (pure d' : Run Dir) ∧ scriptEnum scWorld tol scArgs d' = (pure d' : Run Dir) ∧
    scriptEnum scWorld tol { scArgs with polya := true } scDir = (pure d'' : Run Dir) ∧ dictGet d'' "polya.out".toList = dictGet d' "enum.out".toList ∧
    scriptEnum scWorld tol (asDistribution scArgs) d'' = (throw .valueError : Run Dir) := by
  obtain ⟨tol, d', h1, h2⟩ := sc_run
  obtain ⟨d'', h3, h4, -, h6⟩ := C60_polya_and_enum scArgs_call scDir_fresh h1 h2
  exact ⟨tol, d', d'', h1, C57_rerun scArgs_call ⟨rfl, rfl⟩ ⟨by decide, by decide, by decide⟩ h1, h3, h4, h6 scWorld tol scArgs scArgs_call rfl (fun l => List.Perm.refl _)⟩

/-- C60: a directory with tables in which the selection succeeds, as `C60_stale_tables` supposes -/
example : ∃ (tol : Tol) (d d1 d2 : Dir), scriptEnum scWorld tol (asDistribution scArgs) d = (pure d1 : Run Dir) ∧
    scriptEnum scWorld tol (asDistribution scArgs) (dictSet d "lattice.in".toList "nonsense".toList) = (pure d2 : Run Dir) ∧
    dictGet d2 "enum.in".toList = dictGet d1 "enum.in".toList := by
  obtain ⟨tol, d', h1, f, hf, hp⟩ := sc_run
  rw [C57_polya_first scArgs_call scWorld tol scDir scDir_fresh] at h1
  obtain ⟨d, h2, h3⟩ := run_bind_ok h1
  rw [scriptEnum_polya scArgs_call, if_neg (by decide +kernel)] at h2
  obtain ⟨-, h4, h5⟩ := polyaOut_inv h2
  have hin : dictGet d "enum.in".toList = none := by
    rw [h5 _ enumIn_not_numbered]
    decide +kernel
  rw [scriptEnum_enum scArgs_call, enumOut_eq, hin] at h3
  simp only [Option.isSome_none, Bool.false_eq_true, if_false] at h3
  obtain ⟨lat, -, h3⟩ := run_bind_ok h3
  obtain ⟨d1, h6, -⟩ := run_bind_ok h3
  unfold prepare at h6
  obtain ⟨d0, h7, h6⟩ := run_bind_ok h6
  have hnum : anyNumbered d "polya.out".toList = true := by
    have h2' := h2
    unfold polyaOut at h2'
    obtain ⟨l, e1, h2'⟩ := run_bind_ok h2'
    have e2 : l = scLat := by
      have e3 := runPy_eq_pure e1
      have e4 : (do let s ← readFile scDir "lattice.in".toList; readLattice s) = readLattice scText := rfl
      have e5 : readLattice scText = .ok l := e4 ▸ e3
      rw [read_of_match sc_read'] at e5
      injection e5 with e5
      exact e5.symm
    subst e2
    obtain ⟨lo, e6, h2'⟩ := run_bind_ok h2'
    obtain ⟨hi, e7, h2'⟩ := run_bind_ok h2'
    have e8 : (1 : ℤ) = lo := by injection runPy_eq_pure e6
    have e9 : (2 : ℤ) = hi := by injection runPy_eq_pure e7
    subst e8 e9
    exact (polyaLoop_inv h2').2.1 (Or.inl (by decide))
  rw [if_pos hnum] at h7
  have e := run_pure_inj h7
  subst e
  have hl : "lattice.in".toList ∈ d.map (·.1) := by
    by_contra hm
    rw [← dictGet_none, h5 _ (by decide)] at hm
    revert hm
    decide +kernel
  have hrun : scriptEnum scWorld tol (asDistribution scArgs) d = (pure d1 : Run Dir) := by
    rw [scriptEnum_dist scArgs_call]; exact h6
  obtain ⟨d2, h8, h9⟩ := C60_stale_tables scArgs_call scWorld tol ((anyNumbered_iff _ _).mp hnum) ⟨hl, by decide, by decide, by intro k f hkf; cases hkf⟩ "nonsense".toList hrun
  exact ⟨tol, d, d1, d2, hrun, h8, h9⟩

/-- C60: calls that cannot succeed: a selection of five structures by size or by shape that is not saved, the same saved, one size given twice -/
example (tol : Tol) (d' : Dir) :
    scriptEnum scWorld tol { scArgs with distribution := some ["Shape".toList, "5".toList] } scDir ≠ (pure d' : Run Dir) ∧
    scriptEnum scWorld tol { scArgs with distribution := some ["size".toList, "5".toList], savedist := true } scDir ≠ (pure d' : Run Dir) ∧
    scriptEnum scWorld tol { scArgs with sizes := some (2, 2) } scDir ≠ (pure d' : Run Dir) := by
  have hc : ∀ (l : List Str) (b : Bool), l.length = 2 → EnumCall { scArgs with distribution := some l, savedist := b } := fun l b hl =>
    ⟨rfl, rfl, rfl, rfl, (fun l' h => by injection h with h; rw [← h]; exact hl), (fun _ hq => nomatch hq)⟩
  refine ⟨?_, ?_, ?_⟩
  · exact C60_not_saved (hc _ false rfl) scWorld tol scDir_fresh.2 (by decide +kernel) rfl d'
  · exact C60_saved_sizes (hc _ true rfl) scWorld tol scDir_fresh.2 (by decide +kernel) d'
  · exact C60_empty_sizes (a := { scArgs with sizes := some (2, 2) }) ⟨rfl, rfl, rfl, rfl, (fun _ hl => nomatch hl), (fun _ hq => nomatch hq)⟩
      scWorld tol scDir_fresh.2 rfl (le_refl _) d'

end Phenum
