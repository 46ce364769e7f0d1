import Verif.Proof.ContentsScale
import Verif.Props.ProgramPoscar
import Verif.Props.ProgramFloat
/-
C78: the default call of the program with ranges of concentrations.
-/
namespace Phenum
open Spec

/-- The fractions of the species lie in the ranges: of the `N` sites `pos` of one cell of `L`, the fraction occupied by species `i + 1` is between the
two ends of the `i`-th range (in either order; the third number is the denominator). -/
def Spec.FractionsWithin (S L : Set (Fin 3 → ℝ)) (N : ℕ) (ranges : List ConcRange) (χ : Decoration) : Prop :=
  ∃ pos, IsNumbering S L N pos ∧ ∀ i r, ranges[i]? = some r →
    ((min r.1 r.2.1 : ℤ) : ℚ) / r.2.2 ≤ (((Finset.range N).filter (fun j => (χ (pos j)).1 = i + 1)).card : ℚ) / N ∧
    (((Finset.range N).filter (fun j => (χ (pos j)).1 = i + 1)).card : ℚ) / N ≤ ((max r.1 r.2.1 : ℤ) : ℚ) / r.2.2

/-- The decoration of the crystal is one of those asked for: it is periodic with respect to some superlattice of at most `hi` cells, every site
is occupied by an atom of a species `1 .. k` that is not displaced, and the fractions of the species lie in the ranges. -/
def Spec.AllowedCrystal (P : M3 ℝ) (bas : List (Fin 3 → ℝ)) (hi k : ℕ) (ranges : List ConcRange) (χ : Decoration) : Prop :=
  ∃ M : M3 ℤ, 1 ≤ M.det.natAbs ∧ M.det.natAbs ≤ hi ∧
    PeriodicOn (CrystalSites (ColLattice P.transpose) bas) (SupLat P M) χ ∧
    (∀ x ∈ CrystalSites (ColLattice P.transpose) bas, (χ x).2 = 0 ∧ 1 ≤ (χ x).1 ∧ (χ x).1 ≤ k) ∧
    FractionsWithin (CrystalSites (ColLattice P.transpose) bas) (SupLat P M) (bas.length * M.det.natAbs) ranges χ

theorem crystalSites_add {P : M3 ℝ} {bas : List V3} {x t : V3} (hx : x ∈ CrystalSites (ColLattice P.transpose) bas) (ht : t ∈ ColLattice P.transpose) :
    x + t ∈ CrystalSites (ColLattice P.transpose) bas := by
  obtain ⟨d, hd, hm⟩ := hx
  refine ⟨d, hd, ?_⟩
  have := (colLat_isSub _).add _ hm _ ht
  convert this using 1
  abel

/-- the composition of the smallest cell is in the ranges if the fractions of any cell are -/
theorem inRanges_of_fractions {S L L' : Set V3} (hL : IsSub L) (hL' : IsSub L') (hsub : L ⊆ L') (hS : ∀ x ∈ S, ∀ t ∈ L', x + t ∈ S) {N N' : ℕ} (hN : 0 < N)
    {χ : Decoration} (hper : PeriodicOn S L' χ) {c : Conc} {aconcs : List ℚ} {ranges : List ConcRange} (hlen : c.length = ranges.length)
    (h : FractionsWithin S L N ranges χ) (h' : HasContents S L' N' (Composed c aconcs 6) χ) (hsum : c.sum = N') : InConcRanges ranges N' c := by
  obtain ⟨pos, hp, hf⟩ := h
  obtain ⟨pos', z', hp', hd', hc'⟩ := h'
  obtain ⟨q, hq, hcount⟩ := count_scale hL hL' hsub hS hp hp'
  have hq0 : 0 < q := Nat.pos_of_ne_zero (by rintro rfl; omega)
  refine ⟨hsum, ?_⟩
  unfold InRanges
  rw [List.forall₂_iff_get]
  refine ⟨by simpa using hlen, fun i h1 h2 => ?_⟩
  have h1' : i < c.length := by simpa using h1
  have e2 := composed_count_sites hL' hp' hd' hc' h1'
  have hi := hf i ranges[i] (List.getElem?_eq_getElem h2)
  rw [hcount (fun x => (χ x).1 = i + 1) (fun x hx t ht => by rw [hper x hx t ht]), ← e2, getD_lt h1', hq] at hi
  have e : ((q * c[i] : ℕ) : ℚ) / ((q * N' : ℕ) : ℚ) = (((c[i] : ℕ) : ℤ) : ℚ) / N' := by
    push_cast
    exact mul_div_mul_left _ _ (by positivity)
  rw [e] at hi
  simpa using hi

/-- the fractions of a structure with a composition in the ranges -/
theorem fractions_of_inRanges {S L : Set V3} (hL : IsSub L) {N : ℕ} {χ : Decoration} {c : Conc} {aconcs : List ℚ} {ranges : List ConcRange}
    (h : HasContents S L N (Composed c aconcs 6) χ) (hr : InConcRanges ranges N c) : FractionsWithin S L N ranges χ := by
  obtain ⟨pos, z, hp, hd, hc⟩ := h
  refine ⟨pos, hp, fun i r hi => ?_⟩
  have h2 := hr.2
  unfold InRanges at h2
  rw [List.forall₂_iff_get] at h2
  obtain ⟨hl, h2⟩ := h2
  obtain ⟨hlt, rfl⟩ := List.getElem?_eq_some_iff.mp hi
  have hlt' : i < c.length := by rw [List.length_map] at hl; omega
  have := h2 i (by simpa using hlt') hlt
  rw [← composed_count_sites hL hp hd hc hlt', getD_lt hlt']
  simpa using this

theorem entry_size {n : ℕ} (hn : 1 ≤ n) {u : M3 ℤ} (hu : u ∈ findAllHNFs n) (snf : SnfState) (z : Config) :
    (enumEntry (hnfNumbers u) snf z).size = n := by
  have hd := findAll_det hn hu
  obtain ⟨a, b, c, d, e, f, -, -, -, -, rfl⟩ := (mem_findAllHNFs hn u).mp hu
  rw [hnf_det] at hd
  simpa [hnfMat, enumEntry, hnfNumbers] using hd

section
variable {fl : ℚ → ℚ} {δ : ℝ} {text : Str} {lat : LatticeIn} {P0 : Matrix (Fin 3) (Fin 3) ℚ} {b0 : List (Fin 3 → ℚ)} {hi k : ℕ} {ranges : List ConcRange} {d : ℤ}

/-- auxiliary: with tolerances at which the searches are exact -/
theorem ranges_crystals_at (h : CrystalInput text lat P0 b0 1 hi k) (hr : RangesInput lat k ranges d) (hk3 : k ≤ 3) (hna : lat.arrowFractions.sum = 0)
    (hsize : b0.length * hi ≤ 20) (hne : ∃ n c, 1 ≤ n ∧ n ≤ hi ∧ InConcRanges ranges (b0.length * n) c) {tol : Tol} (ht : ExactTol P0 b0 hi tol)
    (htc : 0 ≤ tol.conc) (htc' : tol.conc * 20 * d < 1) :
    ∀ (w : World) (a : Args) (lattice : Str) (dir : Dir), (∀ l, (w.listdir l).Perm l) →
        PlainCall a lattice false → FreshDir lattice text dir →
      ∃ (rows : List EnumEntry) (dir' : Dir), scriptEnum w tol a dir = (pure dir' : Run Dir) ∧
        dictGet dir' "enum.out".toList = some (enumOutFile (lat.enumParams (P0, b0)) w.now rows) ∧ rows.Nodup ∧
        (∀ row ∈ rows, RowOfCell b0.length 1 hi (fun n => concsFree n k b0.length) row ∧
          ∃ ψ, RowDescribes (realMat P0) (realVecs b0) row ψ ∧ AllowedCrystal (realMat P0) (realVecs b0) hi k ranges ψ) ∧
        ∀ χ, AllowedCrystal (realMat P0) (realVecs b0) hi k ranges χ →
          ∃! row, row ∈ rows ∧ ∃ ψ, RowDescribes (realMat P0) (realVecs b0) row ψ ∧
            SameDecoration (ColLattice (realMat P0).transpose) (realVecs b0) χ ψ := by
  intro w a lattice dir hw ha hd
  obtain ⟨C, hC, hin⟩ := ranges_enum h hr hsize hne htc htc'
  obtain ⟨rows, dir', r1, r2, r3, r4, r5⟩ := crystals_rows hin hk3 hna hsize ht rfl w a lattice dir hw ha hd
  have hb : 0 < b0.length := by
    have := List.length_pos_iff.mpr h.cell.nonempty
    rwa [realVecs_length] at this
  have hrl : ranges.length = k := by rw [← py_mapM_length _ hr.parsed, hr.length]
  refine ⟨rows, dir', r1, r2, r3.nodup, fun row hrow => ⟨?_, ?_⟩, fun χ hχ => ?_⟩
  · obtain ⟨n, u, snf, z, h1, h2, h3, h4, h5, h6, c, hc, h7⟩ := (r4 row hrow).1
    refine ⟨n, u, snf, z, h1, h2, h3, h4, h5, h6, c, ?_, h7⟩
    obtain ⟨c1, c2⟩ := (hin.concs n h1 h2).2.2 c hc
    exact ((C25_concs_complete n k b0.length).2 c).mpr ⟨c1, by rw [c2, mul_comm]⟩
  · obtain ⟨n, u, snf, z, h1, h2, h3, h4, h5, -⟩ := (r4 row hrow).1
    obtain ⟨n', h1', h2', hsz, c, hc, ψ, q1, q2, q3, -⟩ := r3.valid row hrow
    have hn : n' = n := by
      rw [h5, entry_size h1 h3] at hsz
      exact_mod_cast hsz.symm
    subst hn
    rw [h5, rowLattice_entry h1 h3] at q2 q3
    have hdet := findAll_det h1 h3
    have hab : u.det.natAbs = n' := by rw [hdet]; rfl
    refine ⟨ψ, q1, u, by rw [hab]; exact h1, by rw [hab]; exact h2, q2, ?_, ?_⟩
    · intro x hx
      obtain ⟨pos, z', hp, hdr, hco⟩ := q3
      obtain ⟨j, ⟨hj, hm⟩, -⟩ := hp.unique x hx
      obtain ⟨p, e1, e2⟩ := hdr.2 x hx j hj hm
      have hmem := List.mem_of_getElem? e1
      have hpl := (plain_iff_composed (no_arrows hr.fractions hna c) z').mpr hco
      have hs := hco.species p hmem
      rw [((hin.concs n' h1 h2).2.2 c hc).1] at hs
      rw [e2]
      refine ⟨?_, hs⟩
      simp [siteValue, hpl.1 p hmem]
    · rw [hab]
      refine fractions_of_inRanges (colLat_isSub _) q3 ?_
      rw [realVecs_length]
      exact ((hC n' h1 h2).2 c).mp hc
  · obtain ⟨M, m1, m2, hper, hsp, hf⟩ := hχ
    refine r5 M m1 m2 χ hper hsp (fun M' c a1 a2 hsub hper' c1 c2 hcon => ?_)
    rw [(hC _ a1 a2).2]
    refine inRanges_of_fractions (colLat_isSub _) (colLat_isSub _) hsub (fun x hx t ht => crystalSites_add hx (supLat_sub _ _ ht)) ?_ hper' (by rw [c1, hrl]) hf hcon c2
    rw [realVecs_length]
    exact Nat.mul_pos hb m1

/-- C78. The default call `enumeration.py -enum` (without `-super`) with ranges of concentrations, sizes `1` to `hi`, two or three species, no displaced atoms: the rows of
enum.out are all different; each describes a crystal whose concentrations lie in the ranges; and every such crystal that is periodic with respect to some superlattice of at
most `hi` cells is, up to a symmetry of the parent crystal, described by exactly one row. -/
theorem C78_crystals_in_ranges (h : CrystalInput text lat P0 b0 1 hi k) (hr : RangesInput lat k ranges d) (hk3 : k ≤ 3) (hna : lat.arrowFractions.sum = 0)
    (hsize : b0.length * hi ≤ 20) (hne : ∃ n c, 1 ≤ n ∧ n ≤ hi ∧ InConcRanges ranges (b0.length * n) c) :
    ∃ e > 0, ∀ tol : Tol, 0 < tol.hnf → tol.hnf < e → 0 < tol.sym → tol.sym < e → 0 ≤ tol.conc → tol.conc * 20 * d < 1 →
      ∀ (w : World) (a : Args) (lattice : Str) (dir : Dir), (∀ l, (w.listdir l).Perm l) →
        PlainCall a lattice false → FreshDir lattice text dir →
      ∃ (rows : List EnumEntry) (dir' : Dir), scriptEnum w tol a dir = (pure dir' : Run Dir) ∧
        dictGet dir' "enum.out".toList = some (enumOutFile (lat.enumParams (P0, b0)) w.now rows) ∧ rows.Nodup ∧
        (∀ row ∈ rows, ∃ ψ, RowDescribes (realMat P0) (realVecs b0) row ψ ∧ AllowedCrystal (realMat P0) (realVecs b0) hi k ranges ψ) ∧
        ∀ χ, AllowedCrystal (realMat P0) (realVecs b0) hi k ranges χ →
          ∃! row, row ∈ rows ∧ ∃ ψ, RowDescribes (realMat P0) (realVecs b0) row ψ ∧
            SameDecoration (ColLattice (realMat P0).transpose) (realVecs b0) χ ψ := by
  refine small_tol h.cell.det h.cell.nonempty hi (fun tol ht t1 t2 w a lattice dir hw ha hd => ?_)
  obtain ⟨rows, dir', r1, r2, r3, r4, r5⟩ := ranges_crystals_at h hr hk3 hna hsize hne ht t1 t2 w a lattice dir hw ha hd
  exact ⟨rows, dir', r1, r2, r3, fun row hrow => (r4 row hrow).2, r5⟩

/-- C78. The same with the tolerances of the code. -/
theorem C78_shipped (h : CrystalInput text lat P0 b0 1 hi k) (hr : RangesInput lat k ranges d) (hk3 : k ≤ 3) (hna : lat.arrowFractions.sum = 0)
    (hsize : b0.length * hi ≤ 20) (hne : ∃ n c, 1 ≤ n ∧ n ≤ hi ∧ InConcRanges ranges (b0.length * n) c) (hd : d ≤ 10 ^ 8)
    {K K' : ℝ} {g D : ℕ} (hc : Coarse (realMat P0) (realVecs b0) K K' g D (1 / 10 ^ 7)) :
    ∀ (w : World) (a : Args) (lattice : Str) (dir : Dir), (∀ l, (w.listdir l).Perm l) →
        PlainCall a lattice false → FreshDir lattice text dir →
      ∃ (rows : List EnumEntry) (dir' : Dir), scriptEnum w shippedTol a dir = (pure dir' : Run Dir) ∧
        dictGet dir' "enum.out".toList = some (enumOutFile (lat.enumParams (P0, b0)) w.now rows) ∧ rows.Nodup ∧
        (∀ row ∈ rows, ∃ ψ, RowDescribes (realMat P0) (realVecs b0) row ψ ∧ AllowedCrystal (realMat P0) (realVecs b0) hi k ranges ψ) ∧
        ∀ χ, AllowedCrystal (realMat P0) (realVecs b0) hi k ranges χ →
          ∃! row, row ∈ rows ∧ ∃ ψ, RowDescribes (realMat P0) (realVecs b0) row ψ ∧
            SameDecoration (ColLattice (realMat P0).transpose) (realVecs b0) χ ψ := by
  intro w a lattice dir hw ha hdir
  have hd' : (d : ℚ) ≤ 10 ^ 8 := by exact_mod_cast hd
  obtain ⟨rows, dir', r1, r2, r3, r4, r5⟩ := ranges_crystals_at h hr hk3 hna hsize hne (coarse_exact h.cell.det hc (size_hi h hsize))
    (show (0 : ℚ) ≤ 1 / 10 ^ 10 by norm_num) (show (1 / 10 ^ 10 : ℚ) * 20 * d < 1 by linarith) w a lattice dir hw ha hdir
  exact ⟨rows, dir', r1, r2, r3, fun row hrow => (r4 row hrow).2, r5⟩

/-- C78. The same with rounding errors: every run ends with these files. -/
theorem C78_noise (h : CrystalInput text lat P0 b0 1 hi k) (hr : RangesInput lat k ranges d) (hk3 : k ≤ 3) (hna : lat.arrowFractions.sum = 0)
    (hle : ∀ r ∈ ranges, max r.1 r.2.1 ≤ d) (hsize : b0.length * hi ≤ 20) (hne : ∃ n c, 1 ≤ n ∧ n ≤ hi ∧ InConcRanges ranges (b0.length * n) c) (hd : d ≤ 10 ^ 8)
    {K K' : ℝ} {g D : ℕ} (h0 : 0 ≤ δ) (hlt : δ < 1 / 10 ^ 10) (hc : Coarse (realMat P0) (realVecs b0) K K' g D (1 / 10 ^ 7 + δ)) (hfl : RoundsToNearest fl) :
    ∀ (w : World) (a : Args) (lattice : Str) (dir : Dir), (∀ l, (w.listdir l).Perm l) →
        PlainCall a lattice false → FreshDir lattice text dir →
      ∃ (rows : List EnumEntry) (dir' : Dir), AlwaysReturns (scriptEnumN fl δ w shippedTol a dir) dir' ∧
        dictGet dir' "enum.out".toList = some (enumOutFile (lat.enumParams (P0, b0)) w.now rows) ∧ rows.Nodup ∧
        (∀ row ∈ rows, ∃ ψ, RowDescribes (realMat P0) (realVecs b0) row ψ ∧ AllowedCrystal (realMat P0) (realVecs b0) hi k ranges ψ) ∧
        ∀ χ, AllowedCrystal (realMat P0) (realVecs b0) hi k ranges χ →
          ∃! row, row ∈ rows ∧ ∃ ψ, RowDescribes (realMat P0) (realVecs b0) row ψ ∧
            SameDecoration (ColLattice (realMat P0).transpose) (realVecs b0) χ ψ := by
  intro w a lattice dir hw ha hdir
  obtain ⟨rows, dir', r1, r2⟩ := C78_shipped h hr hk3 hna hsize hne hd (coarse_mono hc (by norm_num) (by linarith)) w a lattice dir hw ha hdir
  refine ⟨rows, dir', C74_same_files_ranges h hr hle hd hsize (Or.inl hna) hne h0 hlt hc hfl (arrowsKept_zero hfl (sum_zero hr.fractions hna) _) ?_
    w a lattice false dir dir' hw ha hdir r1, r2⟩
  unfold NumbersFit
  rw [if_pos hna]
  calc 48 * (b0.length * hi) * k ^ (b0.length * hi) ≤ 48 * 20 * 3 ^ 20 :=
        Nat.mul_le_mul (Nat.mul_le_mul_left _ hsize) (le_trans (Nat.pow_le_pow_left hk3 _) (Nat.pow_le_pow_right (by norm_num) hsize))
    _ ≤ 2 ^ 53 := by norm_num

/-- C78. From lattice.in with ranges of concentrations to POSCAR files, with the tolerances of the code: each POSCAR shows a crystal with concentrations in the ranges, and every such crystal is, up to a symmetry of the parent crystal, shown by exactly one POSCAR. -/
theorem C78_one_poscar (h : CrystalInput text lat P0 b0 1 hi k) (hr : RangesInput lat k ranges d) (hk3 : k ≤ 3) (hna : lat.arrowFractions.sum = 0) (h7 : hi ≤ 7)
    (hsize : b0.length * hi ≤ 18) (hdec : ∀ i j, SevenDecimals (P0 i j)) (hdec' : ∀ v ∈ b0, ∀ i, SevenDecimals (v i))
    (hne : ∃ n c, 1 ≤ n ∧ n ≤ hi ∧ InConcRanges ranges (b0.length * n) c) (hd : d ≤ 10 ^ 8)
    {K K' : ℝ} {g D : ℕ} (hc : Coarse (realMat P0) (realVecs b0) K K' g D (1 / 10 ^ 7)) :
    ∀ (w : World) (a : Args) (lattice : Str) (dir : Dir), (∀ l, (w.listdir l).Perm l) → '\n' ∉ w.now →
        PlainCall a lattice false → FreshDir lattice text dir →
      ∃ (file : Str) (dir' : Dir), scriptEnum w shippedTol a dir = (pure dir' : Run Dir) ∧ dictGet dir' "enum.out".toList = some file ∧
        ∀ m : MakeArgs, AllPoscars m → CanReduce (realMat P0).transpose hi m.mink.truth → ∀ rnd : ReadStruct → ℕ → ℕ → ℝ,
        ∃ outs : List (Str × Poscar), makeStr (some m) file rnd = some (.ok (outs.map (fun o => OutFile.poscar o.1 o.2))) ∧ (outs.map (·.1)).Nodup ∧
          (∀ o ∈ outs, ∃ ψ, AllowedCrystal (realMat P0) (realVecs b0) hi k ranges ψ ∧ PoscarShows (CrystalSites (ColLattice (realMat P0).transpose) (realVecs b0)) k o.2 ψ) ∧
          ∀ χ, AllowedCrystal (realMat P0) (realVecs b0) hi k ranges χ →
            ∃! o, o ∈ outs ∧ ∃ ψ, PoscarShows (CrystalSites (ColLattice (realMat P0).transpose) (realVecs b0)) k o.2 ψ ∧
              SameDecoration (ColLattice (realMat P0).transpose) (realVecs b0) χ ψ := by
  intro w a lattice dir hw hnow ha hdir
  have hd' : (d : ℚ) ≤ 10 ^ 8 := by exact_mod_cast hd
  obtain ⟨rows, dir', r1, r2, r3, r4, r5⟩ := ranges_crystals_at h hr hk3 hna (by omega) hne (coarse_exact h.cell.det hc (size_hi h (by omega)))
    (show (0 : ℚ) ≤ 1 / 10 ^ 10 by norm_num) (show (1 / 10 ^ 10 : ℚ) * 20 * d < 1 by linarith) w a lattice dir hw ha hdir
  refine ⟨_, dir', r1, r2, fun m hm hred rnd => ?_⟩
  exact poscars_of_rows h.cell h.primitive (by rw [h.species.1]; simp) hk3 h7 hsize hdec hdec' hnow r3
    r4 r5 m hm hred rnd

/-- the counts of at most 20 sites and three species without arrows are exactly representable -/
theorem numbersFit_small (hna : lat.arrowFractions.sum = 0) (hk3 : k ≤ 3) {N : ℕ} (hsize : N ≤ 20) : NumbersFit lat N k := by
  unfold NumbersFit
  rw [if_pos hna]
  calc 48 * N * k ^ N ≤ 48 * 20 * 3 ^ 20 :=
        Nat.mul_le_mul (Nat.mul_le_mul_left _ hsize) (le_trans (Nat.pow_le_pow_left hk3 _) (Nat.pow_le_pow_right (by norm_num) hsize))
    _ ≤ 2 ^ 53 := by norm_num

/-- C78. From lattice.in with ranges of concentrations to POSCAR files when enumeration.py has rounding errors (makeStr is computed exactly): every run writes the same enum.out, from
which makeStr makes exactly one POSCAR for every crystal with concentrations in the ranges. -/
theorem C78_one_poscar_noise (h : CrystalInput text lat P0 b0 1 hi k) (hr : RangesInput lat k ranges d) (hk3 : k ≤ 3) (hna : lat.arrowFractions.sum = 0) (h7 : hi ≤ 7)
    (hle : ∀ r ∈ ranges, max r.1 r.2.1 ≤ d) (hsize : b0.length * hi ≤ 18) (hdec : ∀ i j, SevenDecimals (P0 i j)) (hdec' : ∀ v ∈ b0, ∀ i, SevenDecimals (v i))
    (hne : ∃ n c, 1 ≤ n ∧ n ≤ hi ∧ InConcRanges ranges (b0.length * n) c) (hd : d ≤ 10 ^ 8)
    {K K' : ℝ} {g D : ℕ} (h0 : 0 ≤ δ) (hlt : δ < 1 / 10 ^ 10) (hc : Coarse (realMat P0) (realVecs b0) K K' g D (1 / 10 ^ 7 + δ)) (hfl : RoundsToNearest fl) :
    ∀ (w : World) (a : Args) (lattice : Str) (dir : Dir), (∀ l, (w.listdir l).Perm l) → '\n' ∉ w.now →
        PlainCall a lattice false → FreshDir lattice text dir →
      ∃ (file : Str) (dir' : Dir), AlwaysReturns (scriptEnumN fl δ w shippedTol a dir) dir' ∧ dictGet dir' "enum.out".toList = some file ∧
        ∀ m : MakeArgs, AllPoscars m → CanReduce (realMat P0).transpose hi m.mink.truth → ∀ rnd : ReadStruct → ℕ → ℕ → ℝ,
        ∃ outs : List (Str × Poscar), makeStr (some m) file rnd = some (.ok (outs.map (fun o => OutFile.poscar o.1 o.2))) ∧ (outs.map (·.1)).Nodup ∧
          (∀ o ∈ outs, ∃ ψ, AllowedCrystal (realMat P0) (realVecs b0) hi k ranges ψ ∧ PoscarShows (CrystalSites (ColLattice (realMat P0).transpose) (realVecs b0)) k o.2 ψ) ∧
          ∀ χ, AllowedCrystal (realMat P0) (realVecs b0) hi k ranges χ →
            ∃! o, o ∈ outs ∧ ∃ ψ, PoscarShows (CrystalSites (ColLattice (realMat P0).transpose) (realVecs b0)) k o.2 ψ ∧
              SameDecoration (ColLattice (realMat P0).transpose) (realVecs b0) χ ψ := by
  intro w a lattice dir hw hnow ha hdir
  obtain ⟨file, dir', r1, r2⟩ := C78_one_poscar h hr hk3 hna h7 hsize hdec hdec' hne hd (coarse_mono hc (by norm_num) (by linarith)) w a lattice dir hw hnow ha hdir
  exact ⟨file, dir', C74_same_files_ranges h hr hle hd (by omega) (Or.inl hna) hne h0 hlt hc hfl (arrowsKept_zero hfl (sum_zero hr.fractions hna) _)
    (numbersFit_small hna hk3 (by omega)) w a lattice false dir dir' hw ha hdir r1, r2⟩

/-- C74. From lattice.in without restrictions to POSCAR files when enumeration.py has rounding errors (makeStr is computed exactly): every run writes the same enum.out, from which makeStr
makes exactly one POSCAR for every crystal. -/
theorem C74_one_poscar (h : CrystalInput text lat P0 b0 1 hi k) (hfree : lat.restricted = false) (hk3 : k ≤ 3) (h7 : hi ≤ 7) (hsize : b0.length * hi ≤ 18)
    (hdec : ∀ i j, SevenDecimals (P0 i j)) (hdec' : ∀ v ∈ b0, ∀ i, SevenDecimals (v i))
    {K K' : ℝ} {g D : ℕ} (h0 : 0 ≤ δ) (hlt : δ < 1 / 10 ^ 10) (hc : Coarse (realMat P0) (realVecs b0) K K' g D (1 / 10 ^ 7 + δ)) (hfl : RoundsToNearest fl) :
    ∀ (w : World) (a : Args) (lattice : Str) (dir : Dir), (∀ l, (w.listdir l).Perm l) → '\n' ∉ w.now →
        PlainCall a lattice false → FreshDir lattice text dir →
      ∃ (file : Str) (dir' : Dir), AlwaysReturns (scriptEnumN fl δ w shippedTol a dir) dir' ∧ dictGet dir' "enum.out".toList = some file ∧
        ∀ m : MakeArgs, AllPoscars m → CanReduce (realMat P0).transpose hi m.mink.truth → ∀ rnd : ReadStruct → ℕ → ℕ → ℝ,
        ∃ outs : List (Str × Poscar), makeStr (some m) file rnd = some (.ok (outs.map (fun o => OutFile.poscar o.1 o.2))) ∧ (outs.map (·.1)).Nodup ∧
          (∀ o ∈ outs, ∃ ψ, PoscarShows (CrystalSites (ColLattice (realMat P0).transpose) (realVecs b0)) k o.2 ψ) ∧
          ∀ (M : M3 ℤ), 1 ≤ M.det.natAbs → M.det.natAbs ≤ hi → ∀ χ : Decoration,
            PeriodicOn (CrystalSites (ColLattice (realMat P0).transpose) (realVecs b0)) (SupLat (realMat P0) M) χ →
            (∀ x ∈ CrystalSites (ColLattice (realMat P0).transpose) (realVecs b0), (χ x).2 = 0 ∧ 1 ≤ (χ x).1 ∧ (χ x).1 ≤ k) →
            ∃! o, o ∈ outs ∧ ∃ ψ, PoscarShows (CrystalSites (ColLattice (realMat P0).transpose) (realVecs b0)) k o.2 ψ ∧
              SameDecoration (ColLattice (realMat P0).transpose) (realVecs b0) χ ψ := by
  intro w a lattice dir hw hnow ha hdir
  obtain ⟨file, dir', r1, r2⟩ := C63_one_poscar h hfree hk3 h7 hsize hdec hdec' (coarse_mono hc (by norm_num) (by linarith)) w a lattice dir hw hnow ha hdir
  exact ⟨file, dir', C74_same_files h hfree (by omega) h0 hlt hc hfl (numbersFit_small (by rw [free_fractions hfree]; simp) hk3 (by omega)) w a lattice false dir dir' hw ha hdir r1, r2⟩

end

/-- a simple cubic lattice, one or two cells, two species with concentrations between one and three quarters each -/
def scrText : Str := ofLines ["# sizes", "1 2", "bulk", "1 0 0", "0 1 0", "0 0 1", "# species", "2", "# atoms", "1", "0 0 0", "T", "F", "1 3 4", "3 1 4"]

/-- what `read_lattice` returns for it -/
def scrLat : LatticeIn where
  bulk := true
  sizes := [1, 2]
  latVecs := [[1, 0, 0], [0, 1, 0], [0, 0, 1]]
  nspecies := 2
  basisVecs := [[0, 0, 0]]
  restricted := true
  arrows := false
  concs := [[1, 3, 4], [3, 1, 4]]

theorem scr_read' : (match readLattice scrText with | .ok l => decide (l = scrLat) | .error _ => false) = true := by decide +kernel

theorem scr_crystal : CrystalInput scrText scrLat (Matrix.of ![![1, 0, 0], ![0, 1, 0], ![0, 0, 1]]) [![0, 0, 0]] 1 2 2 := by
  obtain ⟨hu, hp⟩ := cubic_usable (P := 1) (by simp) sc_cubic (d := 0) (colLat_isSub _).zero true
  refine ⟨read_of_match scr_read', rfl, ⟨[], rfl⟩, by norm_num, by norm_num, ?_, ?_, Or.inr ?_, rfl, by norm_num, by norm_num⟩
  · rw [realVecs_zero, realMat_sc]; exact hu
  · rw [realVecs_zero, realMat_sc]; exact hp
  · rw [realVecs_zero]; rfl

theorem scr_fractions : scrLat.arrowFractions = [0, 0] := by decide +kernel

theorem scr_ranges : RangesInput scrLat 2 [(1, 3, 4), (3, 1, 4)] 4 := by
  refine ⟨rfl, by decide +kernel, rfl, ⟨by norm_num, by simp⟩, by simp, ?_⟩
  rw [scr_fractions]
  simp

theorem scr_some : InConcRanges [(1, 3, 4), (3, 1, 4)] (([![0, 0, 0]] : List (Fin 3 → ℚ)).length * 2) [1, 1] := by
  refine ⟨rfl, .cons ?_ (.cons ?_ .nil)⟩ <;> norm_num

/-- alternating layers are allowed: one half of each species -/
theorem scr_layers : AllowedCrystal 1 [0] 2 2 [(1, 3, 4), (3, 1, 4)] layers := by
  have hdet : (!![2, 0, 0; 0, 1, 0; 0, 0, 1] : M3 ℤ).det = 2 := by rw [Matrix.det_fin_three]; simp
  refine ⟨!![2, 0, 0; 0, 1, 0; 0, 0, 1], by rw [hdet]; decide, by rw [hdet]; decide, layers_structure.1, ?_, ?_⟩
  · intro x _
    unfold layers
    split <;> simp
  · rw [hdet]
    obtain ⟨pos, z, hp, hd, hc⟩ := layers_structure.2.2
    have hc' := (plain_iff_composed (aconcs := [0, 0]) (by
      intro i hi
      simp only [List.length_cons, List.length_nil] at hi
      interval_cases i <;> decide +kernel) z).mp hc
    exact fractions_of_inRanges (colLat_isSub _) ⟨pos, z, hp, hd, hc'⟩ scr_some

/-- the crystal with a single species is not -/
theorem scr_single {ψ : Decoration} (hψ : ∀ x ∈ CrystalSites (ColLattice (1 : M3 ℝ).transpose) [0], ψ x = (1, 0)) : ¬ AllowedCrystal 1 [0] 2 2 [(1, 3, 4), (3, 1, 4)] ψ := by
  rintro ⟨M, m1, -, -, -, pos, hp, hf⟩
  have := (hf 0 (1, 3, 4) rfl).2
  have e : (Finset.range ([(0 : V3)].length * M.det.natAbs)).filter (fun j => (ψ (pos j)).1 = 0 + 1) = Finset.range ([(0 : V3)].length * M.det.natAbs) := by
    apply Finset.filter_true_of_mem
    intro j hj
    rw [hψ _ (hp.site j (Finset.mem_range.mp hj))]
  rw [e, Finset.card_range, div_self (by
    have : 0 < [(0 : V3)].length * M.det.natAbs := by rw [List.length_singleton, one_mul]; exact m1
    exact_mod_cast this.ne')] at this
  norm_num at this

/-- C78 for that file in double precision: every run lists alternating layers exactly once, and lists no crystal with a single species. -/
example {δ : ℝ} (h0 : 0 ≤ δ) (hlt : δ < 1 / 10 ^ 10) (w : World) (hw : ∀ l, (w.listdir l).Perm l) :
    ∃ (rows : List EnumEntry) (d' : Dir),
      AlwaysReturns (scriptEnumN fl53 δ w shippedTol ⟨false, true, "lattice.in".toList, none, none, none, none, false, none, false, none⟩
        [("notes.txt".toList, []), ("lattice.in".toList, scrText)]) d' ∧
      dictGet d' "enum.out".toList = some (enumOutFile (scrLat.enumParams (Matrix.of ![![1, 0, 0], ![0, 1, 0], ![0, 0, 1]], [![0, 0, 0]])) w.now rows) ∧ rows.Nodup ∧
      (∃! row, row ∈ rows ∧ ∃ ψ, RowDescribes 1 [0] row ψ ∧ SameDecoration (ColLattice (1 : M3 ℝ).transpose) [0] layers ψ) ∧
      ∀ row ∈ rows, ¬ RowDescribes 1 [0] row (fun _ => (1, 0)) := by
  obtain ⟨K, K', g, hc⟩ := C74_decimals sc_decimal h0 (show δ ≤ 1 / 10 ^ 8 by
    have : (1 / 10 ^ 10 : ℝ) ≤ 1 / 10 ^ 8 := by norm_num
    linarith)
  obtain ⟨rows, d', r1, r2, r3, r4, r5⟩ := C78_noise scr_crystal scr_ranges (by norm_num) (by rw [scr_fractions]; simp) (by simp) (by simp)
    ⟨2, [1, 1], by norm_num, le_refl _, scr_some⟩ (by norm_num) h0 hlt hc fl53_nearest w
    ⟨false, true, "lattice.in".toList, none, none, none, none, false, none, false, none⟩ "lattice.in".toList [("notes.txt".toList, []), ("lattice.in".toList, scrText)] hw
    (by constructor <;> rfl) (by
      refine ⟨by decide +kernel, ?_, by decide +kernel⟩
      have : ∀ f ∈ ["notes.txt".toList, "lattice.in".toList], ¬ f.head? = some 'p' := by decide +kernel
      exact fun f hf h => this f hf h.2)
  rw [realVecs_zero, realMat_sc] at r4 r5
  refine ⟨rows, d', r1, r2, r3, r5 _ scr_layers, fun row hrow hdes => ?_⟩
  obtain ⟨ψ, q1, q2⟩ := r4 row hrow
  exact scr_single (fun x hx => (row_describes_unique q1 hdes) x hx) q2

end Phenum
