import Verif.Proof.ProgramFloat
import Verif.Props.Tolerance
/-
C74: the program as a whole with rounding errors. The counts of structures, the concentrations and the numbers of displaced atoms are computed in
floating point, every operation rounded by `fl`, which returns a double nearest to the exact result; every number that the searches for symmetries
compare or round may be off by up to `δ` (Model/DriversFloat.lean).
-/
namespace Phenum
open Spec

/-- Rounding errors do not change the numbers of displaced atoms: for up to `N` atoms, `int(n*fraction)` is the integer part of the exact product. -/
def Spec.ArrowsKept (fl : ℚ → ℚ) (lat : LatticeIn) (N : ℕ) : Prop :=
  ∀ n : ℕ, n ≤ N → ∀ a ∈ lat.arrowFractions, pyTrunc (fl (n * fl a)) = pyTrunc (n * a)

/-- The number of all decorations of `N` sites with `k` species, each with or without one of the six arrows if arrows are used, times 48 `N`, is at most 2^53. -/
def Spec.NumbersFit (lat : LatticeIn) (N k : ℕ) : Prop := 48 * N * (if lat.arrowFractions.sum = 0 then k else 7 * k) ^ N ≤ 2 ^ 53

/-- The computed output of every plain call `enumeration.py -enum -lattice …` (with `-super` or without) in a fresh directory is the exact one, whatever the rounding errors are: if
the exact computation ends with the files `d'`, then every run does. -/
def Spec.SameFiles (fl : ℚ → ℚ) (δ : ℝ) (text : Str) : Prop :=
  ∀ (w : World) (a : Args) (lattice : Str) (supers : Bool) (d d' : Dir), (∀ l, (w.listdir l).Perm l) → PlainCall a lattice supers → FreshDir lattice text d →
    scriptEnum w shippedTol a d = (pure d' : Run Dir) → AlwaysReturns (scriptEnumN fl δ w shippedTol a d) d'

theorem mem_le_sum_nat {c : List ℕ} {x : ℕ} (h : x ∈ c) : x ≤ c.sum := by
  induction c with
  | nil => simp at h
  | cons y c ih =>
    rw [List.sum_cons]
    rcases List.mem_cons.mp h with rfl | h
    · omega
    · have := ih h; omega

section
variable {fl : ℚ → ℚ} {δ : ℝ} {text : Str} {lat : LatticeIn} {P0 : Matrix (Fin 3) (Fin 3) ℚ} {b0 : List (Fin 3 → ℚ)} {lo hi k : ℕ}

/-- the rounding errors are small enough -/
theorem round_ok_at {T : Set ℚ} {C : ℕ → List Conc} (h : EnumInput text lat P0 b0 lo hi k T C) (hsize : b0.length * hi ≤ 20)
    {K K' : ℝ} {g D : ℕ} (h0 : 0 ≤ δ) (hlt : δ < 1 / 10 ^ 10) (hc : Coarse (realMat P0) (realVecs b0) K K' g D (1 / 10 ^ 7 + δ)) (hfl : RoundsToNearest fl)
    (hconc : ∀ n, lo ≤ n → n ≤ hi → Follows (sizeConcsF fl (1 / 10 ^ 10) lat n) (sizeConcs (1 / 10 ^ 10) lat n))
    (hkept : ArrowsKept fl lat (b0.length * hi)) (hfit : NumbersFit lat (b0.length * hi) k) : RoundOk fl δ shippedTol lat P0 b0 lo hi k C K K' g D := by
  have hb : 0 < b0.length := by
    have := List.length_pos_iff.mpr h.cell.nonempty
    rwa [realVecs_length] at this
  have h20 : hi ≤ 20 := le_trans (Nat.le_mul_of_pos_left hi hb) hsize
  have h20' : (hi : ℝ) ≤ 20 := by exact_mod_cast h20
  have htol : (1 / 10 ^ 10 + δ : ℝ) ≤ 1 / 10 ^ 7 + δ := by
    have : (1 / 10 ^ 10 : ℝ) ≤ 1 / 10 ^ 7 := by norm_num
    linarith
  refine ⟨hfl, noiseOk_coarse h.cell.det h0 (show δ < 1 / 10 ^ 7 by linarith) hc,
    noiseOk_coarse h.cell.det h0 hlt (coarse_mono hc (show (0 : ℝ) < 1 / 10 ^ 10 + δ by positivity) htol), hc.atoms, ?_, ?_, hconc, ?_, ?_⟩
  · show (1 / 10 ^ 7 + δ) * hi < 1
    have : (0 : ℝ) ≤ hi := Nat.cast_nonneg _
    nlinarith
  · show (1 / 10 ^ 10 + δ) * hi < 1
    have : (0 : ℝ) ≤ hi := Nat.cast_nonneg _
    nlinarith
  · intro n h1 h2 c hcc x hx a ha
    refine hkept x ?_ a ha
    have := mem_le_sum_nat hx
    rw [((h.concs n h1 h2).2.2 c hcc).2] at this
    exact le_trans this (Nat.mul_le_mul_left _ h2)
  · unfold NumbersFit at hfit
    refine le_trans (le_of_eq ?_) hfit
    congr 2
    unfold sizeBase
    by_cases e : lat.arrowFractions.sum = 0 <;> simp [e]

/-- auxiliary: the parts put together -/
theorem same_files_at {T : Set ℚ} {C : ℕ → List Conc} (h : EnumInput text lat P0 b0 lo hi k T C) (hT : (1 / 10 ^ 10 : ℚ) ∈ T) (hsize : b0.length * hi ≤ 20)
    (harr : lat.arrowFractions.sum = 0 ∨ b0.length * hi < 12)
    {K K' : ℝ} {g D : ℕ} (h0 : 0 ≤ δ) (hlt : δ < 1 / 10 ^ 10) (hc : Coarse (realMat P0) (realVecs b0) K K' g D (1 / 10 ^ 7 + δ)) (hfl : RoundsToNearest fl)
    (hconc : ∀ n, lo ≤ n → n ≤ hi → Follows (sizeConcsF fl (1 / 10 ^ 10) lat n) (sizeConcs (1 / 10 ^ 10) lat n))
    (hkept : ArrowsKept fl lat (b0.length * hi)) (hfit : NumbersFit lat (b0.length * hi) k) : SameFiles fl δ text := by
  have F := round_ok_at h hsize h0 hlt hc hfl hconc hkept hfit
  obtain ⟨U, cnt, hcnt, -⟩ := every_structure_once_at h F.exact hT
  obtain ⟨f1, -⟩ := small_ok h hsize harr hcnt
  intro w a lattice supers d d' hw ha hd hr
  exact always_of_sure (run_follows h hT F hcnt f1 hw ha hd d' hr)

theorem free_fractions (hfree : lat.restricted = false) : lat.arrowFractions = List.replicate lat.nspecies.toNat 0 := by
  unfold LatticeIn.arrowFractions getArrowConcs
  rw [hfree]; rfl

/-- fractions that are zero are no problem -/
theorem arrowsKept_zero (hfl : RoundsToNearest fl) (h : ∀ a ∈ lat.arrowFractions, a = 0) (N : ℕ) : ArrowsKept fl lat N := by
  have f0 : fl 0 = 0 := fl_of_isDouble hfl isDouble_zero
  intro n _ a ha
  rw [h a ha, f0, mul_zero, f0]

/-- C74. Without restrictions on the concentrations: the program with rounding errors writes the files of the exact computation, for crystals whose numbers are coarse
compared with the tolerance plus the error, and as long as the counts are exactly representable (`NumbersFit`). -/
theorem C74_same_files (h : CrystalInput text lat P0 b0 lo hi k) (hfree : lat.restricted = false) (hsize : b0.length * hi ≤ 20)
    {K K' : ℝ} {g D : ℕ} (h0 : 0 ≤ δ) (hlt : δ < 1 / 10 ^ 10) (hc : Coarse (realMat P0) (realVecs b0) K K' g D (1 / 10 ^ 7 + δ)) (hfl : RoundsToNearest fl)
    (hfit : NumbersFit lat (b0.length * hi) k) : SameFiles fl δ text := by
  have hz := free_fractions hfree
  exact same_files_at (free_input h hfree (lt_of_le_of_lt (size_hi h hsize) (by norm_num))) (Set.mem_univ _) hsize (Or.inl (by rw [hz]; simp)) h0 hlt hc hfl
    (fun n _ _ => sizeConcsF_free fl _ hfree n) (arrowsKept_zero hfl (by rw [hz]; intro a ha; exact List.eq_of_mem_replicate ha) _) hfit

/-- the input with ranges of concentrations -/
theorem ranges_input {rows : List ConcRange} {d : ℤ} (h : CrystalInput text lat P0 b0 lo hi k) (hr : RangesInput lat k rows d)
    (hsize : b0.length * hi ≤ 20) (hne : ∃ n c, lo ≤ n ∧ n ≤ hi ∧ InConcRanges rows (b0.length * n) c) {t : ℚ} (ht : 0 ≤ t) (ht' : t * 20 * d < 1) :
    ∃ C, EnumInput text lat P0 b0 lo hi k {t} C := by
  have hb : 0 < b0.length := by
    have := List.length_pos_iff.mpr h.cell.nonempty
    rwa [realVecs_length] at this
  have hbl := geometry_basis h.geometry
  have hhi : hi < 2 ^ 24 := lt_of_le_of_lt (size_hi h hsize) (by norm_num)
  have key : ∀ n, ∃ C : List Conc, lo ≤ n → n ≤ hi → sizeConcs t lat n = (pure C : Run _) ∧ C.Nodup ∧
      (∀ c, c ∈ C ↔ InConcRanges rows (b0.length * n) c) ∧ ∀ c ∈ C, c.length = k := by
    intro n
    by_cases hn : lo ≤ n ∧ n ≤ hi
    · have h20 : n * b0.length ≤ 20 := by
        rw [mul_comm]
        exact le_trans (Nat.mul_le_mul_left _ hn.2) hsize
      have hpos : 0 < n * b0.length := Nat.mul_pos (lt_of_lt_of_le h.lo_pos hn.1) hb
      obtain ⟨C, hC⟩ := ranges_concs hr (by have := h.species.2.1; omega) ht (n := n) (by rw [hbl]; exact hpos) (by
        rw [hbl]
        have h1 : ((n * b0.length : ℕ) : ℚ) ≤ 20 := by exact_mod_cast h20
        have h2 : (0 : ℚ) < d := by exact_mod_cast hr.denom.1
        have h3 : t * ((n * b0.length : ℕ) : ℚ) ≤ t * 20 := mul_le_mul_of_nonneg_left h1 ht
        have h4 := mul_le_mul_of_nonneg_right h3 h2.le
        linarith)
      rw [hbl] at hC
      exact ⟨C, fun _ _ => hC⟩
    · exact ⟨[], fun a b => absurd ⟨a, b⟩ hn⟩
  choose C hC using key
  refine ⟨C, h.read, h.geometry, h.sizes, h.lo_pos, h.lo_hi, hhi, h.cell, h.primitive, h.origin, h.species.2, ⟨?_, hr.fractions⟩, ?_, ?_⟩
  · unfold LatticeIn.arrowFractions getArrowConcs
    rw [hr.restricted, if_pos rfl, List.length_map, hr.length]
  · intro n a b
    obtain ⟨c1, c2, c3, c4⟩ := hC n a b
    refine ⟨fun t' ht' => by rw [Set.mem_singleton_iff.mp ht']; exact c1, c2, fun c hc => ⟨c4 c hc, ((c3 c).mp hc).1⟩⟩
  · obtain ⟨n, c, a, b, hc⟩ := hne
    exact ⟨n, a, b, List.ne_nil_of_mem (((hC n a b).2.2.1 c).mpr hc)⟩

/-- C74. With ranges of concentrations, possibly with displaced atoms: the program with rounding errors writes the files of the exact computation. -/
theorem C74_same_files_ranges {rows : List ConcRange} {d : ℤ} (h : CrystalInput text lat P0 b0 lo hi k) (hr : RangesInput lat k rows d)
    (hle : ∀ r ∈ rows, max r.1 r.2.1 ≤ d) (hd : d ≤ 10 ^ 8) (hsize : b0.length * hi ≤ 20) (harr : lat.arrowFractions.sum = 0 ∨ b0.length * hi < 12)
    (hne : ∃ n c, lo ≤ n ∧ n ≤ hi ∧ InConcRanges rows (b0.length * n) c)
    {K K' : ℝ} {g D : ℕ} (h0 : 0 ≤ δ) (hlt : δ < 1 / 10 ^ 10) (hc : Coarse (realMat P0) (realVecs b0) K K' g D (1 / 10 ^ 7 + δ)) (hfl : RoundsToNearest fl)
    (hkept : ArrowsKept fl lat (b0.length * hi)) (hfit : NumbersFit lat (b0.length * hi) k) : SameFiles fl δ text := by
  have hd' : (d : ℚ) ≤ 10 ^ 8 := by exact_mod_cast hd
  obtain ⟨C, hin⟩ := ranges_input h hr hsize hne (t := 1 / 10 ^ 10) (by norm_num) (by linarith)
  have hb : 0 < b0.length := by
    have := List.length_pos_iff.mpr h.cell.nonempty
    rwa [realVecs_length] at this
  refine same_files_at hin rfl hsize harr h0 hlt hc hfl (fun n h1 h2 => ?_) hkept hfit
  have hN : n * lat.basisVecs.length ≤ 20 := by
    rw [geometry_basis h.geometry, mul_comm]
    exact le_trans (Nat.mul_le_mul_left _ h2) hsize
  refine sizeConcsF_ranges hfl hr (by have := h.species.2.1; omega) hle ?_ ?_
  · rw [geometry_basis h.geometry]
    exact Nat.mul_pos (lt_of_lt_of_le h.lo_pos h1) hb
  · have h3 : ((n * lat.basisVecs.length : ℕ) : ℤ) ≤ 20 := by exact_mod_cast hN
    have h4 := hr.denom.1
    nlinarith

/-- C74. The whole program with rounding errors, without restrictions and with `-super`: every run ends with the same files, and enum.out describes every structure exactly once. -/
theorem C74_all_structures (h : CrystalInput text lat P0 b0 lo hi k) (hfree : lat.restricted = false) (hsize : b0.length * hi ≤ 20)
    {K K' : ℝ} {g D : ℕ} (h0 : 0 ≤ δ) (hlt : δ < 1 / 10 ^ 10) (hc : Coarse (realMat P0) (realVecs b0) K K' g D (1 / 10 ^ 7 + δ)) (hfl : RoundsToNearest fl)
    (hfit : NumbersFit lat (b0.length * hi) k) :
    ∀ (w : World) (a : Args) (lattice : Str) (d : Dir), (∀ l, (w.listdir l).Perm l) → (∀ i l, ((w.rnd i).shuffle l).Perm l) →
        PlainCall a lattice true → FreshDir lattice text d →
      ∃ (rows : List EnumEntry) (d' : Dir), AlwaysReturns (scriptEnumN fl δ w shippedTol a d) d' ∧
        dictGet d' "enum.out".toList = some (enumOutFile (lat.enumParams (P0, b0)) w.now rows) ∧ rows.Nodup ∧
        ∀ (n : ℕ) (M : M3 ℤ), lo ≤ n → n ≤ hi → M.det = n ∨ M.det = -n → ∀ χ : Decoration,
          PeriodicOn (CrystalSites (ColLattice (realMat P0).transpose) (realVecs b0)) (SupLat (realMat P0) M) χ →
          (∀ x ∈ CrystalSites (ColLattice (realMat P0).transpose) (realVecs b0), (χ x).2 = 0 ∧ 1 ≤ (χ x).1 ∧ (χ x).1 ≤ k) →
          ∃! row, row ∈ rows ∧ ∃ ψ, RowDescribes (realMat P0) (realVecs b0) row ψ ∧
            SameStructure (ColLattice (realMat P0).transpose) (realVecs b0) (SupLat (realMat P0) M) χ (rowLattice (realMat P0) row) ψ := by
  intro w a lattice d hw hs ha hd
  obtain ⟨rows, d', r1, r2⟩ := C63_all_structures h hfree hsize (coarse_mono hc (by norm_num) (by linarith)) w a lattice d hw hs ha hd
  exact ⟨rows, d', C74_same_files h hfree hsize h0 hlt hc hfl hfit w a lattice true d d' hw ha hd r1, r2⟩

/-- C74. The default call with rounding errors, two or three species: enum.out describes every crystal exactly once. -/
theorem C74_all_crystals (h : CrystalInput text lat P0 b0 1 hi k) (hfree : lat.restricted = false) (hk3 : k ≤ 3) (hsize : b0.length * hi ≤ 20)
    {K K' : ℝ} {g D : ℕ} (h0 : 0 ≤ δ) (hlt : δ < 1 / 10 ^ 10) (hc : Coarse (realMat P0) (realVecs b0) K K' g D (1 / 10 ^ 7 + δ)) (hfl : RoundsToNearest fl) :
    ∀ (w : World) (a : Args) (lattice : Str) (d : Dir), (∀ l, (w.listdir l).Perm l) →
        PlainCall a lattice false → FreshDir lattice text d →
      ∃ (rows : List EnumEntry) (d' : Dir), AlwaysReturns (scriptEnumN fl δ w shippedTol a d) d' ∧
        dictGet d' "enum.out".toList = some (enumOutFile (lat.enumParams (P0, b0)) w.now rows) ∧ rows.Nodup ∧
        ∀ (M : M3 ℤ), 1 ≤ M.det.natAbs → M.det.natAbs ≤ hi → ∀ χ : Decoration,
          PeriodicOn (CrystalSites (ColLattice (realMat P0).transpose) (realVecs b0)) (SupLat (realMat P0) M) χ →
          (∀ x ∈ CrystalSites (ColLattice (realMat P0).transpose) (realVecs b0), (χ x).2 = 0 ∧ 1 ≤ (χ x).1 ∧ (χ x).1 ≤ k) →
          ∃! row, row ∈ rows ∧ ∃ ψ, RowDescribes (realMat P0) (realVecs b0) row ψ ∧
            SameDecoration (ColLattice (realMat P0).transpose) (realVecs b0) χ ψ := by
  intro w a lattice d hw ha hd
  obtain ⟨rows, d', r1, r2⟩ := C63_all_crystals h hfree hk3 hsize (coarse_mono hc (by norm_num) (by linarith)) w a lattice d hw ha hd
  refine ⟨rows, d', C74_same_files h hfree hsize h0 hlt hc hfl ?_ w a lattice false d d' hw ha hd r1, r2⟩
  unfold NumbersFit
  rw [if_pos (by rw [free_fractions hfree]; simp)]
  calc 48 * (b0.length * hi) * k ^ (b0.length * hi) ≤ 48 * 20 * 3 ^ 20 :=
        Nat.mul_le_mul (Nat.mul_le_mul_left _ hsize) (le_trans (Nat.pow_le_pow_left hk3 _) (Nat.pow_le_pow_right (by norm_num) hsize))
    _ ≤ 2 ^ 53 := by norm_num

/-- `RunListsAll` for the program with rounding errors: every run ends with the files described there. -/
def Spec.AlwaysListsAll (fl : ℚ → ℚ) (δ : ℝ) (text : Str) (lat : LatticeIn) (P0 : Matrix (Fin 3) (Fin 3) ℚ) (b0 : List (Fin 3 → ℚ)) (lo hi : ℕ) (C : ℕ → List Conc)
    (U : ℕ → List (M3 ℤ)) (cnt : ℕ → M3 ℤ → Conc → ℕ) : Prop :=
  ∀ (w : World) (a : Args) (lattice : Str) (d : Dir), (∀ l, (w.listdir l).Perm l) → (∀ i l, ((w.rnd i).shuffle l).Perm l) →
      PlainCall a lattice true → FreshDir lattice text d →
    ∃ (rows : List EnumEntry) (d' : Dir), AlwaysReturns (scriptEnumN fl δ w shippedTol a d) d' ∧
      dictGet d' "enum.out".toList = some (enumOutFile (lat.enumParams (P0, b0)) w.now rows) ∧
      ListsAll (realMat P0) (realVecs b0) lo hi C lat.arrowFractions rows ∧
      (∃ K : List (ℕ × M3 ℤ × Conc), K.Nodup ∧ (∀ n u c, (n, u, c) ∈ K ↔ lo ≤ n ∧ n ≤ hi ∧ u ∈ U n ∧ c ∈ C n) ∧
        rows.length = (K.map (fun x => cnt x.1 x.2.1 x.2.2)).sum) ∧
      (∀ n, lo ≤ n → n ≤ hi → dictGet d' ("polya.out.".toList ++ natStr n) = some (writePolya (countTable n (U n) (C n) (cnt n)))) ∧
      ∀ f, f ≠ "enum.out".toList → f ≠ "enum.in".toList → (∀ n, lo ≤ n → n ≤ hi → f ≠ "polya.out.".toList ++ natStr n) → dictGet d' f = dictGet d f

/-- C74. With ranges of concentrations and displaced atoms, `-super`, with rounding errors: enum.out describes every structure whose composition satisfies the restrictions exactly once. -/
theorem C74_ranges {rows : List ConcRange} {d : ℤ} (h : CrystalInput text lat P0 b0 lo hi k) (hr : RangesInput lat k rows d)
    (hle : ∀ r ∈ rows, max r.1 r.2.1 ≤ d) (hd : d ≤ 10 ^ 8) (hsize : b0.length * hi ≤ 20) (harr : lat.arrowFractions.sum = 0 ∨ b0.length * hi < 12)
    (hne : ∃ n c, lo ≤ n ∧ n ≤ hi ∧ InConcRanges rows (b0.length * n) c)
    {K K' : ℝ} {g D : ℕ} (h0 : 0 ≤ δ) (hlt : δ < 1 / 10 ^ 10) (hc : Coarse (realMat P0) (realVecs b0) K K' g D (1 / 10 ^ 7 + δ)) (hfl : RoundsToNearest fl)
    (hkept : ArrowsKept fl lat (b0.length * hi)) (hfit : NumbersFit lat (b0.length * hi) k) :
    ∃ (C : ℕ → List Conc), (∀ n, lo ≤ n → n ≤ hi → (C n).Nodup ∧ ∀ c, c ∈ C n ↔ InConcRanges rows (b0.length * n) c) ∧
      ∃ (U : ℕ → List (M3 ℤ)) (cnt : ℕ → M3 ℤ → Conc → ℕ), CountsAll shippedTol lat P0 b0 lo hi C U cnt ∧
        AlwaysListsAll fl δ text lat P0 b0 lo hi C U cnt := by
  obtain ⟨C, h1, U, cnt, h2, h3⟩ := C63_ranges h hr hsize harr hne hd (coarse_mono hc (by norm_num) (by linarith))
  refine ⟨C, h1, U, cnt, h2, fun w a lattice d hw hs ha hd' => ?_⟩
  obtain ⟨rows, d', r1, r2⟩ := h3 w a lattice d hw hs ha hd'
  exact ⟨rows, d', C74_same_files_ranges h hr hle hd hsize harr hne h0 hlt hc hfl hkept hfit w a lattice true d d' hw ha hd' r1, r2⟩

/-- C74. Crystals with ordinary numbers: nothing has to be assumed about the tolerances, errors of up to 1E-8 are covered. -/
theorem C74_decimals {D : ℕ} (h : DecimalCrystal P0 b0 D) (h0 : 0 ≤ δ) (hlt : δ ≤ 1 / 10 ^ 8) :
    ∃ K K' g, Coarse (realMat P0) (realVecs b0) K K' g D (1 / 10 ^ 7 + δ) :=
  ⟨_, _, _, coarse_mono (decimal_coarse_le h) (by positivity) (by linarith)⟩

end

/-- C74. In double precision, with fractions of displaced atoms of at most 13 decimals and fewer than 50 atoms, the numbers of displaced atoms are kept. -/
theorem C74_arrows_decimal {lat : LatticeIn} (k : ℕ) (hk : 49 * 10 ^ k ≤ 2 ^ 51) (h : ∀ a ∈ lat.arrowFractions, ∃ p : ℕ, p ≤ 10 ^ k ∧ a = p / 10 ^ k) {N : ℕ} (hN : N ≤ 49) :
    ArrowsKept fl53 lat N := by
  intro n hn a ha
  obtain ⟨p, hp, rfl⟩ := h a ha
  have hq : 0 < 10 ^ k := by positivity
  have hcs : ∀ c ∈ [n], c * 10 ^ k ≤ 2 ^ 51 := by
    intro c hc
    rw [List.mem_singleton] at hc
    subst hc
    exact le_trans (Nat.mul_le_mul_right _ (by omega)) hk
  obtain ⟨d, h1, -, -, -, -, h6⟩ := decorationF fl53_nearest [n] [p] (10 ^ k) hq (by simp) (by simpa using hp) hcs
  obtain ⟨d', h1', h6'⟩ := C72_decimal [n] [p] k (by simp) (by simpa using hp) (by simp; omega) hk
  obtain rfl : d = d' := Except.ok.inj (h1.symm.trans h1')
  have e1 := (h6 0 (by simp)).2
  have e2 := (h6' 0 (by simp)).2
  simp only [List.getD_cons_zero] at e1 e2
  rw [e2] at e1
  have e3 : ((p : ℚ) / (10 ^ k : ℕ)) = (p : ℚ) / 10 ^ k := by push_cast; rfl
  rw [e3] at e1
  rw [← e1]
  have e4 : (n : ℚ) * (p / 10 ^ k) = ((n * p : ℕ) : ℚ) / ((10 ^ k : ℕ) : ℚ) := by push_cast; ring
  rw [e4]
  unfold pyTrunc
  rw [if_pos (by positivity)]
  exact (Rat.floor_natCast_div_natCast _ _).symm

theorem fcc_arrowFractions : fccLat.arrowFractions = [0, 1/2, 1/2] := by decide +kernel

/-- C74 for input/fcc/lattice.in in double precision, with errors of less than 1E-10 in the comparisons and roundings of the searches for symmetries: every run
lists every structure of the fifteen compositions exactly once. -/
theorem C74_fcc_file {δ : ℝ} (h0 : 0 ≤ δ) (hlt : δ < 1 / 10 ^ 10) : ∃ (C : ℕ → List Conc), (C 4).Nodup ∧ (∀ c, c ∈ C 4 ↔ c.length = 3 ∧ c.sum = 4) ∧
    ∃ (U : ℕ → List (M3 ℤ)) (cnt : ℕ → M3 ℤ → Conc → ℕ), CountsAll shippedTol fccLat fccP0 [![0, 0, 0]] 4 4 C U cnt ∧
      AlwaysListsAll fl53 δ fccText fccLat fccP0 [![0, 0, 0]] 4 4 C U cnt := by
  obtain ⟨K, K', g, hc⟩ := C74_decimals fcc_decimal h0 (show δ ≤ 1 / 10 ^ 8 by
    have : (1 / 10 ^ 10 : ℝ) ≤ 1 / 10 ^ 8 := by norm_num
    linarith)
  obtain ⟨C, h1, h2⟩ := C74_ranges fcc_crystal fcc_ranges (by simp) (by norm_num) (by simp) (Or.inr (by simp))
    ⟨4, [4, 0, 0], le_refl _, le_refl _, fcc_in_ranges.mpr ⟨rfl, rfl⟩⟩ h0 hlt hc fl53_nearest
    (C74_arrows_decimal 1 (by norm_num) (by
      rw [fcc_arrowFractions]
      intro a ha
      simp only [List.mem_cons, List.not_mem_nil, or_false] at ha
      rcases ha with rfl | rfl | rfl
      · exact ⟨0, by norm_num, by norm_num⟩
      · exact ⟨5, by norm_num, by norm_num⟩
      · exact ⟨5, by norm_num, by norm_num⟩) (by simp)) (by
      unfold NumbersFit
      rw [fcc_arrowFractions, if_neg (by norm_num)]
      simp)
  obtain ⟨h3, h4⟩ := h1 4 (le_refl _) (le_refl _)
  refine ⟨C, h3, fun c => ?_, h2⟩
  rw [h4]
  exact fcc_in_ranges

/-- C74 for the simple cubic file of the examples in double precision: every run of the default call lists alternating layers, and also the crystal with a single species, exactly once. -/
example {δ : ℝ} (h0 : 0 ≤ δ) (hlt : δ < 1 / 10 ^ 10) (w : World) (hw : ∀ l, (w.listdir l).Perm l) :
    ∃ (rows : List EnumEntry) (d' : Dir),
      AlwaysReturns (scriptEnumN fl53 δ w shippedTol ⟨false, true, "lattice.in".toList, none, none, none, none, false, none, false, none⟩ scDir) d' ∧
      dictGet d' "enum.out".toList = some (enumOutFile (scLat.enumParams (Matrix.of ![![1, 0, 0], ![0, 1, 0], ![0, 0, 1]], [![0, 0, 0]])) w.now rows) ∧ rows.Nodup ∧
      (∃! row, row ∈ rows ∧ ∃ ψ, RowDescribes 1 [0] row ψ ∧ SameDecoration (ColLattice (1 : M3 ℝ).transpose) [0] layers ψ) ∧
      (∃! row, row ∈ rows ∧ ∃ ψ, RowDescribes 1 [0] row ψ ∧ SameDecoration (ColLattice (1 : M3 ℝ).transpose) [0] (fun _ => (1, 0)) ψ) := by
  obtain ⟨K, K', g, hc⟩ := C74_decimals sc_decimal h0 (show δ ≤ 1 / 10 ^ 8 by
    have : (1 / 10 ^ 10 : ℝ) ≤ 1 / 10 ^ 8 := by norm_num
    linarith)
  obtain ⟨rows, d', r1, r2, r3, r4⟩ := C74_all_crystals sc_crystal rfl (by norm_num) (by simp) h0 hlt hc fl53_nearest w
    ⟨false, true, "lattice.in".toList, none, none, none, none, false, none, false, none⟩ "lattice.in".toList scDir hw
    (by constructor <;> rfl) (by
      refine ⟨by decide +kernel, ?_, by decide +kernel⟩
      have : ∀ f ∈ ["notes.txt".toList, "lattice.in".toList], ¬ f.head? = some 'p' := by decide +kernel
      exact fun f hf h => this f hf h.2)
  rw [realVecs_zero, realMat_sc] at r4
  have hdet : (!![2, 0, 0; 0, 1, 0; 0, 0, 1] : M3 ℤ).det = 2 := by rw [Matrix.det_fin_three]; simp
  refine ⟨rows, d', r1, r2, r3, ?_, ?_⟩
  · refine r4 !![2, 0, 0; 0, 1, 0; 0, 0, 1] (by rw [hdet]; decide) (by rw [hdet]; decide) layers layers_structure.1 ?_
    intro x _
    unfold layers
    split <;> simp
  · refine r4 1 (by simp) (by simp) _ (fun x _ t _ => rfl) (fun x _ => ⟨rfl, le_refl _, by norm_num⟩)

end Phenum
