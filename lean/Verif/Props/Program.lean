import Verif.Proof.EnumRun
import Verif.Proof.SupOrder
/-
C57, C58: the command line program as a whole, from lattice.in to enum.out.
-/
namespace Phenum
open Spec

/-- The program is given the file `text`: parent lattice with the rows of `P0` as lattice vectors and basis atoms `b0`, sizes
`lo` to `hi`, `k` species. The crystal is one that the symmetry search handles (`Usable`), its cell is primitive and its
atoms are listed inside the cell, the first one at the origin unless arrows are used. `C n` are the concentrations
(numbers of atoms of the species) for `n` cells that are found with a tolerance in `T`. -/
structure Spec.EnumInput (text : Str) (lat : LatticeIn) (P0 : Matrix (Fin 3) (Fin 3) ℚ) (b0 : List (Fin 3 → ℚ)) (lo hi k : ℕ) (T : Set ℚ)
    (C : ℕ → List Conc) : Prop where
  read : readLattice text = .ok lat
  geometry : lat.geometry = .ok (P0, b0)
  sizes : ∃ rest, lat.sizes = (lo : ℤ) :: (hi : ℤ) :: rest
  lo_pos : 1 ≤ lo
  lo_hi : lo ≤ hi
  hi_lt : hi < 2 ^ 24
  cell : Usable (realMat P0) (realVecs b0) (realVecs b0) true
  primitive : PrimitiveCell (realMat P0) (realVecs b0)
  origin : lat.arrowFractions.sum ≠ 0 ∨ (realVecs b0).getD 0 0 = 0
  species : 2 ≤ k ∧ k ≤ 10
  fractions : k ≤ lat.arrowFractions.length ∧ ∀ x ∈ lat.arrowFractions, 0 ≤ x
  concs : ∀ n, lo ≤ n → n ≤ hi → (∀ t ∈ T, sizeConcs t lat n = (pure (C n) : Run _)) ∧ (C n).Nodup ∧
    ∀ c ∈ C n, c.length = k ∧ c.sum = b0.length * n
  nonempty : ∃ n, lo ≤ n ∧ n ≤ hi ∧ C n ≠ []

/-- At these tolerances the searches for symmetries and supercells of up to `hi` cells are exact. -/
structure ExactTol (P0 : Matrix (Fin 3) (Fin 3) ℚ) (b0 : List (Fin 3 → ℚ)) (hi : ℕ) (tol : Tol) : Prop where
  hnf : FineTol (realMat P0) (realVecs b0) tol.hnf
  sym : FineTol (realMat P0) (realVecs b0) tol.sym
  hnf_small : tol.hnf * hi < 1
  sym_small : tol.sym * hi < 1

/-- Small tolerances are exact. -/
theorem small_tol {P0 : Matrix (Fin 3) (Fin 3) ℚ} {b0 : List (Fin 3 → ℚ)} (hP : (realMat P0).det ≠ 0) (hne : realVecs b0 ≠ []) (hi : ℕ) {Q : Tol → Prop}
    (h : ∀ tol, ExactTol P0 b0 hi tol → Q tol) :
    ∃ e > 0, ∀ tol : Tol, 0 < tol.hnf → tol.hnf < e → 0 < tol.sym → tol.sym < e → Q tol := by
  obtain ⟨e1, he1, h1⟩ := fineTol_exists hP hne
  refine ⟨min e1 (1 / (hi + 1)), lt_min he1 (by positivity), fun tol t1 t2 t3 t4 => h tol ?_⟩
  have key : ∀ x : ℝ, 0 < x → x < 1 / (hi + 1) → x * hi < 1 := by
    intro x hx hlt
    rw [lt_div_iff₀ (by positivity)] at hlt
    linarith
  exact ⟨h1 _ t1 (lt_of_lt_of_le t2 (min_le_left _ _)), h1 _ t3 (lt_of_lt_of_le t4 (min_le_left _ _)),
    key _ t1 (lt_of_lt_of_le t2 (min_le_right _ _)), key _ t3 (lt_of_lt_of_le t4 (min_le_right _ _))⟩

/-- No atom of the composition `c` is displaced. -/
def Spec.NoArrows (aconcs : List ℚ) (c : Conc) : Prop := ∀ i, i < c.length → arrowCount (c.getD i 0) (aconcs.getD i 0) = 0

/-- The count `v` of structures of composition `c` is one for which all structures are delivered (no random search): the number of labellings is at
most 100000 or there are more than 100 structures, and, if there are arrows, there are fewer than 12 sites or more than
100 structures. -/
def Spec.Deliverable (aconcs : List ℚ) (c : Conc) (v : ℕ) : Prop := Modest c v ∧ (NoArrows aconcs c ∨ c.sum < 12 ∨ 100 < v)

theorem arrowCount_zero (c : ℕ) : arrowCount c 0 = 0 := by
  unfold arrowCount
  simp

theorem sum_zero {l : List ℚ} (h : ∀ x ∈ l, 0 ≤ x) (h0 : l.sum = 0) : ∀ x ∈ l, x = 0 := by
  induction l with
  | nil => simp
  | cons a l ih =>
    rw [List.sum_cons] at h0
    have h1 := h a (by simp)
    have h2 : 0 ≤ l.sum := List.sum_nonneg (fun x hx => h x (by simp [hx]))
    intro x hx
    rcases List.mem_cons.mp hx with rfl | hx
    · linarith
    · exact ih (fun x hx => h x (by simp [hx])) (by linarith) x hx

theorem no_arrows {aconcs : List ℚ} (h : ∀ x ∈ aconcs, 0 ≤ x) (h0 : aconcs.sum = 0) (c : Conc) : NoArrows aconcs c := by
  intro i _
  have : aconcs.getD i 0 = 0 := by
    by_cases hi : i < aconcs.length
    · rw [getD_lt hi]; exact sum_zero h h0 _ (List.getElem_mem hi)
    · rw [List.getD_eq_getElem?_getD, List.getElem?_eq_none (by omega)]; rfl
  rw [this]
  exact arrowCount_zero _

theorem realVecs_length (b : List (Fin 3 → ℚ)) : (realVecs b).length = b.length := by simp [realVecs]

theorem map_toNat (c : List ℕ) : (c.map (fun c : ℕ => (c : ℤ))).map Int.toNat = c := by
  rw [List.map_map]
  conv_rhs => rw [← List.map_id c]
  apply List.map_congr_left
  intro x _
  simp

/-- The rows of enum.out list the structures derived from the crystal with `lo` to `hi` cells and the concentrations `C`: no row is
listed twice, each row describes a structure of one of the concentrations, and every structure - any superlattice, given by
an integer matrix `M`, and any decoration `χ` of the sites periodic with respect to it that has one of the concentrations - is, up to a
symmetry of the crystal, described by exactly one row. -/
structure Spec.ListsAll (P : M3 ℝ) (bas : List V3) (lo hi : ℕ) (C : ℕ → List Conc) (aconcs : List ℚ) (rows : List EnumEntry) : Prop where
  nodup : rows.Nodup
  valid : ∀ row ∈ rows, ∃ n, lo ≤ n ∧ n ≤ hi ∧ row.size = n ∧ ∃ c ∈ C n, ∃ ψ, RowDescribes P bas row ψ ∧
    PeriodicOn (CrystalSites (ColLattice P.transpose) bas) (rowLattice P row) ψ ∧
    HasContents (CrystalSites (ColLattice P.transpose) bas) (rowLattice P row) (bas.length * n) (Composed c aconcs 6) ψ
  complete : ∀ (n : ℕ) (M : M3 ℤ), lo ≤ n → n ≤ hi → M.det = n ∨ M.det = -n → ∀ χ,
    PeriodicOn (CrystalSites (ColLattice P.transpose) bas) (SupLat P M) χ → ∀ c ∈ C n,
    HasContents (CrystalSites (ColLattice P.transpose) bas) (SupLat P M) (bas.length * n) (Composed c aconcs 6) χ →
    ∃! row, row ∈ rows ∧ ∃ ψ, RowDescribes P bas row ψ ∧
      SameStructure (ColLattice P.transpose) bas (SupLat P M) χ (rowLattice P row) ψ

/-- `enumeration.py -enum -super` in a directory with the file lattice.in and no results of earlier runs finishes, whatever the order of the
directory listing and the random numbers; enum.out lists the structures, `cnt n u c` of them for each supercell and
concentration in total; polya.out.`n` holds the table of the counts; no other files are changed. -/
def Spec.RunListsAll (tol : Tol) (text : Str) (lat : LatticeIn) (P0 : Matrix (Fin 3) (Fin 3) ℚ) (b0 : List (Fin 3 → ℚ)) (lo hi : ℕ) (C : ℕ → List Conc)
    (U : ℕ → List (M3 ℤ)) (cnt : ℕ → M3 ℤ → Conc → ℕ) : Prop :=
  ∀ (w : World) (a : Args) (lattice : Str) (d : Dir), (∀ l, (w.listdir l).Perm l) → (∀ i l, ((w.rnd i).shuffle l).Perm l) →
      PlainCall a lattice true → FreshDir lattice text d →
    ∃ (rows : List EnumEntry) (d' : Dir), scriptEnum w tol a d = (pure d' : Run Dir) ∧
      dictGet d' "enum.out".toList = some (enumOutFile (lat.enumParams (P0, b0)) w.now rows) ∧
      ListsAll (realMat P0) (realVecs b0) lo hi C lat.arrowFractions rows ∧
      (∃ K : List (ℕ × M3 ℤ × Conc), K.Nodup ∧ (∀ n u c, (n, u, c) ∈ K ↔ lo ≤ n ∧ n ≤ hi ∧ u ∈ U n ∧ c ∈ C n) ∧
        rows.length = (K.map (fun x => cnt x.1 x.2.1 x.2.2)).sum) ∧
      (∀ n, lo ≤ n → n ≤ hi → dictGet d' ("polya.out.".toList ++ natStr n) = some (writePolya (countTable n (U n) (C n) (cnt n)))) ∧
      ∀ f, f ≠ "enum.out".toList → f ≠ "enum.in".toList → (∀ n, lo ≤ n → n ≤ hi → f ≠ "polya.out.".toList ++ natStr n) → dictGet d' f = dictGet d f

/-- The supercells `U n`, the symmetry operations and the numbers `cnt` that the routines return: `cnt n u c` is the number of labellings
of the sites of the supercell, of composition `c`, that are inequivalent under its operations. -/
def Spec.CountsAll (tol : Tol) (lat : LatticeIn) (P0 : Matrix (Fin 3) (Fin 3) ℚ) (b0 : List (Fin 3 → ℚ)) (lo hi : ℕ) (C : ℕ → List Conc)
    (U : ℕ → List (M3 ℤ)) (cnt : ℕ → M3 ℤ → Conc → ℕ) : Prop :=
  ∀ n, lo ≤ n → n ≤ hi → getHNFs n (realMat P0) (realVecs b0) 3 tol.hnf = some (.ok (U n)) ∧ (U n).Nodup ∧ (∀ u ∈ U n, u ∈ findAllHNFs n) ∧
    ∀ u ∈ U n, ∃ G, getSymGroup (realMat P0) (realVecs b0) u 3 tol.sym true = some (.ok G) ∧ IsOpGroup (b0.length * n) 6 G ∧ G.Nodup ∧
      G.length ≤ 48 * (b0.length * n) ∧
      ∀ c ∈ C n, 1 ≤ cnt n u c ∧ polyaCount G lat.arrowFractions c = (pure (cnt n u c) : Run ℕ) ∧
        ∃ L, IsTransversal (Composed c lat.arrowFractions 6) (OpEquiv G) L ∧ L.length = cnt n u c

/-- auxiliary: the same at tolerances at which the searches are exact -/
theorem every_structure_once_at {text : Str} {lat : LatticeIn} {P0 : Matrix (Fin 3) (Fin 3) ℚ} {b0 : List (Fin 3 → ℚ)} {lo hi k : ℕ} {T : Set ℚ}
    {C : ℕ → List Conc} (h : EnumInput text lat P0 b0 lo hi k T C) {tol : Tol} (ht : ExactTol P0 b0 hi tol) :
    tol.conc ∈ T →
      ∃ (U : ℕ → List (M3 ℤ)) (cnt : ℕ → M3 ℤ → Conc → ℕ),
        CountsAll tol lat P0 b0 lo hi C U cnt ∧
        ((∀ n, lo ≤ n → n ≤ hi → (countTable n (U n) (C n) (cnt n)).Fits) →
         (∀ n u c, lo ≤ n → n ≤ hi → u ∈ U n → c ∈ C n → Deliverable lat.arrowFractions c (cnt n u c)) →
         RunListsAll tol text lat P0 b0 lo hi C U cnt) := by
  classical
  intro t5
  set P := realMat P0 with hPdef
  set bas := realVecs b0 with hbdef
  have hbl : bas.length = b0.length := realVecs_length b0
  set aconcs := lat.arrowFractions with hadef
  set flag : Bool := decide (aconcs.sum ≠ 0) with hflag
  have hnoarr : flag = true ∨ ∀ c : Conc, NoArrows aconcs c := by
    by_cases h0 : aconcs.sum = 0
    · exact Or.inr (no_arrows h.fractions.2 h0)
    · left; rw [hflag]; simpa using h0
  have horig : flag = true ∨ bas.getD 0 0 = 0 := by
    rcases h.origin with h0 | h0
    · left; rw [hflag]; simpa using h0
    · exact Or.inr h0
  have hsm : ∀ x : ℝ, 0 < x → x * hi < 1 → ∀ n, n ≤ hi → x * n < 1 := by
    intro x hx hlt n hn
    have : (n : ℝ) ≤ hi := by exact_mod_cast hn
    nlinarith
  have key1 : ∀ n, ∃ U : List (M3 ℤ), lo ≤ n → n ≤ hi → getHNFs n P bas 3 tol.hnf = some (.ok U) ∧ U.Nodup ∧ (∀ u ∈ U, u ∈ findAllHNFs n) ∧
      (∀ M : M3 ℤ, M.det = n ∨ M.det = -n → ∃! u, u ∈ U ∧ ∃ R s, PSym (ColLattice P.transpose) bas R s ∧
        R.mulVec '' SupLat P M = SupLat P u) := by
    intro n
    by_cases hn : lo ≤ n ∧ n ≤ hi
    · obtain ⟨U, hU⟩ := hnf_calls_at h.cell n (le_trans h.lo_pos hn.1) 3 (by norm_num) ht.hnf (hsm _ ht.hnf.pos ht.hnf_small n hn.2)
      exact ⟨U, fun _ _ => hU⟩
    · exact ⟨[], fun a b => absurd ⟨a, b⟩ hn⟩
  choose U hU using key1
  have key2 : ∀ n u, ∃ G G' snf, lo ≤ n → n ≤ hi → u ∈ U n → CellData P bas n tol.sym flag u G G' snf := by
    intro n u
    by_cases hn : (lo ≤ n ∧ n ≤ hi) ∧ u ∈ U n
    · obtain ⟨G, G', snf, hd⟩ := cell_data_at h.cell h.primitive (flag := flag) horig n (le_trans h.lo_pos hn.1.1) (lt_of_le_of_lt hn.1.2 h.hi_lt)
        ht.sym (hsm _ ht.sym.pos ht.sym_small n hn.1.2) u ((hU n hn.1.1 hn.1.2).2.2.1 u hn.2)
      exact ⟨G, G', snf, fun _ _ _ => hd⟩
    · exact ⟨[], [], ⟨0, 0, 0⟩, fun a b c => absurd ⟨⟨a, b⟩, c⟩ hn⟩
  choose G G' snf hG using key2
  have hbpos : 0 < bas.length := List.length_pos_iff.mpr h.cell.nonempty
  have hcs : ∀ n, lo ≤ n → n ≤ hi → ∀ c ∈ C n, c.length = k ∧ c.sum = bas.length * n ∧ 1 ≤ c.sum := by
    intro n a b c hc
    obtain ⟨c1, c2⟩ := (h.concs n a b).2.2 c hc
    rw [← hbl] at c2
    refine ⟨c1, c2, ?_⟩
    rw [c2]
    exact Nat.mul_pos hbpos (by have := h.lo_pos; omega)
  have key3 : ∀ n u c, ∃ total : ℕ, lo ≤ n → n ≤ hi → u ∈ U n → c ∈ C n → 1 ≤ total ∧ polyaCount (G n u) aconcs c = (pure total : Run ℕ) ∧
      (∃ L, IsTransversal (Composed c aconcs 6) (OpEquiv (G n u)) L ∧ L.length = total) ∧
      ∀ (nB : ℕ) (rnd : EnumRandom), (∀ l, (rnd.shuffle l).Perm l) → Modest c total →
        ((∀ i, i < c.length → arrowCount (c.getD i 0) (aconcs.getD i 0) = 0) ∨ c.sum < 12 ∨ 100 < total) →
        ∃ T, enumSys (G' n u) c aconcs total nB true false rnd = some (.ok T) ∧ T.length = total ∧
          IsTransversal (Composed c aconcs 6) (OpEquiv (G' n u)) T := by
    intro n u c
    by_cases hn : lo ≤ n ∧ n ≤ hi ∧ u ∈ U n ∧ c ∈ C n
    · obtain ⟨a1, a2, a3, a4⟩ := hn
      have hd := hG n u a1 a2 a3
      obtain ⟨c1, c2, c3⟩ := hcs n a1 a2 c a4
      obtain ⟨total, h⟩ := cell_count (c := c) (by have := h.species.1; omega) c3 aconcs (by rw [c1]; exact h.fractions.1)
        (by rw [c2]; exact hd.isGroup) hd.nodup (by rw [c2]; exact hd.isGroup') hd.nodup' hd.sites
        (by
          rcases hnoarr with hf | hf
          · exact Or.inl (hd.same hf)
          · exact Or.inr (hf c))
      exact ⟨total, fun _ _ _ _ => h⟩
    · exact ⟨0, fun a b c d => absurd ⟨a, b, c, d⟩ hn⟩
  choose cnt hcnt using key3
  refine ⟨U, cnt, ?_, ?_⟩
  · intro n a b
    obtain ⟨u1, u2, u3, u4⟩ := hU n a b
    refine ⟨u1, u2, u3, fun u hu => ?_⟩
    have hd := hG n u a b hu
    refine ⟨G n u, hd.group, by rw [← hbl]; exact hd.isGroup, hd.nodup, by rw [← hbl]; exact hd.order, fun c hc => ⟨(hcnt n u c a b hu hc).1, (hcnt n u c a b hu hc).2.1, (hcnt n u c a b hu hc).2.2.1⟩⟩
  intro hfits hdel w a lattice d hw hsh ha hd
  obtain ⟨rest, hsz⟩ := h.sizes
  obtain ⟨n0, hn0, hn0', hne0⟩ := h.nonempty
  -- some supercell exists
  have hU0 : ∃ u, u ∈ U n0 := by
    obtain ⟨u, ⟨hu, -⟩, -⟩ := (hU n0 hn0 hn0').2.2.2 (Matrix.diagonal ![(n0 : ℤ), 1, 1]) (Or.inl (by simp [Matrix.det_diagonal, Fin.prod_univ_three]))
    exact ⟨u, hu⟩
  have hrun := program_ok hw ha hd h.read h.geometry h.lo_pos h.lo_hi hsz U C G cnt
    (fun n a b => ⟨(hU n a b).1, (hU n a b).2.1, (hU n a b).2.2.1, (h.concs n a b).1 _ t5, (h.concs n a b).2.1,
      fun u hu => (hG n u a b hu).group, fun u hu c hc => (hcnt n u c a b hu hc).2.1⟩) hfits k (fun n a b c hc => ((h.concs n a b).2.2 c hc).1)
    (by
      obtain ⟨u, hu⟩ := hU0
      obtain ⟨c, hc⟩ := List.exists_mem_of_ne_nil _ hne0
      exact ⟨n0, u, c, hn0, hn0', hu, hc, (hcnt n0 u c hn0 hn0' hu hc).1⟩)
    (fun x E => ∃ T, E = T.map (enumEntry (hnfNumbers x.2.1) (snf x.1 x.2.1)) ∧ T.length = cnt x.1 x.2.1 x.2.2 ∧
      IsTransversal (Composed x.2.2 aconcs 6) (OpEquiv (G' x.1 x.2.1)) T)
    (by
      intro n u c a1 a2 a3 a4 _ i
      obtain ⟨-, -, -, c3⟩ := hcnt n u c a1 a2 a3 a4
      obtain ⟨m1, m2⟩ := hdel n u c a1 a2 a3 a4
      obtain ⟨T, r1, r2, r3⟩ := c3 bas.length (w.rnd i) (hsh i) m1 m2
      refine ⟨T.map (enumEntry (hnfNumbers u) (snf n u)), ?_, T, rfl, r2, r3⟩
      have hd := hG n u a1 a2 a3
      obtain ⟨hfull, h6⟩ := hnf_numbers_full (by have := h.lo_pos; omega) ((hU n a1 a2).2.2.1 u a3)
      obtain ⟨dd, hdd, -⟩ := C40_arrow_concs c aconcs (by rw [(hcs n a1 a2 c a4).1]; exact h.fractions.1)
      unfold enumSystem
      simp only [h6, lt_self_iff_false, if_false, h.geometry, runPy_ok, pure_bind, hfull, hd.smith, runO_ok, map_toNat, Int.toNat_natCast]
      rw [← hadef, hdd, runPy_ok, pure_bind, ← hflag, hd.group', pure_bind, r1, runO_ok, pure_bind])
  obtain ⟨K, Es, d', r1, r2, r3, r4, r5, r6, -, r8⟩ := hrun
  obtain ⟨F, hF, hFQ⟩ := forall₂_fun r2 r4 ⟨[], trivial⟩
  have hKm : ∀ n u c, (n, u, c) ∈ K ↔ lo ≤ n ∧ n ≤ hi ∧ u ∈ U n ∧ c ∈ C n := by
    intro n u c
    rw [r3]
    constructor
    · rintro ⟨a1, a2, a3, a4, -⟩; exact ⟨a1, a2, a3, a4⟩
    · rintro ⟨a1, a2, a3, a4⟩; exact ⟨a1, a2, a3, a4, (hcnt n u c a1 a2 a3 a4).1⟩
  have key4 : ∀ x, ∃ T, x ∈ K → F x = T.map (enumEntry (hnfNumbers x.2.1) (snf x.1 x.2.1)) ∧ T.length = cnt x.1 x.2.1 x.2.2 ∧
      IsTransversal (Composed x.2.2 aconcs 6) (OpEquiv (G' x.1 x.2.1)) T := by
    intro x
    by_cases hx : x ∈ K
    · obtain ⟨T, hT⟩ := hFQ x hx
      exact ⟨T, fun _ => hT⟩
    · exact ⟨[], fun hx' => absurd hx' hx⟩
  choose TT hT using key4
  have hrows : Es.flatten = K.flatMap (fun x => (TT x).map (enumEntry (hnfNumbers x.2.1) (snf x.1 x.2.1))) := by
    rw [hF, List.flatMap, List.map_congr_left (fun x hx => (hT x hx).1)]
  obtain ⟨s1, s2, s3⟩ := rows_once (usable_false h.cell flag) h.lo_pos h.species.2 h.fractions.1 U C G G' snf
    (fun n a b => ⟨(hU n a b).2.1, (hU n a b).2.2.1, (hU n a b).2.2.2⟩) (fun n a b u hu => hG n u a b hu)
    (fun n a b => ⟨(h.concs n a b).2.1, fun c hc => ⟨(hcs n a b c hc).1, (hcs n a b c hc).2.1, hnoarr.imp id (fun h => h c)⟩⟩)
    K r2 hKm TT (fun n u c hx => (hT (n, u, c) hx).2.2)
  have hname : ∀ n : ℕ, polyaName n = "polya.out.".toList ++ natStr n := fun n => by
    unfold polyaName
    rw [show "polya.out.".toList = "polya.out".toList ++ ['.'] from by decide, List.append_assoc]
    rfl
  refine ⟨Es.flatten, d', r1, r5, ⟨?_, ?_, ?_⟩, ⟨K, r2, hKm, ?_⟩, ?_, ?_⟩
  · rw [hrows]; exact s1
  · rw [hrows]; exact s2
  · intro n M a b hM χ _ c hc hχ
    rw [hrows]
    exact s3 n M a b hM χ c hc hχ
  · rw [hrows, List.length_flatMap]
    congr 1
    apply List.map_congr_left
    intro x hx
    rw [List.length_map, (hT x hx).2.1]
  · intro n a b
    rw [← hname]
    exact r6 n a b
  · intro f f1 f2 f3
    apply r8 f f1 f2
    intro n a b
    rw [hname]
    exact f3 n a b

/-- C58. The program as a whole. For every sufficiently small tolerance there are lists `U n` of supercells and numbers `cnt`, those that
`get_HNFs` and `polya` return, and if the numbers fit into the columns of polya.out and are `Deliverable`, the program
finishes and enum.out describes every structure exactly once. -/
theorem C58_every_structure_once {text : Str} {lat : LatticeIn} {P0 : Matrix (Fin 3) (Fin 3) ℚ} {b0 : List (Fin 3 → ℚ)} {lo hi k : ℕ} {T : Set ℚ}
    {C : ℕ → List Conc} (h : EnumInput text lat P0 b0 lo hi k T C) :
    ∃ e > 0, ∀ tol : Tol, 0 < tol.hnf → tol.hnf < e → 0 < tol.sym → tol.sym < e → tol.conc ∈ T →
      ∃ (U : ℕ → List (M3 ℤ)) (cnt : ℕ → M3 ℤ → Conc → ℕ),
        CountsAll tol lat P0 b0 lo hi C U cnt ∧
        ((∀ n, lo ≤ n → n ≤ hi → (countTable n (U n) (C n) (cnt n)).Fits) →
         (∀ n u c, lo ≤ n → n ≤ hi → u ∈ U n → c ∈ C n → Deliverable lat.arrowFractions c (cnt n u c)) →
         RunListsAll tol text lat P0 b0 lo hi C U cnt) :=
  small_tol h.cell.det h.cell.nonempty hi (fun _ ht => every_structure_once_at h ht)

/-- with at most 20 atoms per supercell, fewer than 12 if there are arrows, the counts fit and all structures are delivered -/
theorem small_ok {text : Str} {lat : LatticeIn} {P0 : Matrix (Fin 3) (Fin 3) ℚ} {b0 : List (Fin 3 → ℚ)} {lo hi k : ℕ} {T : Set ℚ}
    {C : ℕ → List Conc} (h : EnumInput text lat P0 b0 lo hi k T C) (hsize : b0.length * hi ≤ 20)
    (harr : lat.arrowFractions.sum = 0 ∨ b0.length * hi < 12) {tol : Tol} {U : ℕ → List (M3 ℤ)} {cnt : ℕ → M3 ℤ → Conc → ℕ}
    (hcnt : CountsAll tol lat P0 b0 lo hi C U cnt) :
    (∀ n, lo ≤ n → n ≤ hi → (countTable n (U n) (C n) (cnt n)).Fits) ∧
    ∀ n u c, lo ≤ n → n ≤ hi → u ∈ U n → c ∈ C n → Deliverable lat.arrowFractions c (cnt n u c) := by
  have hb : 0 < b0.length := by
    have := List.length_pos_iff.mpr h.cell.nonempty
    rwa [realVecs_length] at this
  have hle : ∀ n, n ≤ hi → b0.length * n ≤ b0.length * hi := fun n hn => Nat.mul_le_mul_left _ hn
  have hn20 : ∀ n, n ≤ hi → n ≤ 20 := fun n hn => le_trans (Nat.le_mul_of_pos_left n hb) (le_trans (hle n hn) hsize)
  refine ⟨?_, ?_⟩
  · intro n a b
    obtain ⟨u1, u2, u3, u4⟩ := hcnt n a b
    refine small_fits (le_trans h.lo_pos a) (hn20 n b) (getHNFs_nonempty (le_trans h.lo_pos a) u1) u2 u3 (h.concs n a b).2.1 ?_ ?_
    · intro c hc
      obtain ⟨c1, c2⟩ := (h.concs n a b).2.2 c hc
      refine ⟨?_, by rw [c1]; exact h.species.2, by rw [c2]; exact le_trans (hle n b) hsize⟩
      rintro rfl
      have := h.species.1
      simp at c1
      omega
    · intro u hu c hc
      obtain ⟨G, -, -, -, -, hc'⟩ := u4 u hu
      obtain ⟨-, -, L, hL, hlen⟩ := hc' c hc
      obtain ⟨c1, c2⟩ := (h.concs n a b).2.2 c hc
      rw [← hlen]
      refine le_trans (composed_count (by rw [c1]; exact h.species.2) (by rw [c1]; exact h.fractions.1) hL.nodup hL.mem) ?_
      rw [c2]
      exact Nat.pow_le_pow_right (by norm_num) (le_trans (hle n b) hsize)
  · intro n u c a b hu hc
    obtain ⟨-, -, -, u4⟩ := hcnt n a b
    obtain ⟨G, -, -, -, ho, hc'⟩ := u4 u hu
    obtain ⟨-, -, L, hL, hlen⟩ := hc' c hc
    obtain ⟨c1, c2⟩ := (h.concs n a b).2.2 c hc
    constructor
    · by_cases hm : c.sum.factorial / (c.map Nat.factorial).prod ≤ 100000
      · exact Or.inl hm
      · right
        have h1 := multinomial_le (by rw [c1]; exact h.fractions.1) hL
        have h2 : G.length * L.length ≤ 960 * L.length := Nat.mul_le_mul_right _ (by have := hle n b; omega)
        rw [← hlen]
        omega
    · rcases harr with h0 | h0
      · exact Or.inl (no_arrows h.fractions.2 h0 c)
      · right; left
        rw [c2]
        exact lt_of_le_of_lt (hle n b) h0


/-- auxiliary: the same at tolerances at which the searches are exact -/
theorem small_at {text : Str} {lat : LatticeIn} {P0 : Matrix (Fin 3) (Fin 3) ℚ} {b0 : List (Fin 3 → ℚ)} {lo hi k : ℕ} {T : Set ℚ}
    {C : ℕ → List Conc} (h : EnumInput text lat P0 b0 lo hi k T C) (hsize : b0.length * hi ≤ 20)
    (harr : lat.arrowFractions.sum = 0 ∨ b0.length * hi < 12) {tol : Tol} (ht : ExactTol P0 b0 hi tol) :
    tol.conc ∈ T →
      ∃ (U : ℕ → List (M3 ℤ)) (cnt : ℕ → M3 ℤ → Conc → ℕ), CountsAll tol lat P0 b0 lo hi C U cnt ∧ RunListsAll tol text lat P0 b0 lo hi C U cnt := by
  intro t5
  obtain ⟨U, cnt, hcnt, hrun⟩ := every_structure_once_at h ht t5
  obtain ⟨h1, h2⟩ := small_ok h hsize harr hcnt
  exact ⟨U, cnt, hcnt, hrun h1 h2⟩

/-- C58. With at most 20 atoms per supercell, or with fewer than 12 if arrows are used, the program lists every structure exactly
once: nothing has to be assumed about the counts. -/
theorem C58_small {text : Str} {lat : LatticeIn} {P0 : Matrix (Fin 3) (Fin 3) ℚ} {b0 : List (Fin 3 → ℚ)} {lo hi k : ℕ} {T : Set ℚ}
    {C : ℕ → List Conc} (h : EnumInput text lat P0 b0 lo hi k T C) (hsize : b0.length * hi ≤ 20)
    (harr : lat.arrowFractions.sum = 0 ∨ b0.length * hi < 12) :
    ∃ e > 0, ∀ tol : Tol, 0 < tol.hnf → tol.hnf < e → 0 < tol.sym → tol.sym < e → tol.conc ∈ T →
      ∃ (U : ℕ → List (M3 ℤ)) (cnt : ℕ → M3 ℤ → Conc → ℕ), CountsAll tol lat P0 b0 lo hi C U cnt ∧ RunListsAll tol text lat P0 b0 lo hi C U cnt :=
  small_tol h.cell.det h.cell.nonempty hi (fun _ ht => small_at h hsize harr ht)

end Phenum
