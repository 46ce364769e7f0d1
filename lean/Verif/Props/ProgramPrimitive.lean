import Verif.Props.ProgramInput
import Verif.Props.Steps
import Verif.Proof.Periods
import Verif.Props.ProgramExamples
/-
C61: the default call of the program, which leaves out the structures that have a smaller cell.
-/
namespace Phenum
open Spec

/-- the count of one system, and the delivery of the structures without a smaller period (at most three species, no arrows) -/
theorem cell_count_primitive {c : List ℕ} (h2 : 2 ≤ c.length) (h3 : c.length ≤ 3) (hpos : 1 ≤ c.sum) (aconcs : List ℚ) (hlen : c.length ≤ aconcs.length)
    {G G' : List Op} (hG : IsOpGroup c.sum 6 G) (hnd : G.Nodup) (hG' : IsOpGroup c.sum 6 G') (hnd' : G'.Nodup)
    (hmem : ∀ σ, σ ∈ G.map (·.1) ↔ σ ∈ G'.map (·.1)) (hna : NoArrows aconcs c) {nB n : ℕ} (hn : c.sum / nB = n) (ht : HasTranslations c.sum G' n) :
    ∃ total : ℕ, 1 ≤ total ∧ polyaCount G aconcs c = (pure total : Run ℕ) ∧
      (∃ L, IsTransversal (Composed c aconcs 6) (OpEquiv G) L ∧ L.length = total) ∧
      ∀ (rnd : EnumRandom), Modest c total →
        ∃ T, enumSys G' c aconcs total nB false false rnd = some (.ok T) ∧
          IsTransversal (fun z => Composed c aconcs 6 z ∧ ¬ Superperiodic ((G'.take n).map (·.1)) z) (OpEquiv G') T := by
  obtain ⟨total, a1, a2, a3, -⟩ := cell_count h2 hpos aconcs hlen hG hnd hG' hnd' hmem (Or.inr hna)
  refine ⟨total, a1, a2, a3, fun rnd hmod => ?_⟩
  have hP := opGroup_sites hG
  have hP' := opGroup_sites hG'
  obtain ⟨⟨L0, hL0⟩, hcount⟩ := C13_polya_counts_orbits c G hpos hP (sites_balanced hG hnd) (fun g hg => ⟨6, hG.arrows g hg⟩)
  have hcount' := (C13_polya_counts_orbits c G' hpos hP' (sites_balanced hG' hnd') (fun g hg => ⟨6, hG'.arrows g hg⟩)).2
  have heq : ∀ w z : List ℕ, Spec.Equiv (G.map (·.1)) w z ↔ Spec.Equiv (G'.map (·.1)) w z := by
    intro w z
    unfold Spec.Equiv
    constructor
    · rintro ⟨σ, hσ, e⟩; exact ⟨σ, (hmem σ).mp hσ, e⟩
    · rintro ⟨σ, hσ, e⟩; exact ⟨σ, (hmem σ).mpr hσ, e⟩
  have hL0' : IsTransversal (IsLabelling c) (Spec.Equiv (G'.map (·.1))) L0 := by
    refine ⟨hL0.nodup, hL0.mem, fun x hx => ?_⟩
    have := hL0.unique x hx
    simpa only [heq] using this
  have htot : polya c G' .none = some (.ok (total : ℤ)) := by
    rw [hcount' L0 hL0']
    have hp := hcount L0 hL0
    obtain ⟨d, hd, -, -, -, -⟩ := C40_arrow_concs c aconcs hlen
    have hnad := (C40_decoration_usable c aconcs d hd hlen).2.2.2.mpr hna
    have e2 : (howManyArrows d).1 = 0 := by
      rw [(C40_how_many_arrows d).1, List.length_eq_zero_iff, List.filter_eq_nil_iff]
      intro s hs
      rw [hnad s hs]; decide
    unfold polyaCount at a2
    rw [hd, runPy_ok, pure_bind] at a2
    simp only [howMany_types_zero hnad, e2, ne_eq, not_true_eq_false, or_self, if_false] at a2
    rw [hp, runO_ok, pure_bind] at a2
    have := run_pure_inj a2
    simp only [Int.toNat_natCast] at this
    rw [this]
  obtain ⟨T, t1, t2⟩ := C43_request_super G' c aconcs total nB rnd h2 h3 hlen hpos hna hP' (by rw [hn]; exact ht) hmod total htot (Or.inr (Or.inl (le_refl _)))
  refine ⟨T, t1, ?_⟩
  rw [hn] at t2
  have hpl : ∀ w ∈ T, Plain c w := fun w hw => ⟨(t2.mem w hw).1, (t2.mem w hw).2.1⟩
  refine ⟨t2.nodup, fun w hw => ⟨(plain_iff_composed hna w).mp (hpl w hw), (t2.mem w hw).2.2⟩, fun x hx => ?_⟩
  have hxp := (plain_iff_composed hna x).mpr hx.1
  obtain ⟨w, ⟨hw, hwx⟩, hun⟩ := t2.unique x ⟨hxp.1, hxp.2, hx.2⟩
  refine ⟨w, ⟨hw, (opEquiv_plain hG'.sites (hpl w hw)).mpr hwx⟩, ?_⟩
  rintro y ⟨hy, hyx⟩
  exact hun y ⟨hy, (opEquiv_plain hG'.sites (hpl y hy)).mp hyx⟩

/-- The rows of enum.out list the structures derived from the crystal that have `lo` to `hi` cells, the concentrations `C` and no smaller period: no
row is listed twice, each row describes such a structure, and every such structure is, up to a symmetry of the crystal, described by exactly
one row. -/
structure Spec.ListsPrimitive (P : M3 ℝ) (bas : List V3) (lo hi : ℕ) (C : ℕ → List Conc) (aconcs : List ℚ) (rows : List EnumEntry) : Prop where
  nodup : rows.Nodup
  valid : ∀ row ∈ rows, ∃ n, lo ≤ n ∧ n ≤ hi ∧ row.size = n ∧ ∃ c ∈ C n, ∃ ψ, RowDescribes P bas row ψ ∧
    PeriodicOn (CrystalSites (ColLattice P.transpose) bas) (rowLattice P row) ψ ∧
    HasContents (CrystalSites (ColLattice P.transpose) bas) (rowLattice P row) (bas.length * n) (Composed c aconcs 6) ψ ∧
    NoFurtherPeriod (ColLattice P.transpose) (CrystalSites (ColLattice P.transpose) bas) (rowLattice P row) ψ
  complete : ∀ (n : ℕ) (M : M3 ℤ), lo ≤ n → n ≤ hi → M.det = n ∨ M.det = -n → ∀ χ,
    PeriodicOn (CrystalSites (ColLattice P.transpose) bas) (SupLat P M) χ →
    NoFurtherPeriod (ColLattice P.transpose) (CrystalSites (ColLattice P.transpose) bas) (SupLat P M) χ → ∀ c ∈ C n,
    HasContents (CrystalSites (ColLattice P.transpose) bas) (SupLat P M) (bas.length * n) (Composed c aconcs 6) χ →
    ∃! row, row ∈ rows ∧ ∃ ψ, RowDescribes P bas row ψ ∧
      SameStructure (ColLattice P.transpose) bas (SupLat P M) χ (rowLattice P row) ψ

/-- The row is written for a supercell `u` of `lo` to `hi` cells, given by its Hermite normal form: it carries the numbers of `u`, the Smith normal form
and the left transform computed for `u`, and the labels of all sites of `u`, no site being displaced. -/
def Spec.RowOfCell (nb lo hi : ℕ) (C : ℕ → List Conc) (row : EnumEntry) : Prop :=
  ∃ (n : ℕ) (u : M3 ℤ) (snf : SnfState) (z : Config), lo ≤ n ∧ n ≤ hi ∧ u ∈ findAllHNFs n ∧ smithNormalForm u = some (.ok snf) ∧
    row = enumEntry (hnfNumbers u) snf z ∧ z.length = nb * n ∧ ∃ c ∈ C n, Plain c z

/-- `enumeration.py -enum` (without `-super`) in a directory with the file lattice.in and no results of earlier runs finishes, whatever the order of the
directory listing and the random numbers; enum.out lists the structures without a smaller period; polya.out.`n` holds the table of the counts (which
include the structures with a smaller period); no other files are changed. -/
def Spec.RunListsPrimitive (tol : Tol) (text : Str) (lat : LatticeIn) (P0 : Matrix (Fin 3) (Fin 3) ℚ) (b0 : List (Fin 3 → ℚ)) (lo hi : ℕ) (C : ℕ → List Conc)
    (U : ℕ → List (M3 ℤ)) (cnt : ℕ → M3 ℤ → Conc → ℕ) : Prop :=
  ∀ (w : World) (a : Args) (lattice : Str) (d : Dir), (∀ l, (w.listdir l).Perm l) →
      PlainCall a lattice false → FreshDir lattice text d →
    ∃ (rows : List EnumEntry) (d' : Dir), scriptEnum w tol a d = (pure d' : Run Dir) ∧
      dictGet d' "enum.out".toList = some (enumOutFile (lat.enumParams (P0, b0)) w.now rows) ∧
      ListsPrimitive (realMat P0) (realVecs b0) lo hi C lat.arrowFractions rows ∧
      (∀ row ∈ rows, RowOfCell b0.length lo hi C row) ∧
      (∀ n, lo ≤ n → n ≤ hi → dictGet d' ("polya.out.".toList ++ natStr n) = some (writePolya (countTable n (U n) (C n) (cnt n)))) ∧
      ∀ f, f ≠ "enum.out".toList → f ≠ "enum.in".toList → (∀ n, lo ≤ n → n ≤ hi → f ≠ "polya.out.".toList ++ natStr n) → dictGet d' f = dictGet d f

/-- auxiliary: the same at tolerances at which the searches are exact -/
theorem every_primitive_structure_once_at {text : Str} {lat : LatticeIn} {P0 : Matrix (Fin 3) (Fin 3) ℚ} {b0 : List (Fin 3 → ℚ)} {lo hi k : ℕ} {T : Set ℚ}
    {C : ℕ → List Conc} (h : EnumInput text lat P0 b0 lo hi k T C) (hk3 : k ≤ 3) (hna : lat.arrowFractions.sum = 0) {tol : Tol} (ht : ExactTol P0 b0 hi tol) :
    tol.conc ∈ T →
      ∃ (U : ℕ → List (M3 ℤ)) (cnt : ℕ → M3 ℤ → Conc → ℕ),
        CountsAll tol lat P0 b0 lo hi C U cnt ∧
        ((∀ n, lo ≤ n → n ≤ hi → (countTable n (U n) (C n) (cnt n)).Fits) →
         (∀ n u c, lo ≤ n → n ≤ hi → u ∈ U n → c ∈ C n → Deliverable lat.arrowFractions c (cnt n u c)) →
         RunListsPrimitive tol text lat P0 b0 lo hi C U cnt) := by
  classical
  intro t5
  set P := realMat P0 with hPdef
  set bas := realVecs b0 with hbdef
  have hbl : bas.length = b0.length := realVecs_length b0
  set aconcs := lat.arrowFractions with hadef
  set flag : Bool := decide (aconcs.sum ≠ 0) with hflag
  have hnoarr : ∀ c : Conc, NoArrows aconcs c := no_arrows h.fractions.2 hna
  have horig : flag = true ∨ bas.getD 0 0 = 0 := by
    rcases h.origin with h0 | h0
    · left; rw [hflag]; simpa using h0
    · exact Or.inr h0
  have hsm : ∀ x : ℝ, 0 < x → x * hi < 1 → ∀ n, n ≤ hi → x * n < 1 := by
    intro x hx hlt n hn
    have : (n : ℝ) ≤ hi := by exact_mod_cast hn
    nlinarith
  have key1 : ∀ n, ∃ U : List (M3 ℤ), lo ≤ n → n ≤ hi → getHNFs n P bas 3 tol.hnf = some (.ok U) ∧ U.Nodup ∧ (∀ u ∈ U, u ∈ findAllHNFs n) ∧
      (∀ M : M3 ℤ, M.det = n ∨ M.det = -n → ∃! u, u ∈ U ∧ ∃ R s, PSym (ColLattice P.transpose) bas R s ∧
        R.mulVec '' SupLat P M = SupLat P u) := by
    intro n
    by_cases hn : lo ≤ n ∧ n ≤ hi
    · obtain ⟨U, hU⟩ := hnf_calls_at h.cell n (le_trans h.lo_pos hn.1) 3 (by norm_num) ht.hnf (hsm _ ht.hnf.pos ht.hnf_small n hn.2)
      exact ⟨U, fun _ _ => hU⟩
    · exact ⟨[], fun a b => absurd ⟨a, b⟩ hn⟩
  choose U hU using key1
  have key2 : ∀ n u, ∃ G G' snf, lo ≤ n → n ≤ hi → u ∈ U n → CellData P bas n tol.sym flag u G G' snf := by
    intro n u
    by_cases hn : (lo ≤ n ∧ n ≤ hi) ∧ u ∈ U n
    · obtain ⟨G, G', snf, hd⟩ := cell_data_at h.cell h.primitive (flag := flag) horig n (le_trans h.lo_pos hn.1.1) (lt_of_le_of_lt hn.1.2 h.hi_lt)
        ht.sym (hsm _ ht.sym.pos ht.sym_small n hn.1.2) u ((hU n hn.1.1 hn.1.2).2.2.1 u hn.2)
      exact ⟨G, G', snf, fun _ _ _ => hd⟩
    · exact ⟨[], [], ⟨0, 0, 0⟩, fun a b c => absurd ⟨⟨a, b⟩, c⟩ hn⟩
  choose G G' snf hG using key2
  have hbpos : 0 < bas.length := List.length_pos_iff.mpr h.cell.nonempty
  have hcs : ∀ n, lo ≤ n → n ≤ hi → ∀ c ∈ C n, c.length = k ∧ c.sum = bas.length * n ∧ 1 ≤ c.sum := by
    intro n a b c hc
    obtain ⟨c1, c2⟩ := (h.concs n a b).2.2 c hc
    rw [← hbl] at c2
    refine ⟨c1, c2, ?_⟩
    rw [c2]
    exact Nat.mul_pos hbpos (by have := h.lo_pos; omega)
  have key3 : ∀ n u c, ∃ total : ℕ, lo ≤ n → n ≤ hi → u ∈ U n → c ∈ C n → 1 ≤ total ∧ polyaCount (G n u) aconcs c = (pure total : Run ℕ) ∧
      (∃ L, IsTransversal (Composed c aconcs 6) (OpEquiv (G n u)) L ∧ L.length = total) ∧
      ∀ (rnd : EnumRandom), Modest c total →
        ∃ T, enumSys (G' n u) c aconcs total bas.length false false rnd = some (.ok T) ∧
          IsTransversal (fun z => Composed c aconcs 6 z ∧ ¬ Superperiodic (((G' n u).take n).map (·.1)) z) (OpEquiv (G' n u)) T := by
    intro n u c
    by_cases hn : lo ≤ n ∧ n ≤ hi ∧ u ∈ U n ∧ c ∈ C n
    · obtain ⟨a1, a2, a3, a4⟩ := hn
      have hd := hG n u a1 a2 a3
      obtain ⟨c1, c2, c3⟩ := hcs n a1 a2 c a4
      obtain ⟨total, h⟩ := cell_count_primitive (c := c) (by have := h.species.1; omega) (by omega) c3 aconcs (by rw [c1]; exact h.fractions.1)
        (by rw [c2]; exact hd.isGroup) hd.nodup (by rw [c2]; exact hd.isGroup') hd.nodup' hd.sites (hnoarr c) (nB := bas.length) (n := n)
        (by rw [c2]; exact Nat.mul_div_cancel_left n hbpos) (by rw [c2]; exact hd.hasTrans)
      exact ⟨total, fun _ _ _ _ => h⟩
    · exact ⟨0, fun a b c d => absurd ⟨a, b, c, d⟩ hn⟩
  choose cnt hcnt using key3
  refine ⟨U, cnt, ?_, ?_⟩
  · intro n a b
    obtain ⟨u1, u2, u3, u4⟩ := hU n a b
    refine ⟨u1, u2, u3, fun u hu => ?_⟩
    have hd := hG n u a b hu
    refine ⟨G n u, hd.group, by rw [← hbl]; exact hd.isGroup, hd.nodup, by rw [← hbl]; exact hd.order, fun c hc => ⟨(hcnt n u c a b hu hc).1, (hcnt n u c a b hu hc).2.1, (hcnt n u c a b hu hc).2.2.1⟩⟩
  intro hfits hdel w a lattice d hw ha hd
  obtain ⟨rest, hsz⟩ := h.sizes
  obtain ⟨n0, hn0, hn0', hne0⟩ := h.nonempty
  -- some supercell exists
  have hU0 : ∃ u, u ∈ U n0 := by
    obtain ⟨u, ⟨hu, -⟩, -⟩ := (hU n0 hn0 hn0').2.2.2 (Matrix.diagonal ![(n0 : ℤ), 1, 1]) (Or.inl (by simp [Matrix.det_diagonal, Fin.prod_univ_three]))
    exact ⟨u, hu⟩
  have hrun := program_ok hw ha hd h.read h.geometry h.lo_pos h.lo_hi hsz U C G cnt
    (fun n a b => ⟨(hU n a b).1, (hU n a b).2.1, (hU n a b).2.2.1, (h.concs n a b).1 _ t5, (h.concs n a b).2.1,
      fun u hu => (hG n u a b hu).group, fun u hu c hc => (hcnt n u c a b hu hc).2.1⟩) hfits k (fun n a b c hc => ((h.concs n a b).2.2 c hc).1)
    (by
      obtain ⟨u, hu⟩ := hU0
      obtain ⟨c, hc⟩ := List.exists_mem_of_ne_nil _ hne0
      exact ⟨n0, u, c, hn0, hn0', hu, hc, (hcnt n0 u c hn0 hn0' hu hc).1⟩)
    (fun x E => ∃ T, E = T.map (enumEntry (hnfNumbers x.2.1) (snf x.1 x.2.1)) ∧
      IsTransversal (fun z => Composed x.2.2 aconcs 6 z ∧ ¬ Superperiodic (((G' x.1 x.2.1).take x.1).map (·.1)) z) (OpEquiv (G' x.1 x.2.1)) T)
    (by
      intro n u c a1 a2 a3 a4 _ i
      obtain ⟨-, -, -, c3⟩ := hcnt n u c a1 a2 a3 a4
      obtain ⟨m1, m2⟩ := hdel n u c a1 a2 a3 a4
      obtain ⟨T, r1, r3⟩ := c3 (w.rnd i) m1
      refine ⟨T.map (enumEntry (hnfNumbers u) (snf n u)), ?_, T, rfl, r3⟩
      have hd := hG n u a1 a2 a3
      obtain ⟨hfull, h6⟩ := hnf_numbers_full (by have := h.lo_pos; omega) ((hU n a1 a2).2.2.1 u a3)
      obtain ⟨dd, hdd, -⟩ := C40_arrow_concs c aconcs (by rw [(hcs n a1 a2 c a4).1]; exact h.fractions.1)
      unfold enumSystem
      simp only [h6, lt_self_iff_false, if_false, h.geometry, runPy_ok, pure_bind, hfull, hd.smith, runO_ok, map_toNat, Int.toNat_natCast]
      rw [← hadef, hdd, runPy_ok, pure_bind, ← hflag, hd.group', pure_bind, r1, runO_ok, pure_bind])
  obtain ⟨K, Es, d', r1, r2, r3, r4, r5, r6, -, r8⟩ := hrun
  obtain ⟨F, hF, hFQ⟩ := forall₂_fun r2 r4 ⟨[], trivial⟩
  have hKm : ∀ n u c, (n, u, c) ∈ K ↔ lo ≤ n ∧ n ≤ hi ∧ u ∈ U n ∧ c ∈ C n := by
    intro n u c
    rw [r3]
    constructor
    · rintro ⟨a1, a2, a3, a4, -⟩; exact ⟨a1, a2, a3, a4⟩
    · rintro ⟨a1, a2, a3, a4⟩; exact ⟨a1, a2, a3, a4, (hcnt n u c a1 a2 a3 a4).1⟩
  have key4 : ∀ x, ∃ T, x ∈ K → F x = T.map (enumEntry (hnfNumbers x.2.1) (snf x.1 x.2.1)) ∧
      IsTransversal (fun z => Composed x.2.2 aconcs 6 z ∧ ¬ Superperiodic (((G' x.1 x.2.1).take x.1).map (·.1)) z) (OpEquiv (G' x.1 x.2.1)) T := by
    intro x
    by_cases hx : x ∈ K
    · obtain ⟨T, hT⟩ := hFQ x hx
      exact ⟨T, fun _ => hT⟩
    · exact ⟨[], fun hx' => absurd hx' hx⟩
  choose TT hT using key4
  have hrows : Es.flatten = K.flatMap (fun x => (TT x).map (enumEntry (hnfNumbers x.2.1) (snf x.1 x.2.1))) := by
    rw [hF, List.flatMap, List.map_congr_left (fun x hx => (hT x hx).1)]
  obtain ⟨s1, s2, s3⟩ := rows_primitive (usable_false h.cell flag) h.lo_pos h.species.2 h.fractions.1 U C G G' snf
    (fun n a b => ⟨(hU n a b).2.1, (hU n a b).2.2.1, (hU n a b).2.2.2⟩) (fun n a b u hu => hG n u a b hu)
    (fun n a b => ⟨(h.concs n a b).2.1, fun c hc => ⟨(hcs n a b c hc).1, (hcs n a b c hc).2.1, Or.inr (hnoarr c)⟩⟩)
    K r2 hKm TT (fun n u c hx => (hT (n, u, c) hx).2)
  have hname : ∀ n : ℕ, polyaName n = "polya.out.".toList ++ natStr n := fun n => by
    unfold polyaName
    rw [show "polya.out.".toList = "polya.out".toList ++ ['.'] from by decide, List.append_assoc]
    rfl
  refine ⟨Es.flatten, d', r1, r5, ⟨?_, ?_, ?_⟩, ?_, ?_, ?_⟩
  · rw [hrows]; exact s1
  · rw [hrows]; exact s2
  · intro n M a b hM χ _ hp c hc hχ
    rw [hrows]
    exact s3 n M a b hM χ hp c hc hχ
  · rw [hrows]
    intro row hrow
    obtain ⟨⟨n, u, c⟩, hx, hrow⟩ := List.mem_flatMap.mp hrow
    obtain ⟨z, hz, rfl⟩ := List.mem_map.mp hrow
    obtain ⟨a1, a2, a3, a4⟩ := (hKm n u c).mp hx
    have hpl := (plain_iff_composed (hnoarr c) z).mpr ((hT _ hx).2.mem z hz).1
    refine ⟨n, u, snf n u, z, a1, a2, (hU n a1 a2).2.2.1 u a3, (hG n u a1 a2 a3).smith, rfl, ?_, c, a4, hpl⟩
    have := lab_len hpl.2
    rw [List.length_map, (hcs n a1 a2 c a4).2.1, hbl] at this
    exact this
  · intro n a b
    rw [← hname]
    exact r6 n a b
  · intro f f1 f2 f3
    apply r8 f f1 f2
    intro n a b
    rw [hname]
    exact f3 n a b

/-- C61. The program as a whole, without `-super`, for two or three species and no displaced atoms: if the counts fit into the columns of polya.out and are
`Deliverable`, the program finishes and enum.out describes every structure without a smaller period exactly once, and nothing else. -/
theorem C61_every_primitive_structure_once {text : Str} {lat : LatticeIn} {P0 : Matrix (Fin 3) (Fin 3) ℚ} {b0 : List (Fin 3 → ℚ)} {lo hi k : ℕ} {T : Set ℚ}
    {C : ℕ → List Conc} (h : EnumInput text lat P0 b0 lo hi k T C) (hk3 : k ≤ 3) (hna : lat.arrowFractions.sum = 0) :
    ∃ e > 0, ∀ tol : Tol, 0 < tol.hnf → tol.hnf < e → 0 < tol.sym → tol.sym < e → tol.conc ∈ T →
      ∃ (U : ℕ → List (M3 ℤ)) (cnt : ℕ → M3 ℤ → Conc → ℕ),
        CountsAll tol lat P0 b0 lo hi C U cnt ∧
        ((∀ n, lo ≤ n → n ≤ hi → (countTable n (U n) (C n) (cnt n)).Fits) →
         (∀ n u c, lo ≤ n → n ≤ hi → u ∈ U n → c ∈ C n → Deliverable lat.arrowFractions c (cnt n u c)) →
         RunListsPrimitive tol text lat P0 b0 lo hi C U cnt) :=
  small_tol h.cell.det h.cell.nonempty hi (fun _ ht => every_primitive_structure_once_at h hk3 hna ht)

/-- auxiliary: the same at tolerances at which the searches are exact -/
theorem primitive_small_at {text : Str} {lat : LatticeIn} {P0 : Matrix (Fin 3) (Fin 3) ℚ} {b0 : List (Fin 3 → ℚ)} {lo hi k : ℕ} {T : Set ℚ}
    {C : ℕ → List Conc} (h : EnumInput text lat P0 b0 lo hi k T C) (hk3 : k ≤ 3) (hna : lat.arrowFractions.sum = 0) (hsize : b0.length * hi ≤ 20) {tol : Tol} (ht : ExactTol P0 b0 hi tol) :
    tol.conc ∈ T →
      ∃ (U : ℕ → List (M3 ℤ)) (cnt : ℕ → M3 ℤ → Conc → ℕ), CountsAll tol lat P0 b0 lo hi C U cnt ∧ RunListsPrimitive tol text lat P0 b0 lo hi C U cnt := by
  intro t5
  obtain ⟨U, cnt, hcnt, hrun⟩ := every_primitive_structure_once_at h hk3 hna ht t5
  obtain ⟨h1, h2⟩ := small_ok h hsize (Or.inl hna) hcnt
  exact ⟨U, cnt, hcnt, hrun h1 h2⟩

/-- C61. The default call with at most 20 atoms per supercell, two or three species, no displaced atoms: nothing has to be assumed about the counts. -/
theorem C61_small {text : Str} {lat : LatticeIn} {P0 : Matrix (Fin 3) (Fin 3) ℚ} {b0 : List (Fin 3 → ℚ)} {lo hi k : ℕ} {T : Set ℚ}
    {C : ℕ → List Conc} (h : EnumInput text lat P0 b0 lo hi k T C) (hk3 : k ≤ 3) (hna : lat.arrowFractions.sum = 0) (hsize : b0.length * hi ≤ 20) :
    ∃ e > 0, ∀ tol : Tol, 0 < tol.hnf → tol.hnf < e → 0 < tol.sym → tol.sym < e → tol.conc ∈ T →
      ∃ (U : ℕ → List (M3 ℤ)) (cnt : ℕ → M3 ℤ → Conc → ℕ), CountsAll tol lat P0 b0 lo hi C U cnt ∧ RunListsPrimitive tol text lat P0 b0 lo hi C U cnt :=
  small_tol h.cell.det h.cell.nonempty hi (fun _ ht => primitive_small_at h hk3 hna hsize ht)

/-- `C61_all_crystals` for any list of compositions, with what is known of each row -/
theorem crystals_rows {text : Str} {lat : LatticeIn} {P0 : Matrix (Fin 3) (Fin 3) ℚ} {b0 : List (Fin 3 → ℚ)} {hi k : ℕ} {T : Set ℚ} {C : ℕ → List Conc}
    (h : EnumInput text lat P0 b0 1 hi k T C) (hk3 : k ≤ 3) (hna : lat.arrowFractions.sum = 0) (hsize : b0.length * hi ≤ 20) {tol : Tol} (ht : ExactTol P0 b0 hi tol)
    (htc : tol.conc ∈ T) :
    ∀ (w : World) (a : Args) (lattice : Str) (d : Dir), (∀ l, (w.listdir l).Perm l) →
        PlainCall a lattice false → FreshDir lattice text d →
      ∃ (rows : List EnumEntry) (d' : Dir), scriptEnum w tol a d = (pure d' : Run Dir) ∧
        dictGet d' "enum.out".toList = some (enumOutFile (lat.enumParams (P0, b0)) w.now rows) ∧ ListsPrimitive (realMat P0) (realVecs b0) 1 hi C lat.arrowFractions rows ∧
        (∀ row ∈ rows, RowOfCell b0.length 1 hi C row ∧ ∃ ψ, RowDescribes (realMat P0) (realVecs b0) row ψ) ∧
        ∀ (M : M3 ℤ), 1 ≤ M.det.natAbs → M.det.natAbs ≤ hi → ∀ χ : Decoration,
          PeriodicOn (CrystalSites (ColLattice (realMat P0).transpose) (realVecs b0)) (SupLat (realMat P0) M) χ →
          (∀ x ∈ CrystalSites (ColLattice (realMat P0).transpose) (realVecs b0), (χ x).2 = 0 ∧ 1 ≤ (χ x).1 ∧ (χ x).1 ≤ k) →
          (∀ (M' : M3 ℤ) (c : Conc), 1 ≤ M'.det.natAbs → M'.det.natAbs ≤ hi → SupLat (realMat P0) M ⊆ SupLat (realMat P0) M' →
            PeriodicOn (CrystalSites (ColLattice (realMat P0).transpose) (realVecs b0)) (SupLat (realMat P0) M') χ →
            c.length = k → c.sum = b0.length * M'.det.natAbs →
            HasContents (CrystalSites (ColLattice (realMat P0).transpose) (realVecs b0)) (SupLat (realMat P0) M') (b0.length * M'.det.natAbs)
              (Composed c lat.arrowFractions 6) χ → c ∈ C M'.det.natAbs) →
          ∃! row, row ∈ rows ∧ ∃ ψ, RowDescribes (realMat P0) (realVecs b0) row ψ ∧
            SameDecoration (ColLattice (realMat P0).transpose) (realVecs b0) χ ψ := by
  have hb : 0 < b0.length := by
    have := List.length_pos_iff.mpr h.cell.nonempty
    rwa [realVecs_length] at this
  have hhi : hi < 2 ^ 24 := h.hi_lt
  have hal : ∀ x ∈ lat.arrowFractions, x = 0 := sum_zero h.fractions.2 hna
  intro w a lattice d hw ha hd
  obtain ⟨U, cnt, -, hrun⟩ := primitive_small_at h hk3 hna hsize ht htc
  obtain ⟨rows, d', r1, r2, r3, r3', -⟩ := hrun w a lattice d hw ha hd
  refine ⟨rows, d', r1, r2, r3, fun row hrow => ⟨r3' row hrow, by obtain ⟨n, -, -, -, c, -, ψ, q, -⟩ := r3.valid row hrow; exact ⟨ψ, q⟩⟩, fun M m1 m2 χ hper hχ hC => ?_⟩
  obtain ⟨M', hdvd, hp1, hp2⟩ := period_lattice h.cell.det (by omega) hper
  have hsub : SupLat (realMat P0) M ⊆ SupLat (realMat P0) M' := fun t ht => hp2 t (supLat_sub _ M ht) (fun x hx => hper x hx t ht)
  have hd1 : M'.det.natAbs ∣ M.det.natAbs := Int.natAbs_dvd_natAbs.mpr hdvd
  have hle := Nat.le_of_dvd (by omega) hd1
  have hpos : 1 ≤ M'.det.natAbs := Nat.pos_of_dvd_of_pos hd1 (by omega)
  have hM' : M'.det = (M'.det.natAbs : ℤ) ∨ M'.det = -(M'.det.natAbs : ℤ) := Int.natAbs_eq _
  obtain ⟨c, c1, c2, c3⟩ := contents_exists h.cell h.primitive hpos (by omega) hM' (aconcs := lat.arrowFractions)
    hal hp1 hχ
  have key := r3.complete _ M' hpos (by omega) hM' χ hp1 hp2 c (by
    rw [realVecs_length] at c2 c3
    exact hC M' c hpos (by omega) hsub hp1 c1 c2 c3) c3
  have hiff : ∀ row ∈ rows, ∀ ψ, RowDescribes (realMat P0) (realVecs b0) row ψ →
      (SameDecoration (ColLattice (realMat P0).transpose) (realVecs b0) χ ψ ↔
        SameStructure (ColLattice (realMat P0).transpose) (realVecs b0) (SupLat (realMat P0) M') χ (rowLattice (realMat P0) row) ψ) := by
    intro row hrow ψ hψ
    obtain ⟨n, -, -, -, c, -, ψ0, q1, q2, -, q4⟩ := r3.valid row hrow
    have hsub : rowLattice (realMat P0) row ⊆ ColLattice (realMat P0).transpose := rowLattice_sub _ _
    have hsite : ∀ x ∈ CrystalSites (ColLattice (realMat P0).transpose) (realVecs b0), ∀ t ∈ ColLattice (realMat P0).transpose,
        x + t ∈ CrystalSites (ColLattice (realMat P0).transpose) (realVecs b0) := by
      rintro x ⟨d, hd, hm⟩ t ht
      refine ⟨d, hd, ?_⟩
      have := (colLat_isSub _).add _ hm _ ht
      convert this using 1
      abel
    have heq := row_describes_unique hψ q1
    refine same_periods (colLat_isSub _) (supLat_sub _ M') hsub hp1 hp2 ?_ ?_
    · intro x hx t ht
      rw [heq x hx, heq _ (hsite x hx t (hsub ht))]
      exact q2 x hx t ht
    · intro t ht hper'
      refine q4 t ht (fun x hx => ?_)
      rw [← heq x hx, ← heq _ (hsite x hx t ht)]
      exact hper' x hx
  obtain ⟨row, ⟨hr, ψ, hψ, hs⟩, hun⟩ := key
  refine ⟨row, ⟨hr, ψ, hψ, (hiff row hr ψ hψ).mpr hs⟩, ?_⟩
  rintro row' ⟨hr', ψ', hψ', hs'⟩
  exact hun row' ⟨hr', ψ', hψ', (hiff row' hr' ψ' hψ').mp hs'⟩

/-- `C61_all_crystals`, with what is known of each row -/
theorem all_crystals_rows {text : Str} {lat : LatticeIn} {P0 : Matrix (Fin 3) (Fin 3) ℚ} {b0 : List (Fin 3 → ℚ)} {hi k : ℕ}
    (h : CrystalInput text lat P0 b0 1 hi k) (hfree : lat.restricted = false) (hk3 : k ≤ 3) (hsize : b0.length * hi ≤ 20) {tol : Tol} (ht : ExactTol P0 b0 hi tol) :
    ∀ (w : World) (a : Args) (lattice : Str) (d : Dir), (∀ l, (w.listdir l).Perm l) →
        PlainCall a lattice false → FreshDir lattice text d →
      ∃ (rows : List EnumEntry) (d' : Dir), scriptEnum w tol a d = (pure d' : Run Dir) ∧
        dictGet d' "enum.out".toList = some (enumOutFile (lat.enumParams (P0, b0)) w.now rows) ∧ rows.Nodup ∧
        (∀ row ∈ rows, RowOfCell b0.length 1 hi (fun n => concsFree n k b0.length) row ∧ ∃ ψ, RowDescribes (realMat P0) (realVecs b0) row ψ) ∧
        ∀ (M : M3 ℤ), 1 ≤ M.det.natAbs → M.det.natAbs ≤ hi → ∀ χ : Decoration,
          PeriodicOn (CrystalSites (ColLattice (realMat P0).transpose) (realVecs b0)) (SupLat (realMat P0) M) χ →
          (∀ x ∈ CrystalSites (ColLattice (realMat P0).transpose) (realVecs b0), (χ x).2 = 0 ∧ 1 ≤ (χ x).1 ∧ (χ x).1 ≤ k) →
          ∃! row, row ∈ rows ∧ ∃ ψ, RowDescribes (realMat P0) (realVecs b0) row ψ ∧
            SameDecoration (ColLattice (realMat P0).transpose) (realVecs b0) χ ψ := by
  have hb : 0 < b0.length := by
    have := List.length_pos_iff.mpr h.cell.nonempty
    rwa [realVecs_length] at this
  have hhi : hi < 2 ^ 24 := by
    have := Nat.le_mul_of_pos_left hi hb
    have : hi ≤ 20 := by omega
    exact lt_of_le_of_lt this (by norm_num)
  have hal : lat.arrowFractions = List.replicate lat.nspecies.toNat 0 := by
    unfold LatticeIn.arrowFractions getArrowConcs
    rw [hfree]; rfl
  intro w a lattice d hw ha hd
  obtain ⟨rows, d', r1, r2, r3, r4, r5⟩ := crystals_rows (free_input h hfree hhi) hk3 (by rw [hal]; simp) hsize ht (Set.mem_univ _) w a lattice d hw ha hd
  refine ⟨rows, d', r1, r2, r3.nodup, r4, fun M m1 m2 χ hper hχ => r5 M m1 m2 χ hper hχ fun M' c _ _ _ _ c1 c2 _ => ?_⟩
  rw [(C25_concs_complete _ k b0.length).2]
  exact ⟨c1, by rw [c2, mul_comm]⟩

/-- auxiliary: the same at tolerances at which the searches are exact -/
theorem all_crystals_at {text : Str} {lat : LatticeIn} {P0 : Matrix (Fin 3) (Fin 3) ℚ} {b0 : List (Fin 3 → ℚ)} {hi k : ℕ}
    (h : CrystalInput text lat P0 b0 1 hi k) (hfree : lat.restricted = false) (hk3 : k ≤ 3) (hsize : b0.length * hi ≤ 20) {tol : Tol} (ht : ExactTol P0 b0 hi tol) :
    ∀ (w : World) (a : Args) (lattice : Str) (d : Dir), (∀ l, (w.listdir l).Perm l) →
        PlainCall a lattice false → FreshDir lattice text d →
      ∃ (rows : List EnumEntry) (d' : Dir), scriptEnum w tol a d = (pure d' : Run Dir) ∧
        dictGet d' "enum.out".toList = some (enumOutFile (lat.enumParams (P0, b0)) w.now rows) ∧ rows.Nodup ∧
        ∀ (M : M3 ℤ), 1 ≤ M.det.natAbs → M.det.natAbs ≤ hi → ∀ χ : Decoration,
          PeriodicOn (CrystalSites (ColLattice (realMat P0).transpose) (realVecs b0)) (SupLat (realMat P0) M) χ →
          (∀ x ∈ CrystalSites (ColLattice (realMat P0).transpose) (realVecs b0), (χ x).2 = 0 ∧ 1 ≤ (χ x).1 ∧ (χ x).1 ≤ k) →
          ∃! row, row ∈ rows ∧ ∃ ψ, RowDescribes (realMat P0) (realVecs b0) row ψ ∧
            SameDecoration (ColLattice (realMat P0).transpose) (realVecs b0) χ ψ := by
  intro w a lattice d hw ha hd
  obtain ⟨rows, d', r1, r2, r3, -, r5⟩ := all_crystals_rows h hfree hk3 hsize ht w a lattice d hw ha hd
  exact ⟨rows, d', r1, r2, r3, r5⟩

/-- C61. The default call `enumeration.py -enum` without restrictions, sizes `1` to `hi`, two or three species: the rows of enum.out are all different,
and every decoration `χ` of the sites of the crystal with the species `1 .. k` that is periodic with respect to some superlattice of at most `hi`
cells is, up to a symmetry of the crystal, described by exactly one row. Two rows never describe the same structure, not even in different cells. -/
theorem C61_all_crystals {text : Str} {lat : LatticeIn} {P0 : Matrix (Fin 3) (Fin 3) ℚ} {b0 : List (Fin 3 → ℚ)} {hi k : ℕ}
    (h : CrystalInput text lat P0 b0 1 hi k) (hfree : lat.restricted = false) (hk3 : k ≤ 3) (hsize : b0.length * hi ≤ 20) :
    ∃ e > 0, ∀ tol : Tol, 0 < tol.hnf → tol.hnf < e → 0 < tol.sym → tol.sym < e →
      ∀ (w : World) (a : Args) (lattice : Str) (d : Dir), (∀ l, (w.listdir l).Perm l) →
        PlainCall a lattice false → FreshDir lattice text d →
      ∃ (rows : List EnumEntry) (d' : Dir), scriptEnum w tol a d = (pure d' : Run Dir) ∧
        dictGet d' "enum.out".toList = some (enumOutFile (lat.enumParams (P0, b0)) w.now rows) ∧ rows.Nodup ∧
        ∀ (M : M3 ℤ), 1 ≤ M.det.natAbs → M.det.natAbs ≤ hi → ∀ χ : Decoration,
          PeriodicOn (CrystalSites (ColLattice (realMat P0).transpose) (realVecs b0)) (SupLat (realMat P0) M) χ →
          (∀ x ∈ CrystalSites (ColLattice (realMat P0).transpose) (realVecs b0), (χ x).2 = 0 ∧ 1 ≤ (χ x).1 ∧ (χ x).1 ≤ k) →
          ∃! row, row ∈ rows ∧ ∃ ψ, RowDescribes (realMat P0) (realVecs b0) row ψ ∧
            SameDecoration (ColLattice (realMat P0).transpose) (realVecs b0) χ ψ :=
  small_tol h.cell.det h.cell.nonempty hi (fun _ ht => all_crystals_at h hfree hk3 hsize ht)

/-- C61 for the simple cubic file of the examples: the default call lists alternating layers, and also the crystal with a single species, exactly once. -/
example : ∃ e > 0, ∀ tol : Tol, 0 < tol.hnf → tol.hnf < e → 0 < tol.sym → tol.sym < e →
    ∀ (w : World) (a : Args) (lattice : Str) (d : Dir), (∀ l, (w.listdir l).Perm l) →
      PlainCall a lattice false → FreshDir lattice scText d →
    ∃ (rows : List EnumEntry) (d' : Dir), scriptEnum w tol a d = (pure d' : Run Dir) ∧
      dictGet d' "enum.out".toList = some (enumOutFile (scLat.enumParams (Matrix.of ![![1, 0, 0], ![0, 1, 0], ![0, 0, 1]], [![0, 0, 0]])) w.now rows) ∧ rows.Nodup ∧
      (∃! row, row ∈ rows ∧ ∃ ψ, RowDescribes 1 [0] row ψ ∧ SameDecoration (ColLattice (1 : M3 ℝ).transpose) [0] layers ψ) ∧
      (∃! row, row ∈ rows ∧ ∃ ψ, RowDescribes 1 [0] row ψ ∧ SameDecoration (ColLattice (1 : M3 ℝ).transpose) [0] (fun _ => (1, 0)) ψ) := by
  obtain ⟨e, he, h⟩ := C61_all_crystals sc_crystal rfl (by norm_num) (by simp)
  refine ⟨e, he, fun tol t1 t2 t3 t4 w a lattice d hw ha hd => ?_⟩
  obtain ⟨rows, d', r1, r2, r3, r4⟩ := h tol t1 t2 t3 t4 w a lattice d hw ha hd
  rw [realVecs_zero, realMat_sc] at r4
  have hdet : (!![2, 0, 0; 0, 1, 0; 0, 0, 1] : M3 ℤ).det = 2 := by rw [Matrix.det_fin_three]; simp
  refine ⟨rows, d', r1, r2, r3, ?_, ?_⟩
  · refine r4 !![2, 0, 0; 0, 1, 0; 0, 0, 1] (by rw [hdet]; decide) (by rw [hdet]; decide) layers layers_structure.1 ?_
    intro x _
    unfold layers
    split <;> simp
  · refine r4 1 (by simp) (by simp) _ (fun x _ t _ => rfl) (fun x _ => ⟨rfl, le_refl _, by norm_num⟩)

/-- a default call that meets the hypotheses -/
example : PlainCall ⟨false, true, "lattice.in".toList, none, none, none, none, false, none, false, none⟩ "lattice.in".toList false ∧
    FreshDir "lattice.in".toList scText scDir := by
  constructor
  · constructor <;> rfl
  · refine ⟨by decide +kernel, ?_, by decide +kernel⟩
    have : ∀ f ∈ ["notes.txt".toList, "lattice.in".toList], ¬ f.head? = some 'p' := by decide +kernel
    exact fun f hf h => this f hf h.2

end Phenum
