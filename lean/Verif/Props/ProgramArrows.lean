import Verif.Props.WholeSpecies
import Verif.Proof.DistributeFloat
/-
C89: the default call of the program when whole species are displaced.
-/
namespace Phenum
open Spec

/-- The row is written for a supercell `u` of `lo` to `hi` cells, given by its Hermite normal form: it carries the numbers of `u`, the Smith normal form
and the left transform computed for `u`, and the labels and displacements of all sites of `u`. -/
def Spec.RowOfArrowCell (nb lo hi : ℕ) (C : ℕ → List Conc) (aconcs : List ℚ) (row : EnumEntry) : Prop :=
  ∃ (n : ℕ) (u : M3 ℤ) (snf : SnfState) (z : Config), lo ≤ n ∧ n ≤ hi ∧ u ∈ findAllHNFs n ∧ smithNormalForm u = some (.ok snf) ∧
    row = enumEntry (hnfNumbers u) snf z ∧ z.length = nb * n ∧ ∃ c ∈ C n, Composed c aconcs 6 z

/-- `enumeration.py -enum` (without `-super`) in a directory with the file lattice.in and no results of earlier runs finishes, whatever the order of the
directory listing and the random numbers; enum.out lists the structures without a smaller period; polya.out.`n` holds the table of the counts (which
include the structures with a smaller period); no other files are changed. -/
def Spec.RunListsWhole (tol : Tol) (text : Str) (lat : LatticeIn) (P0 : Matrix (Fin 3) (Fin 3) ℚ) (b0 : List (Fin 3 → ℚ)) (lo hi : ℕ) (C : ℕ → List Conc)
    (U : ℕ → List (M3 ℤ)) (cnt : ℕ → M3 ℤ → Conc → ℕ) : Prop :=
  ∀ (w : World) (a : Args) (lattice : Str) (d : Dir), (∀ l, (w.listdir l).Perm l) →
      PlainCall a lattice false → FreshDir lattice text d →
    ∃ (rows : List EnumEntry) (d' : Dir), scriptEnum w tol a d = (pure d' : Run Dir) ∧
      dictGet d' "enum.out".toList = some (enumOutFile (lat.enumParams (P0, b0)) w.now rows) ∧
      ListsPrimitive (realMat P0) (realVecs b0) lo hi C lat.arrowFractions rows ∧
      (∀ row ∈ rows, RowOfArrowCell b0.length lo hi C lat.arrowFractions row) ∧
      (∀ n, lo ≤ n → n ≤ hi → dictGet d' ("polya.out.".toList ++ natStr n) = some (writePolya (countTable n (U n) (C n) (cnt n)))) ∧
      ∀ f, f ≠ "enum.out".toList → f ≠ "enum.in".toList → (∀ n, lo ≤ n → n ≤ hi → f ≠ "polya.out.".toList ++ natStr n) → dictGet d' f = dictGet d f

/-- auxiliary: at tolerances at which the searches are exact -/
theorem every_whole_structure_once_at {text : Str} {lat : LatticeIn} {P0 : Matrix (Fin 3) (Fin 3) ℚ} {b0 : List (Fin 3 → ℚ)} {lo hi k : ℕ} {T : Set ℚ}
    {C : ℕ → List Conc} (h : EnumInput text lat P0 b0 lo hi k T C) (hk3 : k ≤ 3) (hwh : WholeSpecies lat.arrowFractions) {tol : Tol} (ht : ExactTol P0 b0 hi tol) :
    tol.conc ∈ T →
      ∃ (U : ℕ → List (M3 ℤ)) (cnt : ℕ → M3 ℤ → Conc → ℕ),
        CountsAll tol lat P0 b0 lo hi C U cnt ∧
        ((∀ n, lo ≤ n → n ≤ hi → (countTable n (U n) (C n) (cnt n)).Fits) →
         (∀ n u c, lo ≤ n → n ≤ hi → u ∈ U n → c ∈ C n → Deliverable lat.arrowFractions c (cnt n u c)) →
         RunListsWhole tol text lat P0 b0 lo hi C U cnt) := by
  classical
  intro t5
  set P := realMat P0 with hPdef
  set bas := realVecs b0 with hbdef
  have hbl : bas.length = b0.length := realVecs_length b0
  set aconcs := lat.arrowFractions with hadef
  set flag : Bool := decide (aconcs.sum ≠ 0) with hflag
  have hnoarr : flag = true ∨ ∀ c : Conc, NoArrows aconcs c := by
    by_cases h0 : aconcs.sum = 0
    · exact Or.inr (no_arrows h.fractions.2 h0)
    · left; rw [hflag]; simpa using h0
  have horig : flag = true ∨ bas.getD 0 0 = 0 := by
    rcases h.origin with h0 | h0
    · left; rw [hflag]; simpa using h0
    · exact Or.inr h0
  have hsm : ∀ x : ℝ, 0 < x → x * hi < 1 → ∀ n, n ≤ hi → x * n < 1 := by
    intro x hx hlt n hn
    have : (n : ℝ) ≤ hi := by exact_mod_cast hn
    nlinarith
  have key1 : ∀ n, ∃ U : List (M3 ℤ), lo ≤ n → n ≤ hi → getHNFs n P bas 3 tol.hnf = some (.ok U) ∧ U.Nodup ∧ (∀ u ∈ U, u ∈ findAllHNFs n) ∧
      (∀ M : M3 ℤ, M.det = n ∨ M.det = -n → ∃! u, u ∈ U ∧ ∃ R s, PSym (ColLattice P.transpose) bas R s ∧
        R.mulVec '' SupLat P M = SupLat P u) := by
    intro n
    by_cases hn : lo ≤ n ∧ n ≤ hi
    · obtain ⟨U, hU⟩ := hnf_calls_at h.cell n (le_trans h.lo_pos hn.1) 3 (by norm_num) ht.hnf (hsm _ ht.hnf.pos ht.hnf_small n hn.2)
      exact ⟨U, fun _ _ => hU⟩
    · exact ⟨[], fun a b => absurd ⟨a, b⟩ hn⟩
  choose U hU using key1
  have key2 : ∀ n u, ∃ G G' snf, lo ≤ n → n ≤ hi → u ∈ U n → CellData P bas n tol.sym flag u G G' snf := by
    intro n u
    by_cases hn : (lo ≤ n ∧ n ≤ hi) ∧ u ∈ U n
    · obtain ⟨G, G', snf, hd⟩ := cell_data_at h.cell h.primitive (flag := flag) horig n (le_trans h.lo_pos hn.1.1) (lt_of_le_of_lt hn.1.2 h.hi_lt)
        ht.sym (hsm _ ht.sym.pos ht.sym_small n hn.1.2) u ((hU n hn.1.1 hn.1.2).2.2.1 u hn.2)
      exact ⟨G, G', snf, fun _ _ _ => hd⟩
    · exact ⟨[], [], ⟨0, 0, 0⟩, fun a b c => absurd ⟨⟨a, b⟩, c⟩ hn⟩
  choose G G' snf hG using key2
  have hbpos : 0 < bas.length := List.length_pos_iff.mpr h.cell.nonempty
  have hcs : ∀ n, lo ≤ n → n ≤ hi → ∀ c ∈ C n, c.length = k ∧ c.sum = bas.length * n ∧ 1 ≤ c.sum := by
    intro n a b c hc
    obtain ⟨c1, c2⟩ := (h.concs n a b).2.2 c hc
    rw [← hbl] at c2
    refine ⟨c1, c2, ?_⟩
    rw [c2]
    exact Nat.mul_pos hbpos (by have := h.lo_pos; omega)
  have key3 : ∀ n u c, ∃ total : ℕ, lo ≤ n → n ≤ hi → u ∈ U n → c ∈ C n → 1 ≤ total ∧ polyaCount (G n u) aconcs c = (pure total : Run ℕ) ∧
      (∃ L, IsTransversal (Composed c aconcs 6) (OpEquiv (G n u)) L ∧ L.length = total) ∧
      ∀ (rnd : EnumRandom), Deliverable aconcs c total →
        ∃ T, enumSys (G' n u) c aconcs total bas.length false false rnd = some (.ok T) ∧
          IsTransversal (fun z => Composed c aconcs 6 z ∧ ¬ Superperiodic (((G' n u).take n).map (·.1)) z) (OpEquiv (G' n u)) T := by
    intro n u c
    by_cases hn : lo ≤ n ∧ n ≤ hi ∧ u ∈ U n ∧ c ∈ C n
    · obtain ⟨a1, a2, a3, a4⟩ := hn
      have hd := hG n u a1 a2 a3
      obtain ⟨c1, c2, c3⟩ := hcs n a1 a2 c a4
      obtain ⟨total, h⟩ := cell_count_whole (c := c) (by have := h.species.1; omega) (by omega) c3 aconcs (by rw [c1]; exact h.fractions.1) hwh
        (by rw [c2]; exact hd.isGroup) hd.nodup (by rw [c2]; exact hd.isGroup') hd.nodup' hd.sites (hnoarr.imp hd.same (fun h => h c)) (nB := bas.length) (n := n)
        (by rw [c2]; exact Nat.mul_div_cancel_left n hbpos) (by rw [c2]; exact hd.hasTrans) (fun t ht => ((hd.trans' t).mp ht).1)
      exact ⟨total, fun _ _ _ _ => h⟩
    · exact ⟨0, fun a b c d => absurd ⟨a, b, c, d⟩ hn⟩
  choose cnt hcnt using key3
  refine ⟨U, cnt, ?_, ?_⟩
  · intro n a b
    obtain ⟨u1, u2, u3, u4⟩ := hU n a b
    refine ⟨u1, u2, u3, fun u hu => ?_⟩
    have hd := hG n u a b hu
    refine ⟨G n u, hd.group, by rw [← hbl]; exact hd.isGroup, hd.nodup, by rw [← hbl]; exact hd.order, fun c hc => ⟨(hcnt n u c a b hu hc).1, (hcnt n u c a b hu hc).2.1, (hcnt n u c a b hu hc).2.2.1⟩⟩
  intro hfits hdel w a lattice d hw ha hd
  obtain ⟨rest, hsz⟩ := h.sizes
  obtain ⟨n0, hn0, hn0', hne0⟩ := h.nonempty
  -- some supercell exists
  have hU0 : ∃ u, u ∈ U n0 := by
    obtain ⟨u, ⟨hu, -⟩, -⟩ := (hU n0 hn0 hn0').2.2.2 (Matrix.diagonal ![(n0 : ℤ), 1, 1]) (Or.inl (by simp [Matrix.det_diagonal, Fin.prod_univ_three]))
    exact ⟨u, hu⟩
  have hrun := program_ok hw ha hd h.read h.geometry h.lo_pos h.lo_hi hsz U C G cnt
    (fun n a b => ⟨(hU n a b).1, (hU n a b).2.1, (hU n a b).2.2.1, (h.concs n a b).1 _ t5, (h.concs n a b).2.1,
      fun u hu => (hG n u a b hu).group, fun u hu c hc => (hcnt n u c a b hu hc).2.1⟩) hfits k (fun n a b c hc => ((h.concs n a b).2.2 c hc).1)
    (by
      obtain ⟨u, hu⟩ := hU0
      obtain ⟨c, hc⟩ := List.exists_mem_of_ne_nil _ hne0
      exact ⟨n0, u, c, hn0, hn0', hu, hc, (hcnt n0 u c hn0 hn0' hu hc).1⟩)
    (fun x E => ∃ T, E = T.map (enumEntry (hnfNumbers x.2.1) (snf x.1 x.2.1)) ∧
      IsTransversal (fun z => Composed x.2.2 aconcs 6 z ∧ ¬ Superperiodic (((G' x.1 x.2.1).take x.1).map (·.1)) z) (OpEquiv (G' x.1 x.2.1)) T)
    (by
      intro n u c a1 a2 a3 a4 _ i
      obtain ⟨-, -, -, c3⟩ := hcnt n u c a1 a2 a3 a4
      obtain ⟨T, r1, r3⟩ := c3 (w.rnd i) (hdel n u c a1 a2 a3 a4)
      refine ⟨T.map (enumEntry (hnfNumbers u) (snf n u)), ?_, T, rfl, r3⟩
      have hd := hG n u a1 a2 a3
      obtain ⟨hfull, h6⟩ := hnf_numbers_full (by have := h.lo_pos; omega) ((hU n a1 a2).2.2.1 u a3)
      obtain ⟨dd, hdd, -⟩ := C40_arrow_concs c aconcs (by rw [(hcs n a1 a2 c a4).1]; exact h.fractions.1)
      unfold enumSystem
      simp only [h6, lt_self_iff_false, if_false, h.geometry, runPy_ok, pure_bind, hfull, hd.smith, runO_ok, map_toNat, Int.toNat_natCast]
      rw [← hadef, hdd, runPy_ok, pure_bind, ← hflag, hd.group', pure_bind, r1, runO_ok, pure_bind])
  obtain ⟨K, Es, d', r1, r2, r3, r4, r5, r6, -, r8⟩ := hrun
  obtain ⟨F, hF, hFQ⟩ := forall₂_fun r2 r4 ⟨[], trivial⟩
  have hKm : ∀ n u c, (n, u, c) ∈ K ↔ lo ≤ n ∧ n ≤ hi ∧ u ∈ U n ∧ c ∈ C n := by
    intro n u c
    rw [r3]
    constructor
    · rintro ⟨a1, a2, a3, a4, -⟩; exact ⟨a1, a2, a3, a4⟩
    · rintro ⟨a1, a2, a3, a4⟩; exact ⟨a1, a2, a3, a4, (hcnt n u c a1 a2 a3 a4).1⟩
  have key4 : ∀ x, ∃ T, x ∈ K → F x = T.map (enumEntry (hnfNumbers x.2.1) (snf x.1 x.2.1)) ∧
      IsTransversal (fun z => Composed x.2.2 aconcs 6 z ∧ ¬ Superperiodic (((G' x.1 x.2.1).take x.1).map (·.1)) z) (OpEquiv (G' x.1 x.2.1)) T := by
    intro x
    by_cases hx : x ∈ K
    · obtain ⟨T, hT⟩ := hFQ x hx
      exact ⟨T, fun _ => hT⟩
    · exact ⟨[], fun hx' => absurd hx' hx⟩
  choose TT hT using key4
  have hrows : Es.flatten = K.flatMap (fun x => (TT x).map (enumEntry (hnfNumbers x.2.1) (snf x.1 x.2.1))) := by
    rw [hF, List.flatMap, List.map_congr_left (fun x hx => (hT x hx).1)]
  obtain ⟨s1, s2, s3⟩ := rows_primitive (usable_false h.cell flag) h.lo_pos h.species.2 h.fractions.1 U C G G' snf
    (fun n a b => ⟨(hU n a b).2.1, (hU n a b).2.2.1, (hU n a b).2.2.2⟩) (fun n a b u hu => hG n u a b hu)
    (fun n a b => ⟨(h.concs n a b).2.1, fun c hc => ⟨(hcs n a b c hc).1, (hcs n a b c hc).2.1, hnoarr.imp id (fun h => h c)⟩⟩)
    K r2 hKm TT (fun n u c hx => (hT (n, u, c) hx).2)
  have hname : ∀ n : ℕ, polyaName n = "polya.out.".toList ++ natStr n := fun n => by
    unfold polyaName
    rw [show "polya.out.".toList = "polya.out".toList ++ ['.'] from by decide, List.append_assoc]
    rfl
  refine ⟨Es.flatten, d', r1, r5, ⟨?_, ?_, ?_⟩, ?_, ?_, ?_⟩
  · rw [hrows]; exact s1
  · rw [hrows]; exact s2
  · intro n M a b hM χ _ hp c hc hχ
    rw [hrows]
    exact s3 n M a b hM χ hp c hc hχ
  · rw [hrows]
    intro row hrow
    obtain ⟨⟨n, u, c⟩, hx, hrow⟩ := List.mem_flatMap.mp hrow
    obtain ⟨z, hz, rfl⟩ := List.mem_map.mp hrow
    obtain ⟨a1, a2, a3, a4⟩ := (hKm n u c).mp hx
    have hco := ((hT _ hx).2.mem z hz).1
    refine ⟨n, u, snf n u, z, a1, a2, (hU n a1 a2).2.2.1 u a3, (hG n u a1 a2 a3).smith, rfl, ?_, c, a4, hco⟩
    have hc := composed_contents c aconcs (by rw [(hcs n a1 a2 c a4).1]; exact h.fractions.1)
    rw [hc.length z hco, (hcs n a1 a2 c a4).2.1, hbl]
  · intro n a b
    rw [← hname]
    exact r6 n a b
  · intro f f1 f2 f3
    apply r8 f f1 f2
    intro n a b
    rw [hname]
    exact f3 n a b

/-- What may sit on a site: an atom of one of the species `1 .. k`, displaced by one unit along one of the axes, forwards or backwards, if its species is displaced
(arrow fraction 1), and not displaced otherwise. -/
def Spec.SiteAllowed (k : ℕ) (aconcs : List ℚ) (v : ℕ × (Fin 3 → ℝ)) : Prop :=
  1 ≤ v.1 ∧ v.1 ≤ k ∧ ((aconcs.getD (v.1 - 1) 0 = 0 ∧ v.2 = 0) ∨ (aconcs.getD (v.1 - 1) 0 = 1 ∧ ∃ j, j < 6 ∧ v.2 = arrowDir j))

/-- a periodic decoration with displaced species has some composition -/
theorem contents_whole {P : M3 ℝ} {bas : List V3} (hu : Usable P bas bas true) (hprim : PrimitiveCell P bas) {n k : ℕ} (hn : 1 ≤ n) (hn' : n < 2 ^ 24)
    {M : M3 ℤ} (hM : M.det = n ∨ M.det = -n) {aconcs : List ℚ} {χ : Decoration}
    (hper : PeriodicOn (CrystalSites (ColLattice P.transpose) bas) (SupLat P M) χ)
    (hχ : ∀ x ∈ CrystalSites (ColLattice P.transpose) bas, SiteAllowed k aconcs (χ x)) :
    ∃ c : Conc, c.length = k ∧ c.sum = bas.length * n ∧
      HasContents (CrystalSites (ColLattice P.transpose) bas) (SupLat P M) (bas.length * n) (Composed c aconcs 6) χ := by
  obtain ⟨pos, hp⟩ := numbering_exists hu hprim hn hn' hM
  set N := bas.length * n with hN
  have key : ∀ j, ∃ a : ℤ, j < N → (a = -1 ∨ (0 ≤ a ∧ a < (6 : ℕ))) ∧ siteValue (a, (χ (pos j)).1) = χ (pos j) ∧
      ((aconcs.getD ((χ (pos j)).1 - 1) 0 = 0 ∧ a < 0) ∨ (aconcs.getD ((χ (pos j)).1 - 1) 0 = 1 ∧ 0 ≤ a)) := by
    intro j
    by_cases hj : j < N
    · obtain ⟨-, -, h | ⟨h0, i, hi, h1⟩⟩ := hχ _ (hp.site j hj)
      · refine ⟨-1, fun _ => ⟨Or.inl rfl, ?_, Or.inl ⟨h.1, by decide⟩⟩⟩
        unfold siteValue
        exact Prod.ext rfl (by simp [h.2])
      · refine ⟨i, fun _ => ⟨Or.inr ⟨by omega, by omega⟩, ?_, Or.inr ⟨h0, by omega⟩⟩⟩
        unfold siteValue
        refine Prod.ext rfl ?_
        rw [h1]
        simp
    · exact ⟨0, fun h => absurd h hj⟩
  choose av hav using key
  set z : Config := (List.range N).map (fun j => (av j, (χ (pos j)).1)) with hz
  have hmem : ∀ s ∈ z, (s.1 = -1 ∨ (0 ≤ s.1 ∧ s.1 < (6 : ℕ))) ∧ (1 ≤ s.2 ∧ s.2 ≤ k) ∧
      ((aconcs.getD (s.2 - 1) 0 = 0 ∧ s.1 < 0) ∨ (aconcs.getD (s.2 - 1) 0 = 1 ∧ 0 ≤ s.1)) := by
    intro s hs
    obtain ⟨j, hj, rfl⟩ := List.mem_map.mp hs
    have hj' := List.mem_range.mp hj
    have h1 := hχ _ (hp.site j hj')
    exact ⟨(hav j hj').1, ⟨h1.1, h1.2.1⟩, (hav j hj').2.2⟩
  have hsum : ∀ l : Config, (∀ s ∈ l, 1 ≤ s.2 ∧ s.2 ≤ k) → ((List.range k).map (fun i => l.countP (fun s => decide (s.2 = i + 1)))).sum = l.length := by
    intro l
    induction l with
    | nil => simp
    | cons s l ih =>
      intro hl
      have h1 := ih (fun s hs => hl s (by simp [hs]))
      have h2 := hl s (by simp)
      have e : ∀ i, (s :: l).countP (fun s => decide (s.2 = i + 1)) = l.countP (fun s => decide (s.2 = i + 1)) + if i = s.2 - 1 then 1 else 0 := by
        intro i
        rw [List.countP_cons]
        congr 1
        by_cases h : s.2 = i + 1
        · simp [h]
        · have : ¬ (i = s.2 - 1) := by omega
          simp [h, this]
      simp only [e, List.sum_map_add, h1, List.length_cons]
      congr 1
      exact sum_ite_one List.nodup_range (List.mem_range.mpr (by omega))
  refine ⟨(List.range k).map (fun i => z.countP (fun s => decide (s.2 = i + 1))), by simp, ?_, pos, z, hp, ⟨by simp [hz], ?_⟩, ?_, ?_, ?_⟩
  · rw [hsum z (fun s hs => (hmem s hs).2.1)]
    simp [hz]
  · intro x hx j hj hm
    refine ⟨(av j, (χ (pos j)).1), by simp [hz, hj], ?_⟩
    have := hper (pos j) (hp.site j hj) _ hm
    rw [add_sub_cancel] at this
    rw [this]
    exact (hav j hj).2.1.symm
  · intro s hs
    exact (hmem s hs).1
  · intro s hs
    simpa using (hmem s hs).2.1
  · intro i hi
    rw [List.length_map, List.length_range] at hi
    rw [getD_lt (by simpa using hi)]
    simp only [List.getElem_map, List.getElem_range, true_and]
    by_cases h0 : aconcs.getD i 0 = 0
    · rw [h0, arrowCount_zero, List.countP_eq_zero]
      intro s hs
      simp only [decide_eq_true_eq]
      rintro ⟨h1, h2⟩
      rcases (hmem s hs).2.2 with h | h
      · omega
      · rw [h2, Nat.add_sub_cancel, h0] at h
        exact zero_ne_one h.1
    · by_cases h1 : aconcs.getD i 0 = 1
      · rw [h1, arrowCount_one]
        apply List.countP_congr
        intro s hs
        simp only [decide_eq_true_eq]
        constructor
        · exact fun h => h.2
        · intro h2
          refine ⟨?_, h2⟩
          rcases (hmem s hs).2.2 with h | h
          · rw [h2, Nat.add_sub_cancel] at h
            exact absurd h.1 h0
          · exact h.2
      · have h3 : ∀ s ∈ z, s.2 ≠ i + 1 := by
          intro s hs h2
          rcases (hmem s hs).2.2 with h | h <;> rw [h2, Nat.add_sub_cancel] at h
          · exact h0 h.1
          · exact h1 h.1
        have e1 : z.countP (fun s => decide (s.2 = i + 1)) = 0 := by
          rw [List.countP_eq_zero]; intro s hs; simpa using h3 s hs
        rw [e1]
        have e2 : arrowCount 0 (aconcs.getD i 0) = 0 := by unfold arrowCount; simp
        rw [e2, List.countP_eq_zero]
        intro s hs
        have := h3 s hs
        simp [this]

/-- the sites of a structure with a composition -/
theorem sites_of_contents {S L : Set V3} {N : ℕ} {c : Conc} {aconcs : List ℚ} (hw : WholeSpecies aconcs) {χ : Decoration}
    (h : HasContents S L N (Composed c aconcs 6) χ) : ∀ x ∈ S, SiteAllowed c.length aconcs (χ x) := by
  intro x hx
  obtain ⟨pos, z, hp, hd, hc⟩ := h
  obtain ⟨j, ⟨hj, hm⟩, -⟩ := hp.unique x hx
  obtain ⟨p, e1, e2⟩ := hd.2 x hx j hj hm
  have hmem := List.mem_of_getElem? e1
  have hs := hc.species p hmem
  obtain ⟨c1, c2⟩ := hc.counts (p.2 - 1) (by omega)
  have hp2 : p.2 - 1 + 1 = p.2 := by omega
  rw [hp2] at c1 c2
  rw [e2]
  refine ⟨hs.1, hs.2, ?_⟩
  show (aconcs.getD (p.2 - 1) 0 = 0 ∧ (siteValue p).2 = 0) ∨ (aconcs.getD (p.2 - 1) 0 = 1 ∧ _)
  have hneg : p.1 < 0 ∨ 0 ≤ p.1 := by omega
  rcases getD_whole hw (p.2 - 1) with h0 | h0
  · left
    refine ⟨h0, ?_⟩
    rw [h0, arrowCount_zero, List.countP_eq_zero] at c2
    have := c2 p hmem
    simp only [decide_eq_true_eq, and_true] at this
    unfold siteValue
    simp only
    rw [if_pos (by omega)]
  · right
    refine ⟨h0, ?_⟩
    rw [h0, arrowCount_one, ← c1] at c2
    have h6 : 0 ≤ p.1 := by
      by_contra hn
      have e3 := countP_split z (fun s hs => (hc.arrow s hs).imp id (fun h => h.1)) p.2
      have h1 : p.1 = -1 := by
        rcases hc.arrow p hmem with h | h
        · exact h
        · omega
      have hpos : 0 < z.count ((-1, p.2) : ℤ × ℕ) := List.count_pos_iff.mpr (by
        have : p = (-1, p.2) := Prod.ext h1 rfl
        rw [← this]; exact hmem)
      omega
    refine ⟨p.1.toNat, ?_, ?_⟩
    · rcases hc.arrow p hmem with h | h <;> omega
    · unfold siteValue
      simp only
      rw [if_neg (by omega)]

/-- The decoration of the crystal is one of those asked for: it is periodic with respect to some superlattice of at most `hi` cells, every site
is occupied by an atom of a species `1 .. k`, displaced along an axis if its species is displaced, and the fractions of the species lie in the ranges. -/
def Spec.AllowedDisplaced (P : M3 ℝ) (bas : List (Fin 3 → ℝ)) (hi k : ℕ) (ranges : List ConcRange) (aconcs : List ℚ) (χ : Decoration) : Prop :=
  ∃ M : M3 ℤ, 1 ≤ M.det.natAbs ∧ M.det.natAbs ≤ hi ∧
    PeriodicOn (CrystalSites (ColLattice P.transpose) bas) (SupLat P M) χ ∧
    (∀ x ∈ CrystalSites (ColLattice P.transpose) bas, SiteAllowed k aconcs (χ x)) ∧
    FractionsWithin (CrystalSites (ColLattice P.transpose) bas) (SupLat P M) (bas.length * M.det.natAbs) ranges χ

section
variable {fl : ℚ → ℚ} {δ : ℝ} {text : Str} {lat : LatticeIn} {P0 : Matrix (Fin 3) (Fin 3) ℚ} {b0 : List (Fin 3 → ℚ)} {hi k : ℕ} {ranges : List ConcRange} {d : ℤ}

/-- auxiliary: with tolerances at which the searches are exact -/
theorem whole_crystals_at (h : CrystalInput text lat P0 b0 1 hi k) (hr : RangesInput lat k ranges d) (hk3 : k ≤ 3) (hwh : WholeSpecies lat.arrowFractions)
    (hsize : b0.length * hi < 12) (hne : ∃ n c, 1 ≤ n ∧ n ≤ hi ∧ InConcRanges ranges (b0.length * n) c) {tol : Tol} (ht : ExactTol P0 b0 hi tol)
    (htc : 0 ≤ tol.conc) (htc' : tol.conc * 20 * d < 1) :
    ∀ (w : World) (a : Args) (lattice : Str) (dir : Dir), (∀ l, (w.listdir l).Perm l) →
        PlainCall a lattice false → FreshDir lattice text dir →
      ∃ (rows : List EnumEntry) (dir' : Dir), scriptEnum w tol a dir = (pure dir' : Run Dir) ∧
        dictGet dir' "enum.out".toList = some (enumOutFile (lat.enumParams (P0, b0)) w.now rows) ∧ rows.Nodup ∧
        (∀ row ∈ rows, RowOfArrowCell b0.length 1 hi (fun n => concsFree n k b0.length) lat.arrowFractions row ∧
          ∃ ψ, RowDescribes (realMat P0) (realVecs b0) row ψ ∧ AllowedDisplaced (realMat P0) (realVecs b0) hi k ranges lat.arrowFractions ψ) ∧
        ∀ χ, AllowedDisplaced (realMat P0) (realVecs b0) hi k ranges lat.arrowFractions χ →
          ∃! row, row ∈ rows ∧ ∃ ψ, RowDescribes (realMat P0) (realVecs b0) row ψ ∧
            SameDecoration (ColLattice (realMat P0).transpose) (realVecs b0) χ ψ := by
  intro w a lattice dir hw ha hd
  obtain ⟨C, hC, hin⟩ := ranges_enum h hr (by omega) hne htc htc'
  obtain ⟨U, cnt, hcnt, hrun⟩ := every_whole_structure_once_at hin hk3 hwh ht (Set.mem_singleton_iff.mpr rfl)
  obtain ⟨f1, f2⟩ := small_ok hin (by omega) (Or.inr hsize) hcnt
  obtain ⟨rows, dir', r1, r2, r3, r4, -⟩ := hrun f1 f2 w a lattice dir hw ha hd
  have hb : 0 < b0.length := by
    have := List.length_pos_iff.mpr h.cell.nonempty
    rwa [realVecs_length] at this
  have hhi : hi < 2 ^ 24 := hin.hi_lt
  have hrl : ranges.length = k := by rw [← py_mapM_length _ hr.parsed, hr.length]
  refine ⟨rows, dir', r1, r2, r3.nodup, fun row hrow => ⟨?_, ?_⟩, fun χ hχ => ?_⟩
  · obtain ⟨n, u, snf, z, h1, h2, h3, h4, h5, h6, c, hc, h7⟩ := r4 row hrow
    refine ⟨n, u, snf, z, h1, h2, h3, h4, h5, h6, c, ?_, h7⟩
    obtain ⟨c1, c2⟩ := (hin.concs n h1 h2).2.2 c hc
    exact ((C25_concs_complete n k b0.length).2 c).mpr ⟨c1, by rw [c2, mul_comm]⟩
  · obtain ⟨n, u, snf, z, h1, h2, h3, h4, h5, -⟩ := r4 row hrow
    obtain ⟨n', h1', h2', hsz, c, hc, ψ, q1, q2, q3, -⟩ := r3.valid row hrow
    have hn : n' = n := by
      rw [h5, entry_size h1 h3] at hsz
      exact_mod_cast hsz.symm
    subst hn
    rw [h5, rowLattice_entry h1 h3] at q2 q3
    have hdet := findAll_det h1 h3
    have hab : u.det.natAbs = n' := by rw [hdet]; rfl
    refine ⟨ψ, q1, u, by rw [hab]; exact h1, by rw [hab]; exact h2, q2, ?_, ?_⟩
    · have := sites_of_contents hwh q3
      rwa [((hin.concs n' h1 h2).2.2 c hc).1] at this
    · rw [hab]
      refine fractions_of_inRanges (colLat_isSub _) q3 ?_
      rw [realVecs_length]
      exact ((hC n' h1 h2).2 c).mp hc
  · obtain ⟨M, m1, m2, hper, hsp, hf⟩ := hχ
    obtain ⟨M', hdvd, hp1, hp2⟩ := period_lattice h.cell.det (by omega) hper
    have hsub : SupLat (realMat P0) M ⊆ SupLat (realMat P0) M' := fun t ht => hp2 t (supLat_sub _ M ht) (fun x hx => hper x hx t ht)
    have hd1 : M'.det.natAbs ∣ M.det.natAbs := Int.natAbs_dvd_natAbs.mpr hdvd
    have hle := Nat.le_of_dvd (by omega) hd1
    have hpos : 1 ≤ M'.det.natAbs := Nat.pos_of_dvd_of_pos hd1 (by omega)
    have hM' : M'.det = (M'.det.natAbs : ℤ) ∨ M'.det = -(M'.det.natAbs : ℤ) := Int.natAbs_eq _
    obtain ⟨c, c1, c2, c3⟩ := contents_whole h.cell h.primitive hpos (by omega) hM' (aconcs := lat.arrowFractions) hp1 hsp
    have hcC : c ∈ C M'.det.natAbs := by
      rw [(hC _ hpos (by omega)).2]
      rw [realVecs_length] at c2 c3
      refine inRanges_of_fractions (colLat_isSub _) (colLat_isSub _) hsub (fun x hx t ht => crystalSites_add hx (supLat_sub _ _ ht)) ?_ hp1 (by rw [c1, hrl]) hf c3 c2
      rw [realVecs_length]
      exact Nat.mul_pos hb m1
    have key := r3.complete _ M' hpos (by omega) hM' χ hp1 hp2 c hcC c3
    have hiff : ∀ row ∈ rows, ∀ ψ, RowDescribes (realMat P0) (realVecs b0) row ψ →
        (SameDecoration (ColLattice (realMat P0).transpose) (realVecs b0) χ ψ ↔
          SameStructure (ColLattice (realMat P0).transpose) (realVecs b0) (SupLat (realMat P0) M') χ (rowLattice (realMat P0) row) ψ) := by
      intro row hrow ψ hψ
      obtain ⟨n, -, -, -, c, -, ψ0, q1, q2, -, q4⟩ := r3.valid row hrow
      have hsub : rowLattice (realMat P0) row ⊆ ColLattice (realMat P0).transpose := rowLattice_sub _ _
      have heq := row_describes_unique hψ q1
      refine same_periods (colLat_isSub _) (supLat_sub _ M') hsub hp1 hp2 ?_ ?_
      · intro x hx t ht
        rw [heq x hx, heq _ (crystalSites_add hx (hsub ht))]
        exact q2 x hx t ht
      · intro t ht hper'
        refine q4 t ht (fun x hx => ?_)
        rw [← heq x hx, ← heq _ (crystalSites_add hx ht)]
        exact hper' x hx
    obtain ⟨row, ⟨hr, ψ, hψ, hs⟩, hun⟩ := key
    refine ⟨row, ⟨hr, ψ, hψ, (hiff row hr ψ hψ).mpr hs⟩, ?_⟩
    rintro row' ⟨hr', ψ', hψ', hs'⟩
    exact hun row' ⟨hr', ψ', hψ', (hiff row' hr' ψ' hψ').mp hs'⟩

/-- C89. The default call `enumeration.py -enum` (without `-super`) with ranges of concentrations and displaced species (all atoms of a species are displaced, or none of them),
sizes `1` to `hi`, two or three species, fewer than 12 sites: the rows of enum.out are all different; each describes a crystal in which exactly the atoms of the
displaced species are moved along an axis and the concentrations lie in the ranges; and every such crystal that is periodic with respect to some superlattice of at
most `hi` cells is, up to a symmetry of the parent crystal, described by exactly one row. -/
theorem C89_displaced_species (h : CrystalInput text lat P0 b0 1 hi k) (hr : RangesInput lat k ranges d) (hk3 : k ≤ 3) (hwh : WholeSpecies lat.arrowFractions)
    (hsize : b0.length * hi < 12) (hne : ∃ n c, 1 ≤ n ∧ n ≤ hi ∧ InConcRanges ranges (b0.length * n) c) :
    ∃ e > 0, ∀ tol : Tol, 0 < tol.hnf → tol.hnf < e → 0 < tol.sym → tol.sym < e → 0 ≤ tol.conc → tol.conc * 20 * d < 1 →
      ∀ (w : World) (a : Args) (lattice : Str) (dir : Dir), (∀ l, (w.listdir l).Perm l) →
        PlainCall a lattice false → FreshDir lattice text dir →
      ∃ (rows : List EnumEntry) (dir' : Dir), scriptEnum w tol a dir = (pure dir' : Run Dir) ∧
        dictGet dir' "enum.out".toList = some (enumOutFile (lat.enumParams (P0, b0)) w.now rows) ∧ rows.Nodup ∧
        (∀ row ∈ rows, ∃ ψ, RowDescribes (realMat P0) (realVecs b0) row ψ ∧ AllowedDisplaced (realMat P0) (realVecs b0) hi k ranges lat.arrowFractions ψ) ∧
        ∀ χ, AllowedDisplaced (realMat P0) (realVecs b0) hi k ranges lat.arrowFractions χ →
          ∃! row, row ∈ rows ∧ ∃ ψ, RowDescribes (realMat P0) (realVecs b0) row ψ ∧
            SameDecoration (ColLattice (realMat P0).transpose) (realVecs b0) χ ψ := by
  refine small_tol h.cell.det h.cell.nonempty hi (fun tol ht t1 t2 w a lattice dir hw ha hd => ?_)
  obtain ⟨rows, dir', r1, r2, r3, r4, r5⟩ := whole_crystals_at h hr hk3 hwh hsize hne ht t1 t2 w a lattice dir hw ha hd
  exact ⟨rows, dir', r1, r2, r3, fun row hrow => (r4 row hrow).2, r5⟩

/-- C89. The same with the tolerances of the code. -/
theorem C89_shipped (h : CrystalInput text lat P0 b0 1 hi k) (hr : RangesInput lat k ranges d) (hk3 : k ≤ 3) (hwh : WholeSpecies lat.arrowFractions)
    (hsize : b0.length * hi < 12) (hne : ∃ n c, 1 ≤ n ∧ n ≤ hi ∧ InConcRanges ranges (b0.length * n) c) (hd : d ≤ 10 ^ 8)
    {K K' : ℝ} {g D : ℕ} (hc : Coarse (realMat P0) (realVecs b0) K K' g D (1 / 10 ^ 7)) :
    ∀ (w : World) (a : Args) (lattice : Str) (dir : Dir), (∀ l, (w.listdir l).Perm l) →
        PlainCall a lattice false → FreshDir lattice text dir →
      ∃ (rows : List EnumEntry) (dir' : Dir), scriptEnum w shippedTol a dir = (pure dir' : Run Dir) ∧
        dictGet dir' "enum.out".toList = some (enumOutFile (lat.enumParams (P0, b0)) w.now rows) ∧ rows.Nodup ∧
        (∀ row ∈ rows, ∃ ψ, RowDescribes (realMat P0) (realVecs b0) row ψ ∧ AllowedDisplaced (realMat P0) (realVecs b0) hi k ranges lat.arrowFractions ψ) ∧
        ∀ χ, AllowedDisplaced (realMat P0) (realVecs b0) hi k ranges lat.arrowFractions χ →
          ∃! row, row ∈ rows ∧ ∃ ψ, RowDescribes (realMat P0) (realVecs b0) row ψ ∧
            SameDecoration (ColLattice (realMat P0).transpose) (realVecs b0) χ ψ := by
  intro w a lattice dir hw ha hdir
  have hd' : (d : ℚ) ≤ 10 ^ 8 := by exact_mod_cast hd
  obtain ⟨rows, dir', r1, r2, r3, r4, r5⟩ := whole_crystals_at h hr hk3 hwh hsize hne (coarse_exact h.cell.det hc (size_hi h (by omega)))
    (show (0 : ℚ) ≤ 1 / 10 ^ 10 by norm_num) (show (1 / 10 ^ 10 : ℚ) * 20 * d < 1 by linarith) w a lattice dir hw ha hdir
  exact ⟨rows, dir', r1, r2, r3, fun row hrow => (r4 row hrow).2, r5⟩

/-- the computed numbers of displaced atoms of whole species are exact -/
theorem arrowsKept_whole (hfl : RoundsToNearest fl) (hwh : WholeSpecies lat.arrowFractions) {N : ℕ} (hN : N ≤ 20) : ArrowsKept fl lat N := by
  intro n hn a ha
  have f0 : fl 0 = 0 := fl_of_isDouble hfl isDouble_zero
  rcases hwh a ha with rfl | rfl
  · rw [f0, mul_zero, f0]
  · rw [fl_of_isDouble hfl isDouble_one, mul_one, fl_of_isDouble hfl (isDouble_nat (le_trans hn (le_trans hN (by norm_num))))]

/-- C89. The same with rounding errors, if the numbers of decorations are small enough to be exactly representable: every run ends with these files. -/
theorem C89_noise (h : CrystalInput text lat P0 b0 1 hi k) (hr : RangesInput lat k ranges d) (hk3 : k ≤ 3) (hwh : WholeSpecies lat.arrowFractions)
    (hle : ∀ r ∈ ranges, max r.1 r.2.1 ≤ d) (hsize : b0.length * hi < 12) (hfit : NumbersFit lat (b0.length * hi) k)
    (hne : ∃ n c, 1 ≤ n ∧ n ≤ hi ∧ InConcRanges ranges (b0.length * n) c) (hd : d ≤ 10 ^ 8)
    {K K' : ℝ} {g D : ℕ} (h0 : 0 ≤ δ) (hlt : δ < 1 / 10 ^ 10) (hc : Coarse (realMat P0) (realVecs b0) K K' g D (1 / 10 ^ 7 + δ)) (hfl : RoundsToNearest fl) :
    ∀ (w : World) (a : Args) (lattice : Str) (dir : Dir), (∀ l, (w.listdir l).Perm l) →
        PlainCall a lattice false → FreshDir lattice text dir →
      ∃ (rows : List EnumEntry) (dir' : Dir), AlwaysReturns (scriptEnumN fl δ w shippedTol a dir) dir' ∧
        dictGet dir' "enum.out".toList = some (enumOutFile (lat.enumParams (P0, b0)) w.now rows) ∧ rows.Nodup ∧
        (∀ row ∈ rows, ∃ ψ, RowDescribes (realMat P0) (realVecs b0) row ψ ∧ AllowedDisplaced (realMat P0) (realVecs b0) hi k ranges lat.arrowFractions ψ) ∧
        ∀ χ, AllowedDisplaced (realMat P0) (realVecs b0) hi k ranges lat.arrowFractions χ →
          ∃! row, row ∈ rows ∧ ∃ ψ, RowDescribes (realMat P0) (realVecs b0) row ψ ∧
            SameDecoration (ColLattice (realMat P0).transpose) (realVecs b0) χ ψ := by
  intro w a lattice dir hw ha hdir
  obtain ⟨rows, dir', r1, r2⟩ := C89_shipped h hr hk3 hwh hsize hne hd (coarse_mono hc (by norm_num) (by linarith)) w a lattice dir hw ha hdir
  exact ⟨rows, dir', C74_same_files_ranges h hr hle hd (by omega) (Or.inr hsize) hne h0 hlt hc hfl (arrowsKept_whole hfl hwh (by omega)) hfit
    w a lattice false dir dir' hw ha hdir r1, r2⟩

end

/-- a simple cubic lattice, one or two cells, two species in any concentrations; all atoms of the second species are displaced -/
def scaText : Str := ofLines ["# sizes", "1 2", "bulk", "1 0 0", "0 1 0", "0 0 1", "# species", "2", "# atoms", "1", "0 0 0", "T", "T", "0 4 4 0", "0 4 4 1"]

/-- what `read_lattice` returns for it -/
def scaLat : LatticeIn where
  bulk := true
  sizes := [1, 2]
  latVecs := [[1, 0, 0], [0, 1, 0], [0, 0, 1]]
  nspecies := 2
  basisVecs := [[0, 0, 0]]
  restricted := true
  arrows := true
  concs := [[0, 4, 4, 0], [0, 4, 4, 1]]

theorem sca_read' : (match readLattice scaText with | .ok l => decide (l = scaLat) | .error _ => false) = true := by decide +kernel

theorem sca_fractions : scaLat.arrowFractions = [0, 1] := by decide +kernel

theorem sca_whole : WholeSpecies scaLat.arrowFractions := by
  rw [sca_fractions]
  intro x hx
  simpa using hx

theorem sca_crystal : CrystalInput scaText scaLat (Matrix.of ![![1, 0, 0], ![0, 1, 0], ![0, 0, 1]]) [![0, 0, 0]] 1 2 2 := by
  obtain ⟨hu, hp⟩ := cubic_usable (P := 1) (by simp) sc_cubic (d := 0) (colLat_isSub _).zero true
  refine ⟨read_of_match sca_read', rfl, ⟨[], rfl⟩, by norm_num, by norm_num, ?_, ?_, Or.inr ?_, rfl, by norm_num, by norm_num⟩
  · rw [realVecs_zero, realMat_sc]; exact hu
  · rw [realVecs_zero, realMat_sc]; exact hp
  · rw [realVecs_zero]; rfl

theorem sca_ranges : RangesInput scaLat 2 [(0, 4, 4), (0, 4, 4)] 4 := by
  refine ⟨rfl, by decide +kernel, rfl, ⟨by norm_num, by simp⟩, by simp, ?_⟩
  rw [sca_fractions]
  simp

theorem sca_some : InConcRanges [(0, 4, 4), (0, 4, 4)] (([![0, 0, 0]] : List (Fin 3 → ℚ)).length * 2) [1, 1] := by
  refine ⟨rfl, .cons ?_ (.cons ?_ .nil)⟩ <;> norm_num

/-- a standing wave: all atoms are of the second species, displaced along the first axis, forwards in one layer and backwards in the next one -/
noncomputable def wave : Decoration := fun x => (2, arrowDir ((layers x).1 - 1))

theorem wave_allowed : AllowedDisplaced 1 [0] 2 2 [(0, 4, 4), (0, 4, 4)] [0, 1] wave := by
  have hdet : (!![2, 0, 0; 0, 1, 0; 0, 0, 1] : M3 ℤ).det = 2 := by rw [Matrix.det_fin_three]; simp
  refine ⟨!![2, 0, 0; 0, 1, 0; 0, 0, 1], by rw [hdet]; decide, by rw [hdet]; decide, ?_, ?_, ?_⟩
  · intro x hx t ht
    unfold wave
    rw [layers_structure.1 x hx t ht]
  · intro x _
    refine ⟨by simp [wave], by simp [wave], Or.inr ⟨by simp [wave], (layers x).1 - 1, ?_, rfl⟩⟩
    unfold layers
    split <;> simp
  · rw [hdet]
    obtain ⟨pos, z, hp, -⟩ := layers_structure.2.2
    refine ⟨pos, hp, fun i r hi => ?_⟩
    have hr : r = (0, 4, 4) := by
      have := List.mem_of_getElem? hi
      simpa using this
    subst hr
    have hcard := Finset.card_filter_le (Finset.range ([(0 : V3)].length * (2 : ℤ).natAbs)) (fun j => (wave (pos j)).1 = i + 1)
    rw [Finset.card_range] at hcard
    have h2 : [(0 : V3)].length * (2 : ℤ).natAbs = 2 := rfl
    rw [h2] at hcard ⊢
    have hcard' : (((Finset.range 2).filter (fun j => (wave (pos j)).1 = i + 1)).card : ℚ) ≤ 2 := by exact_mod_cast hcard
    constructor
    · norm_num
      positivity
    · rw [div_le_iff₀ (by norm_num)]
      norm_num
      exact hcard

/-- C89 for that file in double precision: every run lists the standing wave exactly once, and lists no crystal in which atoms of the second species are at rest. -/
example {δ : ℝ} (h0 : 0 ≤ δ) (hlt : δ < 1 / 10 ^ 10) (w : World) (hw : ∀ l, (w.listdir l).Perm l) :
    ∃ (rows : List EnumEntry) (d' : Dir),
      AlwaysReturns (scriptEnumN fl53 δ w shippedTol ⟨false, true, "lattice.in".toList, none, none, none, none, false, none, false, none⟩
        [("notes.txt".toList, []), ("lattice.in".toList, scaText)]) d' ∧
      dictGet d' "enum.out".toList = some (enumOutFile (scaLat.enumParams (Matrix.of ![![1, 0, 0], ![0, 1, 0], ![0, 0, 1]], [![0, 0, 0]])) w.now rows) ∧ rows.Nodup ∧
      (∃! row, row ∈ rows ∧ ∃ ψ, RowDescribes 1 [0] row ψ ∧ SameDecoration (ColLattice (1 : M3 ℝ).transpose) [0] wave ψ) ∧
      ∀ row ∈ rows, ∀ ψ, RowDescribes 1 [0] row ψ → ψ 0 ≠ (2, 0) := by
  obtain ⟨K, K', g, hc⟩ := C74_decimals sc_decimal h0 (show δ ≤ 1 / 10 ^ 8 by
    have : (1 / 10 ^ 10 : ℝ) ≤ 1 / 10 ^ 8 := by norm_num
    linarith)
  obtain ⟨rows, d', r1, r2, r3, r4, r5⟩ := C89_noise sca_crystal sca_ranges (by norm_num) sca_whole (by simp) (by simp) (by
      unfold NumbersFit
      rw [sca_fractions, if_neg (by norm_num)]
      simp)
    ⟨2, [1, 1], by norm_num, le_refl _, sca_some⟩ (by norm_num) h0 hlt hc fl53_nearest w
    ⟨false, true, "lattice.in".toList, none, none, none, none, false, none, false, none⟩ "lattice.in".toList [("notes.txt".toList, []), ("lattice.in".toList, scaText)] hw
    (by constructor <;> rfl) (by
      refine ⟨by decide +kernel, ?_, by decide +kernel⟩
      have : ∀ f ∈ ["notes.txt".toList, "lattice.in".toList], ¬ f.head? = some 'p' := by decide +kernel
      exact fun f hf h => this f hf h.2)
  rw [realVecs_zero, realMat_sc, sca_fractions] at r4 r5
  refine ⟨rows, d', r1, r2, r3, r5 _ wave_allowed, fun row hrow ψ hψ h20 => ?_⟩
  obtain ⟨ψ', q1, M, -, -, -, q2, -⟩ := r4 row hrow
  have hz : (0 : V3) ∈ CrystalSites (ColLattice (1 : M3 ℝ).transpose) [0] := ⟨0, by simp, by rw [sub_zero]; exact (colLat_isSub _).zero⟩
  have e := row_describes_unique hψ q1 0 hz
  have := q2 0 hz
  rw [← e, h20] at this
  obtain ⟨-, -, h | ⟨-, j, hj, h⟩⟩ := this
  · simp at h
  · simp only at h
    interval_cases j
    · have := congrFun h 0; simp [arrowDir] at this
    · have := congrFun h 0; simp [arrowDir] at this
    · have := congrFun h 1; simp [arrowDir] at this
    · have := congrFun h 1; simp [arrowDir] at this
    · have := congrFun h 2; simp [arrowDir] at this
    · have := congrFun h 2; simp [arrowDir] at this

end Phenum
