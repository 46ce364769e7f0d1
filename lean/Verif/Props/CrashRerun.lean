import Verif.Props.Crash
import Verif.Props.ProgramSelect
/-
C83, continued: calling the program again after it has been stopped, without deleting anything.
-/
namespace Phenum
open Spec

/-! ## the loop over the sizes -/

theorem polyaLoop_append {tol : Tol} {lat : LatticeIn} {out : Str} : ∀ (l1 l2 : List ℤ) (d : Dir),
    polyaLoop tol lat out (l1 ++ l2) d = (polyaLoop tol lat out l1 d >>= polyaLoop tol lat out l2) := by
  intro l1
  induction l1 with
  | nil => intro l2 d; rw [List.nil_append, show polyaLoop tol lat out [] d = (pure d : Run Dir) from rfl, pure_bind]
  | cons s l1 ih =>
    intro l2 d
    rw [List.cons_append]
    conv_lhs => unfold polyaLoop
    conv_rhs => rw [show polyaLoop tol lat out (s :: l1) d = (polyaSize tol lat s.toNat >>= fun t => polyaLoop tol lat out l1 (dictSet d (out ++ '.' :: intStr s) (writePolya t))) from by
      conv_lhs => unfold polyaLoop]
    rw [bind_assoc]
    apply run_bind_congr
    intro t _
    exact ih l2 _

theorem polyaLoopStops_later {tol : Tol} {lat : LatticeIn} {out : Str} : ∀ (l1 l2 : List ℤ) (d dm x : Dir),
    polyaLoop tol lat out l1 d = (pure dm : Run Dir) → x ∈ polyaLoopStops tol lat out l2 dm → x ∈ polyaLoopStops tol lat out (l1 ++ l2) d := by
  intro l1
  induction l1 with
  | nil =>
    intro l2 d dm x h hx
    have := run_pure_inj h
    subst this
    exact hx
  | cons s l1 ih =>
    intro l2 d dm x h hx
    unfold polyaLoop at h
    obtain ⟨t, h1, h2⟩ := run_bind_ok h
    exact Or.inr (Or.inr ⟨t, h1, ih l2 _ dm x h2 hx⟩)

theorem pyRange_split {lo m hi : ℤ} (h1 : lo ≤ m) (h2 : m ≤ hi) : pyRange lo hi = pyRange lo m ++ pyRange m hi := by
  unfold pyRange
  have e : (hi - lo).toNat = (m - lo).toNat + (hi - m).toNat := by omega
  rw [e, List.range_add, List.map_append, List.map_map]
  congr 1
  apply List.map_congr_left
  intro i _
  simp only [Function.comp_apply]
  push_cast
  omega

theorem pyRange_head {lo hi : ℤ} (h : lo < hi) : pyRange lo hi = lo :: pyRange (lo + 1) hi := by
  rw [pyRange_split (m := lo + 1) (by omega) (by omega)]
  unfold pyRange
  rw [show (lo + 1 - lo).toNat = 1 by omega]
  simp

/-- the sizes of the tables found in a directory -/
theorem found_sizes {w : World} (hw : ∀ l, (w.listdir l).Perm l) {d x : Dir} {l : List ℤ} (hd : ∀ f ∈ d.map (·.1), ¬ PolyaLike f)
    (hx : x.map (·.1) = d.map (·.1) ++ l.map polyaName) (hl : l ≠ []) : ∃ l', l'.Perm l ∧ sizesUsed w x "polya.out".toList none = .ok l' := by
  obtain ⟨l', hl', hfound⟩ := sizesFound_eq (names := w.listdir (x.map (·.1))) (l := l) (by
      have hp : (w.listdir (x.map (·.1))).Perm (d.map (·.1) ++ l.map polyaName) := by rw [← hx]; exact hw _
      have hp2 := hp.filter (fun f => ! decide (f ∈ l.map polyaName))
      rw [List.filter_append] at hp2
      have e1 : (l.map polyaName).filter (fun f => ! decide (f ∈ l.map polyaName)) = [] := by
        rw [List.filter_eq_nil_iff]
        intro f hf
        simp [hf]
      have e2 : (d.map (·.1)).filter (fun f => ! decide (f ∈ l.map polyaName)) = d.map (·.1) := by
        rw [List.filter_eq_self]
        intro f hf
        have : f ∉ l.map polyaName := by
          intro hm
          obtain ⟨s, -, rfl⟩ := List.mem_map.mp hm
          exact hd _ hf (polyaName_like s)
        simp [this]
      rw [e1, e2, List.append_nil] at hp2
      exact (hp.trans List.perm_append_comm).trans ((List.Perm.refl _).append hp2.symm)) (by
      intro f hf hn
      have := (hw _).mem_iff.mp hf
      rw [hx, List.mem_append] at this
      rcases this with h | h
      · exact hd f h
      · exact absurd h hn)
  refine ⟨l', hl', ?_⟩
  unfold sizesUsed
  simp only [hfound, bind, Except.bind]
  rw [if_neg]
  rintro rfl
  exact hl (List.nil_perm.mp hl')

theorem selectCall_enum {a : Args} {lattice : Str} {number : Option ℕ} {sizes : Option (ℕ × ℕ)} {filter : Option (Str × Str)} (ha : SelectCall a lattice number sizes filter) :
    EnumCall a := by
  refine ⟨ha.polya, ha.enum, ha.input, ha.outfile, ?_, ?_⟩
  · intro l hl
    rcases ha.distribution with ⟨-, h | h⟩ | ⟨n, -, h⟩
    · rw [h] at hl; cases hl
    · rw [h] at hl; cases hl; rfl
    · rw [h] at hl; cases hl; rfl
  · intro q hq
    rw [ha.accept] at hq
    cases hq

/-- a call in a directory with tables -/
theorem rerun_tables {w : World} {tol : Tol} {a : Args} {lattice text : Str} (ha : SelectCall a lattice none none none) {x : Dir} {lat : LatticeIn} (htext : dictGet x lattice = some text)
    (hlat : readLattice text = .ok lat) (hno : dictGet x "enum.in".toList = none) (hany : anyNumbered x "polya.out".toList = true) :
    scriptEnum w tol a x = (runPy (makeEnumIn w "polya.out".toList "all".toList "enum.in".toList none none a.savedist none x) >>=
      finish w tol a "enum.in".toList "enum.out".toList lat) := by
  have hread : readLat x a.lattice = .ok lat := by
    unfold readLat readFile
    rw [ha.lattice, htext]
    exact hlat
  have hdist : a.distribution.getD ["all".toList, "all".toList] = ["all".toList, "all".toList] := by
    rcases ha.distribution with ⟨e, h | h⟩ | ⟨n, e, h⟩
    · rw [h]; rfl
    · rw [h]; rfl
    · cases e
  rw [scriptEnum_enum (selectCall_enum ha), enumOut_eq, hread, runPy_ok, pure_bind, hno]
  simp only [Option.isSome_none, Bool.false_eq_true, if_false]
  congr 1
  unfold prepare
  rw [hany, if_pos rfl, pure_bind, enumIn_eq, hany, if_pos rfl, pure_bind, hdist]
  unfold enumInRest
  rw [show pyGet ["all".toList, "all".toList] 0 = .ok "all".toList from rfl, show pyGet ["all".toList, "all".toList] 1 = .ok "all".toList from rfl]
  simp only [runPy_ok, pure_bind]
  rw [show lowerStr "all".toList = "all".toList by decide, if_pos rfl, runPy_ok, pure_bind, ha.sizes, ha.filter]
  rfl

theorem readTables_error {d : Dir} {e : PyErr} : ∀ {l : List ℤ} {m : ℤ}, m ∈ l → (∀ s ∈ l, s ≠ m → ∃ t, (do let x ← readFile d (polyaName s); readPolya s.toNat x) = .ok t) →
    ((do let x ← readFile d (polyaName m); readPolya m.toNat x) = .error e) → (dictGet d (polyaName m)).isSome → readTables d "polya.out".toList l = .error e := by
  intro l
  induction l with
  | nil => intro m hm; simp at hm
  | cons s l ih =>
    intro m hm hok he hsome
    unfold readTables
    rw [show "polya.out".toList ++ '.' :: intStr s = polyaName s from rfl]
    by_cases hs : s = m
    · subst hs
      obtain ⟨v, hv⟩ := Option.isSome_iff_exists.mp hsome
      unfold readFile at he
      rw [hv] at he ⊢
      have he' : readPolya s.toNat v = .error e := he
      simp only [he', bind, Except.bind]
    · obtain ⟨t, ht⟩ := hok s List.mem_cons_self hs
      have hl := ih ((List.mem_cons.mp hm).resolve_left (fun h => hs h.symm)) (fun z hz => hok z (List.mem_cons_of_mem _ hz)) he hsome
      unfold readFile at ht
      cases hv : dictGet d (polyaName s) with
      | none => rw [hv] at ht; cases ht
      | some v =>
        rw [hv] at ht
        have ht' : readPolya s.toNat v = .ok t := ht
        simp only [ht', hl, bind, Except.bind]

/-! ## what later calls do -/

section
variable {text : Str} {lat : LatticeIn} {P0 : Matrix (Fin 3) (Fin 3) ℚ} {b0 : List (Fin 3 → ℚ)} {lo hi k : ℕ} {T : Set ℚ} {C : ℕ → List Conc} {tol : Tol}
  {U : ℕ → List (M3 ℤ)} {cnt : ℕ → M3 ℤ → Conc → ℕ}

/-- the table of every size is computed -/
theorem tables_computed (h : EnumInput text lat P0 b0 lo hi k T C) (t5 : tol.conc ∈ T) (hcnt : CountsAll tol lat P0 b0 lo hi C U cnt) {n : ℕ} (a : lo ≤ n) (b : n ≤ hi) :
    polyaSize tol lat n = (pure (countTable n (U n) (C n) (cnt n)) : Run _) := by
  obtain ⟨u1, u2, u3, u4⟩ := hcnt n a b
  have hG : ∀ u, ∃ G, u ∈ U n → getSymGroup (realMat P0) (realVecs b0) u 3 tol.sym true = some (.ok G) ∧
      ∀ c ∈ C n, polyaCount G lat.arrowFractions c = (pure (cnt n u c) : Run ℕ) := by
    intro u
    by_cases hu : u ∈ U n
    · obtain ⟨G, g1, -, -, -, g5⟩ := u4 u hu
      exact ⟨G, fun _ => ⟨g1, fun c hc => (g5 c hc).2.1⟩⟩
    · exact ⟨[], fun hh => absurd hh hu⟩
  choose G hG using hG
  exact polyaSize_ok (le_trans h.lo_pos a) h.geometry ⟨u1, u2, u3, (h.concs n a b).1 _ t5, (h.concs n a b).2.1, fun u hu => (hG u hu).1, fun u hu c hc => (hG u hu).2 c hc⟩

/-- the directory after the tables of the sizes below `m` have been written, and the places at which the rest of the loop may be stopped -/
theorem stopped_tables (h : EnumInput text lat P0 b0 lo hi k T C) (t5 : tol.conc ∈ T) (hcnt : CountsAll tol lat P0 b0 lo hi C U cnt) {lattice : Str} {d : Dir}
    (hd : FreshDir lattice text d) {m : ℕ} (m1 : lo ≤ m) (m2 : m ≤ hi + 1) :
    ∃ dm, dm.map (·.1) = d.map (·.1) ++ (pyRange lo m).map polyaName ∧
      (∀ n : ℕ, lo ≤ n → n < m → dictGet dm (polyaName n) = some (writePolya (countTable n (U n) (C n) (cnt n)))) ∧
      (∀ f, (∀ n : ℕ, lo ≤ n → n < m → f ≠ polyaName n) → dictGet dm f = dictGet d f) ∧
      ∀ (w : World) (a : Args), EnumCall a → a.lattice = lattice → ∀ x ∈ polyaLoopStops tol lat "polya.out".toList (pyRange m ((hi : ℤ) + 1)) dm, x ∈ scriptStops w tol a d := by
  have hmem : ∀ s : ℤ, s ∈ pyRange lo m ↔ ∃ n : ℕ, s = n ∧ lo ≤ n ∧ n < m := by
    intro s
    rw [mem_pyRange]
    constructor
    · rintro ⟨h1, h2⟩
      exact ⟨s.toNat, by omega, by omega, by omega⟩
    · rintro ⟨n, rfl, h1, h2⟩
      omega
  obtain ⟨dm, q1, q2, q3, q4⟩ := polyaLoop_ok (tol := tol) (lat := lat) (fun n => countTable n (U n) (C n) (cnt n)) (pyRange lo m) (by
    intro s hs
    obtain ⟨n, rfl, h1, h2⟩ := (hmem s).mp hs
    rw [Int.toNat_natCast]
    exact tables_computed h t5 hcnt h1 (by omega)) (pyRange_nd _ _) d (by
    intro s _ hm
    exact hd.noPolya _ hm (polyaName_like s))
  refine ⟨dm, q2, ?_, ?_, ?_⟩
  · intro n h1 h2
    exact q3 n ((hmem n).mpr ⟨n, rfl, h1, h2⟩)
  · intro f hf
    apply q4
    intro hm
    obtain ⟨s, hs, rfl⟩ := List.mem_map.mp hm
    obtain ⟨n, rfl, h1, h2⟩ := (hmem s).mp hs
    exact hf n h1 h2 rfl
  · intro w a ha hal x hx
    rw [scriptStops_enum ha]
    have hread : (do let s ← readFile d lattice; readLattice s) = .ok lat := by
      unfold readFile
      rw [hd.text]
      exact h.read
    refine Or.inr ⟨lat, by rw [hal]; exact hread, Or.inl ⟨by rw [hd.noEnumIn]; rfl, Or.inl ⟨like_of_numbered hd.noPolya, ?_⟩⟩⟩
    obtain ⟨rest, hsz⟩ := h.sizes
    refine Or.inr ⟨lat, lo, hi, by rw [hal]; exact hread, by rw [hsz]; rfl, by rw [hsz]; rfl, ?_⟩
    have e : pyRange (lo : ℤ) ((hi : ℤ) + 1) = pyRange lo m ++ pyRange m ((hi : ℤ) + 1) := pyRange_split (by omega) (by omega)
    rw [e]
    exact polyaLoopStops_later _ _ _ dm x q1 hx

/-- the lattice file is not touched -/
theorem lattice_not_table {lattice : Str} {d : Dir} (hd : FreshDir lattice text d) (n : ℤ) : lattice ≠ polyaName n := by
  rintro rfl
  refine hd.noPolya _ ?_ (polyaName_like n)
  by_contra hn
  rw [← dictGet_none, hd.text] at hn
  cases hn

theorem enumIn_not_table (n : ℤ) : "enum.in".toList ≠ polyaName n := fun e => (polyaName_clean n).1 e.symm

theorem numbered_of_key {x : Dir} {n : ℤ} (h : polyaName n ∈ x.map (·.1)) : anyNumbered x "polya.out".toList = true := by
  rw [anyNumbered_iff]
  exact ⟨_, h, polyaName_numbered n⟩

/-- the rows when the requests are those of the first sizes -/
theorem rerun_rows (h : EnumInput text lat P0 b0 lo hi k T C) (ht : ExactTol P0 b0 hi tol) (hcnt : CountsAll tol lat P0 b0 lo hi C U cnt)
    (hfits : ∀ n, lo ≤ n → n ≤ hi → (countTable n (U n) (C n) (cnt n)).Fits) (hdel : ∀ n c, lo ≤ n → n ≤ hi → c ∈ C n → NoRandomSearch lat.arrowFractions c)
    {w : World} (hw : ∀ l, (w.listdir l).Perm l) (hsh : ∀ i l, ((w.rnd i).shuffle l).Perm l) {a : Args} {lattice : Str} (ha : SelectCall a lattice none none none)
    {d x : Dir} (hd : FreshDir lattice text d) {m : ℕ} (m1 : lo ≤ m) (m2 : m ≤ hi) (hkeys : x.map (·.1) = d.map (·.1) ++ (pyRange lo ((m : ℤ) + 1)).map polyaName)
    (htab : ∀ n : ℕ, lo ≤ n → n < m + 1 → dictGet x (polyaName n) = some (writePolya (countTable n (U n) (C n) (cnt n))))
    (hoth : ∀ f, (∀ n : ℕ, lo ≤ n → n < m + 1 → f ≠ polyaName n) → dictGet x f = dictGet d f) (hne : ∃ n c, lo ≤ n ∧ n ≤ m ∧ c ∈ C n) :
    ∃ (rows : List EnumEntry) (d' : Dir), scriptEnum w tol a x = (pure d' : Run Dir) ∧
      dictGet d' "enum.out".toList = some (enumOutFile (lat.enumParams (P0, b0)) w.now rows) ∧
      ListsAll (realMat P0) (realVecs b0) lo m C lat.arrowFractions rows := by
  have hmem : ∀ s : ℤ, s ∈ pyRange lo ((m : ℤ) + 1) ↔ ∃ n : ℕ, s = n ∧ lo ≤ n ∧ n < m + 1 := by
    intro s
    rw [mem_pyRange]
    constructor
    · rintro ⟨h1, h2⟩
      exact ⟨s.toNat, by omega, by omega, by omega⟩
    · rintro ⟨n, rfl, h1, h2⟩
      omega
  have hlone : pyRange lo ((m : ℤ) + 1) ≠ [] := List.ne_nil_of_mem ((hmem m).mpr ⟨m, rfl, m1, by omega⟩)
  obtain ⟨l', hl', hused⟩ := found_sizes hw hd.noPolya hkeys hlone
  have hmem' : ∀ s : ℤ, s ∈ l' ↔ ∃ n : ℕ, s = n ∧ lo ≤ n ∧ n < m + 1 := fun s => (hl'.mem_iff).trans (hmem s)
  have hread : readTables x "polya.out".toList l' = .ok (tablesOf l' U C cnt) := by
    refine readTables_ok x (fun n => countTable n (U n) (C n) (cnt n)) l' (fun _ _ => rfl) ?_ ?_
    · intro s hs
      obtain ⟨n, rfl, h1, h2⟩ := (hmem' s).mp hs
      exact hfits n h1 (by omega)
    · intro s hs
      obtain ⟨n, rfl, h1, h2⟩ := (hmem' s).mp hs
      exact htab n h1 h2
  have hfacts : ∀ {l : List ℤ} {M : ℕ}, M ≤ hi → l.Nodup → (∀ s : ℤ, s ∈ l → ∃ n : ℕ, s = n ∧ lo ≤ n ∧ n ≤ M) → ∃ K, TablesFacts l U C cnt K := by
    intro l M hM hnd hl
    refine tables_facts hnd ?_ ?_ ?_
    · intro s hs
      obtain ⟨n, rfl, h1, -⟩ := hl s hs
      have := h.lo_pos
      omega
    · intro s hs
      obtain ⟨n, rfl, h1, h2⟩ := hl s hs
      rw [Int.toNat_natCast]
      obtain ⟨-, u2, u3, -⟩ := hcnt n h1 (by omega)
      exact ⟨u2, u3⟩
    · intro s hs
      obtain ⟨n, rfl, h1, h2⟩ := hl s hs
      exact (h.concs n h1 (by omega)).2.1
  obtain ⟨Kl, hF⟩ := hfacts (l := l') (M := m) m2 (hl'.nodup_iff.mpr (pyRange_nd _ _)) (fun s hs => by
    obtain ⟨n, e, h1, h2⟩ := (hmem' s).mp hs
    exact ⟨n, e, h1, by omega⟩)
  obtain ⟨K, hK⟩ := hfacts (l := pyRange lo ((hi : ℤ) + 1)) (M := hi) (le_refl _) (pyRange_nd _ _) (fun s hs => by
    rw [mem_pyRange] at hs
    exact ⟨s.toNat, by omega, by omega, by omega⟩)
  have hKm : ∀ n u c, (n, u, c) ∈ K ↔ lo ≤ n ∧ n ≤ hi ∧ u ∈ U n ∧ c ∈ C n := by
    intro n u c
    rw [hK.mem, mem_pyRange]
    constructor
    · rintro ⟨⟨h1, h2⟩, h3⟩
      exact ⟨by omega, by omega, h3⟩
    · rintro ⟨h1, h2, h3⟩
      exact ⟨⟨by omega, by omega⟩, h3⟩
  have hKl : ∀ n u c, (n, u, c) ∈ Kl ↔ (n, u, c) ∈ K ∧ n ≤ m := by
    intro n u c
    rw [hF.mem, hKm, hmem']
    constructor
    · rintro ⟨⟨n', e, h1, h2⟩, h3, h4⟩
      have : n = n' := by omega
      subst this
      exact ⟨⟨h1, by omega, h3, h4⟩, by omega⟩
    · rintro ⟨⟨h1, h2, h3, h4⟩, h5⟩
      exact ⟨⟨n, rfl, h1, by omega⟩, h3, h4⟩
  have hsub : ∀ y ∈ Kl, y ∈ K := fun y hy => ((hKl y.1 y.2.1 y.2.2).mp hy).1
  have hk : ∀ y ∈ K, y.2.2.length = k := by
    intro y hy
    obtain ⟨h1, h2, -, h4⟩ := (hKm y.1 y.2.1 y.2.2).mp hy
    exact ((h.concs _ h1 h2).2.2 _ h4).1
  have hpos : ∀ y ∈ K, 1 ≤ cnt y.1 y.2.1 y.2.2 := by
    intro y hy
    obtain ⟨h1, h2, h3, h4⟩ := (hKm y.1 y.2.1 y.2.2).mp hy
    obtain ⟨-, -, -, u4⟩ := hcnt _ h1 h2
    obtain ⟨G, -, -, -, -, g5⟩ := u4 _ h3
    exact (g5 _ h4).1
  have hS := sel_facts hF .none
  rw [show Kl.filter (fun x => passes .none (hnfNumbers x.2.1) x.2.2) = Kl from List.filter_eq_self.mpr (fun _ _ => rfl)] at hS
  obtain ⟨V, v1, v2, v3⟩ := requests_all hF hS (fun y hy => hy) (fun y hy => hk y (hsub y hy)) (fun y hy => hpos y (hsub y hy)) w.draws
  have hpy : distributePy (tablesOf l' U C cnt) .none .all ((none : Option ℤ).map Int.toNat) w.draws =
      .ok (distribute (tablesOf l' U C cnt) .none .all ((none : Option ℤ).map Int.toNat) w.draws) := by
    apply distributePy_pos _ _ hF.ok hF.sizes
    intro e he
    rw [hF.list] at he
    obtain ⟨y, hy, rfl⟩ := List.mem_map.mp he
    exact hpos y (hsub y hy)
  have hmake := makeEnumIn_select (filter := none) (res := .none) hused hread rfl hpy a.savedist
  have hnotin : dictGet x "enum.in".toList = none := by
    rw [hoth _ (fun n _ _ => enumIn_not_table n)]
    exact hd.noEnumIn
  have htext : dictGet x lattice = some text := by
    rw [hoth _ (fun n _ _ => lattice_not_table hd n)]
    exact hd.text
  have hrun := rerun_tables (w := w) (tol := tol) ha htext h.read hnotin (numbered_of_key (n := (m : ℤ)) (by
    rw [hkeys, List.mem_append]
    exact Or.inr (List.mem_map_of_mem ((hmem m).mpr ⟨m, rfl, m1, by omega⟩))))
  rw [hmake, runPy_ok, pure_bind] at hrun
  obtain ⟨n0, c0, n1, n2, hc0⟩ := hne
  obtain ⟨u0, hu0⟩ := counts_nonempty h ht hcnt n1 (le_trans n2 m2)
  have hV : V ≠ [] := List.ne_nil_of_mem ((v2 (n0, u0, c0) _).mpr ⟨(hKl n0 u0 c0).mpr ⟨(hKm n0 u0 c0).mpr ⟨n1, le_trans n2 m2, hu0, hc0⟩, n2⟩, rfl⟩)
  have hVm : ∀ y ∈ V, y.1 ∈ K := fun y hy => hsub _ ((v2 y.1 y.2).mp hy).1
  obtain ⟨rows, full, r1, r2, r3, r4⟩ := loop_some_all h ht hcnt hdel hsh hK.nodup hKm v1 hVm
  have hwant := lists_wanted h ht hcnt hKm hVm (want := fun n _ _ => n ≤ m) (by
    intro n u c v
    rw [v2, hKl]
    simp only
    tauto) r2 r3 r4
  refine ⟨rows, dictSet (dictSet x "enum.in".toList (printDist .all (distribute (tablesOf l' U C cnt) .none .all none w.draws))) "enum.out".toList
      (enumOutFile (lat.enumParams (P0, b0)) w.now rows), ?_, ?_, ?_⟩
  · rw [hrun]
    unfold finish
    have e2 : (do let s ← readFile (dictSet x "enum.in".toList (printDist .all (distribute (tablesOf l' U C cnt) .none .all ((none : Option ℤ).map Int.toNat) w.draws))) "enum.in".toList
                  readEnum s) = .ok (V.map sysOfRequest) := by
      unfold readFile
      rw [dictGet_set, if_pos rfl]
      exact v3
    rw [e2, runPy_ok, pure_bind]
    unfold enumWrite
    rw [h.geometry, runPy_ok, pure_bind, ha.super, ha.accept, show Option.isSome (none : Option ℚ) = false from rfl, r1, pure_bind, if_neg (by simpa using hV)]
    rfl
  · rw [dictGet_set, if_pos rfl]
  · obtain ⟨w1, w2, w3⟩ := hwant
    refine ⟨w1, ?_, ?_⟩
    · intro row hrow
      obtain ⟨n, a1, a2, a3, c, hc, a4, ψ⟩ := w2 row hrow
      exact ⟨n, a1, a4, a3, c, hc, ψ⟩
    · intro n M a1 a2 hM χ hper c hc hχ
      exact w3 n M a1 (le_trans a2 m2) hM χ hper c hc hχ (fun _ _ _ => a2)

end

/-! ## the theorems -/

/-- The program `enumeration.py -enum -super` stopped between two sizes: after the table of the size `m` has been completed the run can be stopped (`x`), with the tables of the sizes
`lo` to `m` in the directory and nothing else changed; the same call made again in this directory comes to its end without an error, and enum.out then lists the structures of the
sizes `lo` to `m` only. -/
def Spec.RunLosesSizes (tol : Tol) (text : Str) (lat : LatticeIn) (P0 : Matrix (Fin 3) (Fin 3) ℚ) (b0 : List (Fin 3 → ℚ)) (lo hi : ℕ) (C : ℕ → List Conc)
    (U : ℕ → List (M3 ℤ)) (cnt : ℕ → M3 ℤ → Conc → ℕ) : Prop :=
  ∀ (w w' : World) (a : Args) (lattice : Str) (d : Dir) (m : ℕ), (∀ l, (w'.listdir l).Perm l) → (∀ i l, ((w'.rnd i).shuffle l).Perm l) →
    SelectCall a lattice none none none → FreshDir lattice text d → lo ≤ m → m < hi → (∃ n c, lo ≤ n ∧ n ≤ m ∧ c ∈ C n) →
    ∃ x ∈ scriptStops w tol a d,
      (∀ n : ℕ, lo ≤ n → n ≤ m → dictGet x ("polya.out.".toList ++ natStr n) = some (writePolya (countTable n (U n) (C n) (cnt n)))) ∧
      (∀ f, (∀ n : ℕ, lo ≤ n → n ≤ m → f ≠ "polya.out.".toList ++ natStr n) → dictGet x f = dictGet d f) ∧
      ∃ (rows : List EnumEntry) (d' : Dir), scriptEnum w' tol a x = (pure d' : Run Dir) ∧
        dictGet d' "enum.out".toList = some (enumOutFile (lat.enumParams (P0, b0)) w'.now rows) ∧
        ListsAll (realMat P0) (realVecs b0) lo m C lat.arrowFractions rows

theorem polyaName_nat (n : ℕ) : polyaName n = "polya.out.".toList ++ natStr n := by
  unfold polyaName
  rw [show "polya.out.".toList = "polya.out".toList ++ ['.'] from by decide, List.append_assoc]
  rfl

section
variable {text : Str} {lat : LatticeIn} {P0 : Matrix (Fin 3) (Fin 3) ℚ} {b0 : List (Fin 3 → ℚ)} {lo hi k : ℕ} {T : Set ℚ} {C : ℕ → List Conc} {tol : Tol}
  {U : ℕ → List (M3 ℤ)} {cnt : ℕ → M3 ℤ → Conc → ℕ}

theorem lost_at (h : EnumInput text lat P0 b0 lo hi k T C) (ht : ExactTol P0 b0 hi tol) (t5 : tol.conc ∈ T) (hcnt : CountsAll tol lat P0 b0 lo hi C U cnt)
    (hfits : ∀ n, lo ≤ n → n ≤ hi → (countTable n (U n) (C n) (cnt n)).Fits) (hdel : ∀ n c, lo ≤ n → n ≤ hi → c ∈ C n → NoRandomSearch lat.arrowFractions c) :
    RunLosesSizes tol text lat P0 b0 lo hi C U cnt := by
  intro w w' a lattice d m hw hsh ha hd m1 m2 hne
  obtain ⟨dm, q1, q2, q3, q4⟩ := stopped_tables h t5 hcnt hd (m := m + 1) (by omega) (by omega)
  rw [Nat.cast_succ] at q1
  refine ⟨dm, q4 w a (selectCall_enum ha) ha.lattice dm ?_, ?_, ?_, ?_⟩
  · rw [pyRange_head (by push_cast; omega)]
    exact Or.inl rfl
  · intro n h1 h2
    rw [← polyaName_nat]
    exact q2 n h1 (by omega)
  · intro f hf
    refine q3 f (fun n h1 h2 => ?_)
    rw [polyaName_nat]
    exact hf n h1 (by omega)
  · exact rerun_rows h ht hcnt hfits hdel hw hsh ha hd m1 m2.le q1 q2 q3 hne

/-- C83. Sizes are lost without a warning. For every sufficiently small tolerance, with the supercells and numbers that the routines return: if the
numbers fit into the columns of polya.out and no structures have to be searched for at random, a stopped run that is repeated is as described in `RunLosesSizes`. -/
theorem C83_lost_sizes (h : EnumInput text lat P0 b0 lo hi k T C) (hdel : ∀ n c, lo ≤ n → n ≤ hi → c ∈ C n → NoRandomSearch lat.arrowFractions c) :
    ∃ e > 0, ∀ tol : Tol, 0 < tol.hnf → tol.hnf < e → 0 < tol.sym → tol.sym < e → tol.conc ∈ T →
      ∃ (U : ℕ → List (M3 ℤ)) (cnt : ℕ → M3 ℤ → Conc → ℕ),
        CountsAll tol lat P0 b0 lo hi C U cnt ∧
        ((∀ n, lo ≤ n → n ≤ hi → (countTable n (U n) (C n) (cnt n)).Fits) → RunLosesSizes tol text lat P0 b0 lo hi C U cnt) :=
  small_tol h.cell.det h.cell.nonempty hi (fun _ ht t5 => by
    obtain ⟨U, cnt, hcnt, -⟩ := every_structure_once_at h ht t5
    exact ⟨U, cnt, hcnt, fun hf => lost_at h ht t5 hcnt hf hdel⟩)

theorem read_table {d : Dir} {f text : Str} (n : ℕ) (hf : dictGet d f = some text) : (do let x ← readFile d f; readPolya n x) = readPolya n text := by
  unfold readFile
  rw [hf]
  rfl

theorem readPolya_empty (n : ℕ) : readPolya n [] = .error .indexError := rfl

/-- C83. The file of a size has been opened but nothing has been written to it (its rows are kept in a buffer): the call made again stops with an IndexError, and goes on doing so. -/
theorem C83_opened_table (h : EnumInput text lat P0 b0 lo hi k T C) (t5 : tol.conc ∈ T) (hcnt : CountsAll tol lat P0 b0 lo hi C U cnt)
    (hfits : ∀ n, lo ≤ n → n ≤ hi → (countTable n (U n) (C n) (cnt n)).Fits) {w w' : World} (hw : ∀ l, (w'.listdir l).Perm l) {a : Args} {lattice : Str} {d : Dir}
    (ha : SelectCall a lattice none none none) (hd : FreshDir lattice text d) {m : ℕ} (m1 : lo ≤ m) (m2 : m ≤ hi) :
    ∃ x ∈ scriptStops w tol a d, dictGet x ("polya.out.".toList ++ natStr m) = some [] ∧
      (∀ f, (∀ n : ℕ, lo ≤ n → n ≤ m → f ≠ "polya.out.".toList ++ natStr n) → dictGet x f = dictGet d f) ∧
      scriptEnum w' tol a x = (throw .indexError : Run Dir) := by
  obtain ⟨dm, q1, q2, q3, q4⟩ := stopped_tables h t5 hcnt hd (m := m) m1 (by omega)
  have hmem : ∀ s : ℤ, s ∈ pyRange lo ((m : ℤ) + 1) ↔ ∃ n : ℕ, s = n ∧ lo ≤ n ∧ n < m + 1 := by
    intro s
    rw [mem_pyRange]
    constructor
    · rintro ⟨h1, h2⟩
      exact ⟨s.toNat, by omega, by omega, by omega⟩
    · rintro ⟨n, rfl, h1, h2⟩
      omega
  have hnew : polyaName m ∉ dm.map (·.1) := by
    rw [q1, List.mem_append, not_or]
    refine ⟨fun hm => hd.noPolya _ hm (polyaName_like m), fun hm => ?_⟩
    obtain ⟨s, hs, e⟩ := List.mem_map.mp hm
    rw [polyaName_inj e, mem_pyRange] at hs
    omega
  have hkeys : (dictSet dm (polyaName m) []).map (·.1) = d.map (·.1) ++ (pyRange lo ((m : ℤ) + 1)).map polyaName := by
    rw [dictSet_new hnew, List.map_append, q1, pyRange_split (m := (m : ℤ)) (hi := (m : ℤ) + 1) (by omega) (by omega), List.map_append, List.append_assoc, pyRange_head (lo := (m : ℤ)) (by omega)]
    simp [pyRange]
  have hoth : ∀ f, (∀ n : ℕ, lo ≤ n → n ≤ m → f ≠ polyaName n) → dictGet (dictSet dm (polyaName m) []) f = dictGet d f := by
    intro f hf
    rw [dictGet_set, if_neg (hf m m1 (le_refl _))]
    exact q3 f (fun n h1 h2 => hf n h1 (by omega))
  refine ⟨dictSet dm (polyaName m) [], q4 w a (selectCall_enum ha) ha.lattice _ ?_, ?_, ?_, ?_⟩
  · rw [pyRange_head (by omega)]
    exact Or.inr (Or.inl ⟨[], rfl, fun t _ => List.nil_prefix⟩)
  · rw [← polyaName_nat, dictGet_set, if_pos rfl]
  · intro f hf
    refine hoth f (fun n h1 h2 => ?_)
    rw [polyaName_nat]
    exact hf n h1 h2
  · obtain ⟨l', hl', hused⟩ := found_sizes hw hd.noPolya hkeys (List.ne_nil_of_mem ((hmem m).mpr ⟨m, rfl, m1, by omega⟩))
    have hrun := rerun_tables (w := w') (tol := tol) ha (by
      rw [hoth _ (fun n _ _ => lattice_not_table hd n)]
      exact hd.text) h.read (by
      rw [hoth _ (fun n _ _ => enumIn_not_table n)]
      exact hd.noEnumIn) (numbered_of_key (n := (m : ℤ)) (by
      rw [hkeys, List.mem_append]
      exact Or.inr (List.mem_map_of_mem ((hmem m).mpr ⟨m, rfl, m1, by omega⟩))))
    rw [hrun]
    have hself : dictGet (dictSet dm (polyaName m) []) (polyaName m) = some [] := by rw [dictGet_set, if_pos rfl]
    have hread : readTables (dictSet dm (polyaName m) []) "polya.out".toList l' = .error .indexError := by
      refine readTables_error (m := (m : ℤ)) (hl'.mem_iff.mpr ((hmem m).mpr ⟨m, rfl, m1, by omega⟩)) ?_ ?_ ?_
      · intro s hs hne
        obtain ⟨n, rfl, h1, h2⟩ := (hmem s).mp (hl'.mem_iff.mp hs)
        refine ⟨countTable n (U n) (C n) (cnt n), ?_⟩
        have hr := C49_polya_out_round_trip (hfits n h1 (by omega))
        have hg : dictGet (dictSet dm (polyaName m) []) (polyaName n) = some (writePolya (countTable n (U n) (C n) (cnt n))) := by
          rw [dictGet_set, if_neg (fun e => hne (polyaName_inj e)), q2 n h1 (by omega)]
        rw [read_table _ hg, Int.toNat_natCast]
        exact hr
      · rw [read_table _ hself]
        exact readPolya_empty _
      · rw [hself, Option.isSome_some]
    have hmake : makeEnumIn w' "polya.out".toList "all".toList "enum.in".toList none none a.savedist none (dictSet dm (polyaName m) []) = .error .indexError := by
      unfold makeEnumIn
      simp only [hused, bind, Except.bind, show readRestrict (dictSet dm (polyaName m) []) none = .ok .none from rfl, hread]
    rw [hmake]
    rfl

theorem map_inj_on {α β : Type} {f : α → β} {S : α → Prop} (hf : ∀ x y, S x → S y → f x = f y → x = y) : ∀ {l l' : List α}, (∀ x ∈ l, S x) → (∀ x ∈ l', S x) → l.map f = l'.map f → l = l'
  | [], [], _, _, _ => rfl
  | [], _ :: _, _, _, h => by simp at h
  | _ :: _, [], _, _, h => by simp at h
  | x :: l, y :: l', h1, h2, h => by
    rw [List.map_cons, List.map_cons, List.cons.injEq] at h
    rw [hf x y (h1 x (by simp)) (h2 y (by simp)) h.1, map_inj_on hf (fun z hz => h1 z (by simp [hz])) (fun z hz => h2 z (by simp [hz])) h.2]

/-- C83. Requests are lost without a warning. `K` lists the supercells with the compositions and `V` the requests that a run writes to enum.in, one for all structures of each entry.
The run can be stopped with the first `j` of them in enum.in; the call made again comes to its end, and lists the structures of these requests only. -/
theorem C83_cut_requests (h : EnumInput text lat P0 b0 lo hi k T C) (ht : ExactTol P0 b0 hi tol) (t5 : tol.conc ∈ T) (hcnt : CountsAll tol lat P0 b0 lo hi C U cnt)
    (hfits : ∀ n, lo ≤ n → n ≤ hi → (countTable n (U n) (C n) (cnt n)).Fits) (hdel : ∀ n c, lo ≤ n → n ≤ hi → c ∈ C n → NoRandomSearch lat.arrowFractions c)
    {w w' : World} (hw : ∀ l, (w.listdir l).Perm l) (hsh : ∀ i l, ((w'.rnd i).shuffle l).Perm l) {a : Args} {lattice : Str} {d : Dir}
    (ha : SelectCall a lattice none none none) (hd : FreshDir lattice text d) (hout : lattice ≠ "enum.in".toList) :
    ∃ (K : List (ℕ × M3 ℤ × Conc)) (V : List ((ℕ × M3 ℤ × Conc) × ℕ)), K.Nodup ∧ (∀ n u c, (n, u, c) ∈ K ↔ lo ≤ n ∧ n ≤ hi ∧ u ∈ U n ∧ c ∈ C n) ∧
      (V.map (·.1)).Perm K ∧ (∀ x ∈ V, x.2 = cnt x.1.1 x.1.2.1 x.1.2.2) ∧
      ∀ j, 1 ≤ j → j ≤ V.length → ∃ x ∈ scriptStops w tol a d, ∃ (rows full : List EnumEntry) (d' : Dir), scriptEnum w' tol a x = (pure d' : Run Dir) ∧
        OutputSome lat P0 b0 lo hi C U cnt w'.now K (V.take j) d rows full d' := by
  obtain ⟨l, d1, K, Kl, hF, hKnd, hKm, hKl, hk, hpos, hpolya, hany, hs1, hs2, hd1t, hd1o⟩ := select_tables (sizes := none) h ht t5 hcnt hfits hw hd (by intro s hs; cases hs)
  have hsub : ∀ y ∈ Kl, y ∈ K := fun y hy => ((hKl y.1 y.2.1 y.2.2).mp hy).1
  have hsup : ∀ y ∈ K, y ∈ Kl := fun y hy => (hKl y.1 y.2.1 y.2.2).mpr ⟨hy, fun s hs => by cases hs⟩
  have hkl : ∀ y ∈ Kl, y.2.2.length = k := fun y hy => hk y (hsub y hy)
  have hres : Ftype.all = .shape → ∀ l, Restrict.none ≠ .concs l := by intro e; cases e
  set D := distribute (tablesOf l U C cnt) .none .all none w.draws with hD
  obtain ⟨f1, f2, -⟩ := C33_full_distribution (tablesOf l U C cnt) .none .all w.draws hF.ok hF.sizes hres
  rw [← hD] at f1 f2
  have hDpos : ∀ p ∈ D, 0 < available .all (entries .none (tablesOf l U C cnt)) p.1 := by
    intro p hp
    obtain ⟨e, hp0⟩ := (f2 p.1 p.2).mp hp
    rw [← e]; exact hp0
  have hkinj : ∀ x y : (ℕ × M3 ℤ × Conc) × ℕ, x.1 ∈ Kl → y.1 ∈ Kl → (keyOf x.1, x.2) = (keyOf y.1, y.2) → x = y := by
    intro x y hx hy e
    obtain ⟨e1, e2⟩ := Prod.mk.inj e
    unfold keyOf at e1
    simp only [Prod.mk.injEq, Option.some.injEq] at e1
    obtain ⟨h1, h2, h3⟩ := e1
    have : x.1.2.1 = y.1.2.1 := by rw [← (hF.full x.1 hx).1, h2, (hF.full y.1 hy).1]
    exact Prod.ext (Prod.ext h1 (Prod.ext this h3)) e2
  obtain ⟨V, hV, hVK, -⟩ := requests_ok hF hkl hDpos
  have hmemV : ∀ x ∈ V, x.2 = cnt x.1.1 x.1.2.1 x.1.2.2 := by
    intro x hx
    have h1 : (keyOf x.1, x.2) ∈ D := by rw [hV]; exact List.mem_map_of_mem (f := fun x => (keyOf x.1, x.2)) hx
    rw [((f2 _ _).mp h1).1]
    exact hF.avail x.1 (hVK x hx)
  have hVnd : (V.map (·.1)).Nodup := by
    rw [hV, List.map_map] at f1
    have h2 : (V.map (·.1)).map keyOf = V.map ((fun x : DKey × ℕ => x.1) ∘ fun x => (keyOf x.1, x.2)) := by rw [List.map_map]; rfl
    rw [← h2] at f1
    exact f1.of_map
  refine ⟨K, V, hKnd, hKm, ?_, hmemV, ?_⟩
  · refine (List.perm_ext_iff_of_nodup hVnd hKnd).mpr (fun y => ?_)
    constructor
    · intro hy
      obtain ⟨x, hx, rfl⟩ := List.mem_map.mp hy
      exact hsub _ (hVK x hx)
    · intro hy
      have h1 : (keyOf y, cnt y.1 y.2.1 y.2.2) ∈ D := (f2 _ _).mpr ⟨(hF.avail y (hsup y hy)).symm, hpos y hy⟩
      rw [hV] at h1
      obtain ⟨x, hx, e⟩ := List.mem_map.mp h1
      have := hkinj x (y, cnt y.1 y.2.1 y.2.2) (hVK x hx) (hsup y hy) e
      rw [this] at hx
      exact List.mem_map_of_mem (f := fun x => x.1) hx
  intro j j1 j2
  -- the part of enum.in
  obtain ⟨V', hV', hVK', hread⟩ := requests_ok hF hkl (D := D.take j) (fun p hp => hDpos p (List.mem_of_mem_take hp))
  have hVj : V' = V.take j := by
    refine map_inj_on (S := fun x => x.1 ∈ Kl) hkinj hVK' (fun x hx => hVK x (List.mem_of_mem_take hx)) ?_
    rw [← hV', hV, List.map_take]
  subst hVj
  have hprefix : printDist .all (D.take j) <+: printDist .all D := by
    have hgen : ∀ A B : List ((ℕ × HNF6 × Conc) × ℕ), printAll A <+: printAll (A ++ B) := by
      intro A B
      unfold printAll
      rw [List.flatMap_append, ← List.append_assoc]
      exact List.prefix_append _ _
    have h3 := hgen ((D.take j).map (fun p => ((p.1.1, p.1.2.1.getD [], p.1.2.2.getD []), p.2))) ((D.drop j).map (fun p => ((p.1.1, p.1.2.1.getD [], p.1.2.2.getD []), p.2)))
    rw [← List.map_append, List.take_append_drop] at h3
    exact h3
  have hpy : distributePy (tablesOf l U C cnt) .none .all ((none : Option ℤ).map Int.toNat) w.draws =
      .ok (distribute (tablesOf l U C cnt) .none .all ((none : Option ℤ).map Int.toNat) w.draws) := by
    apply distributePy_pos _ _ hF.ok hF.sizes
    intro e he
    rw [hF.list] at he
    obtain ⟨y, hy, rfl⟩ := List.mem_map.mp he
    exact hpos y (hsub y hy)
  have hmake := makeEnumIn_select (filter := none) (res := .none) hs1 hs2 rfl hpy a.savedist
  have hdist : a.distribution.getD ["all".toList, "all".toList] = ["all".toList, "all".toList] := by
    rcases ha.distribution with ⟨e, h | h⟩ | ⟨n, e, h⟩
    · rw [h]; rfl
    · rw [h]; rfl
    · cases e
  have hreadlat : readLat d a.lattice = .ok lat := by
    unfold readLat readFile
    rw [ha.lattice, hd.text]
    exact h.read
  have hstop : dictSet d1 "enum.in".toList (printDist .all (D.take j)) ∈ scriptStops w tol a d := by
    rw [scriptStops_enum (selectCall_enum ha)]
    refine Or.inr ⟨lat, hreadlat, Or.inl ⟨by rw [hd.noEnumIn]; rfl, Or.inr ⟨d1, ?_, ?_⟩⟩⟩
    · rw [like_of_numbered hd.noPolya, if_neg (by simp), ha.lattice]
      exact hpolya
    · rw [hdist]
      refine Or.inr (Or.inr ⟨d1, "all".toList, "all".toList, none, by rw [hany, if_pos rfl], rfl, rfl, by rw [show lowerStr "all".toList = "all".toList by decide, if_pos rfl], ?_⟩)
      rw [show lowerStr "all".toList = "all".toList by decide, ha.sizes, ha.filter]
      exact Or.inr ⟨Or.inl rfl, _, _, _, hmake, (by rw [dictGet_set, if_pos rfl]; rw [hD]; rfl), hprefix, rfl⟩
  have hVne : V.take j ≠ [] := by
    intro e
    have := congrArg List.length e
    rw [List.length_take, List.length_nil] at this
    omega
  obtain ⟨rows, full, r1, r2, -⟩ := loop_some_all h ht hcnt hdel hsh hKnd hKm (V := V.take j) (by rw [List.map_take]; exact hVnd.sublist (List.take_sublist _ _))
    (fun x hx => hsub _ (hVK x (List.mem_of_mem_take hx)))
  refine ⟨_, hstop, rows, full, _, ?_, output_some r2 hread hd1t hd1o⟩
  have e1 : readLat (dictSet d1 "enum.in".toList (printDist .all (D.take j))) a.lattice = .ok lat := by
    rw [← hreadlat]
    refine readLat_congr ?_
    rw [ha.lattice, dictGet_set, if_neg hout, hd1o _ (fun n _ _ => lattice_not_table hd n)]
  rw [scriptEnum_enum (selectCall_enum ha), enumOut_eq, e1, runPy_ok, pure_bind, dictGet_set, if_pos rfl, Option.isSome_some, if_pos rfl, pure_bind]
  unfold finish
  have e2 : (do let s ← readFile (dictSet d1 "enum.in".toList (printDist .all (D.take j))) "enum.in".toList; readEnum s) = .ok ((V.take j).map sysOfRequest) := by
    unfold readFile
    rw [dictGet_set, if_pos rfl]
    exact hread
  rw [e2, runPy_ok, pure_bind]
  unfold enumWrite
  rw [h.geometry, runPy_ok, pure_bind, ha.super, ha.accept, show Option.isSome (none : Option ℚ) = false from rfl, r1, pure_bind, if_neg (by simpa using hVne)]

end

/-! ## with the tolerances of the code -/

section
variable {text : Str} {lat : LatticeIn} {P0 : Matrix (Fin 3) (Fin 3) ℚ} {b0 : List (Fin 3 → ℚ)} {lo hi k : ℕ}

/-- C83. Lost sizes with the tolerances of the code, without restrictions: `k` species and at most `N` atoms per supercell with `k^N` at most 100000. -/
theorem C83_lost_sizes_free (h : CrystalInput text lat P0 b0 lo hi k) (hfree : lat.restricted = false) (hsize : b0.length * hi ≤ 20) (hN : k ^ (b0.length * hi) ≤ 100000)
    {K K' : ℝ} {g D : ℕ} (hc : Coarse (realMat P0) (realVecs b0) K K' g D (1 / 10 ^ 7)) :
    ∃ (U : ℕ → List (M3 ℤ)) (cnt : ℕ → M3 ℤ → Conc → ℕ), CountsAll shippedTol lat P0 b0 lo hi (fun n => concsFree n k b0.length) U cnt ∧
      RunLosesSizes shippedTol text lat P0 b0 lo hi (fun n => concsFree n k b0.length) U cnt := by
  have hal : lat.arrowFractions = List.replicate lat.nspecies.toNat 0 := by
    unfold LatticeIn.arrowFractions getArrowConcs
    rw [hfree]; rfl
  have harr : lat.arrowFractions.sum = 0 ∨ b0.length * hi < 12 := Or.inl (by rw [hal]; simp)
  have hin := free_input h hfree (lt_of_le_of_lt (size_hi h hsize) (by norm_num))
  have ht := coarse_exact h.cell.det hc (size_hi h hsize)
  obtain ⟨U, cnt, hcnt, -⟩ := every_structure_once_at hin ht (Set.mem_univ _)
  obtain ⟨h1, -⟩ := small_ok hin hsize harr hcnt
  refine ⟨U, cnt, hcnt, lost_at hin ht (Set.mem_univ _) hcnt h1 (fun n c a b hc => ?_)⟩
  obtain ⟨c1, c2⟩ := (hin.concs n a b).2.2 c hc
  exact no_random_search hin.fractions.2 (by have := hin.species.1; omega) c1 (by rw [c2]; exact Nat.mul_le_mul_left _ b) hN harr

end

/-- Every run that comes to its end can be stopped when enum.in is complete and enum.out has just been opened. -/
theorem stop_before_rows {a : Args} (ha : EnumCall a) {w : World} {tol : Tol} {d d' : Dir} (hrun : scriptEnum w tol a d = (pure d' : Run Dir)) :
    ∃ x ∈ scriptStops w tol a d, dictGet x "enum.in".toList = dictGet d' "enum.in".toList ∧ dictGet x "enum.out".toList = some [] := by
  rw [scriptEnum_enum ha, enumOut_eq] at hrun
  obtain ⟨lat, h0, hrun⟩ := run_bind_ok hrun
  obtain ⟨d2, h1, h2⟩ := run_bind_ok hrun
  unfold finish at h2
  obtain ⟨systems, h3, h4⟩ := run_bind_ok h2
  obtain ⟨text, ht⟩ := enumWrite_result h4
  have hne : "enum.in".toList ≠ "enum.out".toList := by decide
  refine ⟨dictSet d2 "enum.out".toList [], ?_, ?_, ?_⟩
  · rw [scriptStops_enum ha]
    refine Or.inr ⟨lat, runPy_eq_pure h0, Or.inr ⟨d2, systems, ?_, runPy_eq_pure h3, Or.inr (Or.inr ⟨d', text, [], h4, ?_, List.nil_prefix, rfl⟩)⟩⟩
    · exact h1
    · rw [ht, dictGet_set, if_pos rfl]
  · rw [ht, dictGet_set, dictGet_set, if_neg hne, if_neg hne]
  · rw [dictGet_set, if_pos rfl]

/-! ## examples: simple cubic, two species, one or two atoms in the cell -/

/-- C83: the run stopped after the table of size 1 and repeated lists only the structures with one atom. -/
example : ∃ x ∈ scriptStops scWorld shippedTol (selectArgs none none) scDir, ∃ (rows : List EnumEntry) (d' : Dir),
    scriptEnum scWorld shippedTol (selectArgs none none) x = (pure d' : Run Dir) ∧
    dictGet d' "enum.out".toList = some (enumOutFile (scLat.enumParams (Matrix.of ![![1, 0, 0], ![0, 1, 0], ![0, 0, 1]], [![0, 0, 0]])) scWorld.now rows) ∧
    ListsAll 1 [0] 1 1 (fun n => concsFree n 2 1) scLat.arrowFractions rows := by
  obtain ⟨U, cnt, -, h2⟩ := C83_lost_sizes_free sc_crystal rfl (by simp) (by simp) (decimal_coarse sc_decimal)
  obtain ⟨x, hx, -, -, rows, d', r1, r2, r3⟩ := h2 scWorld scWorld (selectArgs none none) "lattice.in".toList scDir 1 (fun l => List.Perm.refl _) (fun i l => List.Perm.refl _)
    (selectArgs_call none none) scDir_call (le_refl _) (by norm_num) ⟨1, [0, 1], le_refl _, le_refl _, by
      show [0, 1] ∈ concsFree 1 2 1
      rw [(C25_concs_complete 1 2 1).2]; decide⟩
  rw [realVecs_zero, realMat_sc] at r3
  exact ⟨x, hx, rows, d', r1, r2, r3⟩

/-- C83: the run stopped when the table of size 2 has been opened makes every later run stop with an IndexError; enum.in can be cut after its first request; a run stopped when enum.out
has been opened is finished by the next call; and after any of these stops starting over gives what the first run would have given. -/
example : (∃ x ∈ scriptStops scWorld shippedTol (selectArgs none none) scDir, dictGet x "polya.out.2".toList = some [] ∧
      scriptEnum scWorld shippedTol (selectArgs none none) x = (throw .indexError : Run Dir)) ∧
    (∃ x ∈ scriptStops scWorld shippedTol (selectArgs none none) scDir, ∃ d', scriptEnum scWorld shippedTol (selectArgs none none) scDir = (pure d' : Run Dir) ∧
      dictGet x "enum.out".toList = some [] ∧ scriptEnum scWorld shippedTol (selectArgs none none) x = (pure d' : Run Dir)) ∧
    (∀ x ∈ scriptStops scWorld shippedTol (selectArgs none none) scDir, dictGet x "notes.txt".toList = some [] ∧
      (do let e ← scriptEnum scWorld shippedTol (asPolya (selectArgs none none)) (cleaned x); scriptEnum scWorld shippedTol (selectArgs none none) e) =
        scriptEnum scWorld shippedTol (selectArgs none none) (cleaned scDir)) := by
  obtain ⟨U, cnt, h1, h2⟩ := sc_select
  have hin := free_input sc_crystal rfl (by norm_num)
  have ht := coarse_exact (hi := 2) sc_crystal.cell.det (decimal_coarse sc_decimal) (by norm_num)
  have ha := selectCall_enum (selectArgs_call none none)
  have hl : "lattice.in".toList ≠ "enum.in".toList ∧ "lattice.in".toList ≠ "enum.out".toList ∧ ¬ "polya.out.".toList <+: "lattice.in".toList := by decide
  refine ⟨?_, ?_, ?_⟩
  · obtain ⟨x, x1, x2, -, x3⟩ := C83_opened_table hin (Set.mem_univ _) h1 (small_ok hin (by simp) (Or.inr (by norm_num)) h1).1 (w := scWorld) (w' := scWorld) (fun l => List.Perm.refl _)
      (selectArgs_call none none) scDir_call (m := 2) (by norm_num) (le_refl _)
    exact ⟨x, x1, by rw [show "polya.out.2".toList = "polya.out.".toList ++ natStr 2 by decide +kernel]; exact x2, x3⟩
  · obtain ⟨u, hu⟩ := counts_nonempty hin ht h1 (n := 2) (by norm_num) (le_refl _)
    obtain ⟨rows, d', r1, -⟩ := select_all h2 (w := scWorld) (fun l => List.Perm.refl _) (fun i l => List.Perm.refl _) (fun _ => le_refl _) (selectArgs_call none none) scDir_call
      (ok := fun _ _ => True) (Or.inl ⟨rfl, fun _ _ => trivial⟩) (fun s hs => nomatch hs) ⟨2, u, [1, 1], by norm_num, le_refl _, hu, half_mem, ⟨(fun s hs => nomatch hs), trivial⟩⟩
    obtain ⟨x, x1, x2, x3⟩ := stop_before_rows ha r1
    exact ⟨x, x1, d', r1, x3, C83_resume ha ⟨rfl, rfl⟩ hl r1 x1 x2⟩
  · intro x hx
    have hh : History shippedTol "lattice.in".toList scDir x := .run scWorld (selectArgs none none) ha rfl .start hx
    refine ⟨?_, C83_start_over ha hl scDir_fresh.1 hh scWorld⟩
    rw [(C83_other_files hl scDir_fresh hh).1 _ (by decide) (by decide) (fun s _ e => ?_)]
    · rfl
    · have := congrArg List.head? e
      rw [List.head?_append, show "polya.out.".toList.head? = some 'p' by decide, Option.some_or] at this
      exact absurd this (by decide)

/-- C83: enum.in cut after its first request. -/
example : ∃ (V : List ((ℕ × M3 ℤ × Conc) × ℕ)), V ≠ [] ∧ ∃ x ∈ scriptStops scWorld shippedTol (selectArgs none none) scDir, ∃ (d' : Dir),
    scriptEnum scWorld shippedTol (selectArgs none none) x = (pure d' : Run Dir) := by
  obtain ⟨U, cnt, h1, h2⟩ := sc_select
  have hin := free_input sc_crystal rfl (by norm_num)
  have ht := coarse_exact (hi := 2) sc_crystal.cell.det (decimal_coarse sc_decimal) (by norm_num)
  obtain ⟨u, hu⟩ := counts_nonempty hin ht h1 (n := 2) (by norm_num) (le_refl _)
  obtain ⟨K, V, k1, k2, k3, k4, k5⟩ := C83_cut_requests hin ht (Set.mem_univ _) h1 (small_ok hin (by simp) (Or.inr (by norm_num)) h1).1 (by
    intro n c a b hc
    obtain ⟨c1, c2⟩ := (hin.concs n a b).2.2 c hc
    exact no_random_search hin.fractions.2 (by norm_num) c1 (N := 2) (by rw [c2]; simpa using b) (by norm_num) (Or.inr (by norm_num)))
    (w := scWorld) (w' := scWorld) (fun l => List.Perm.refl _) (fun i l => List.Perm.refl _) (selectArgs_call none none) scDir_call (by decide)
  have hV : V ≠ [] := by
    rintro rfl
    have : (2, u, [1, 1]) ∈ K := (k2 _ _ _).mpr ⟨by norm_num, le_refl _, hu, half_mem⟩
    rw [← k3.mem_iff] at this
    simp at this
  obtain ⟨x, x1, rows, full, d', r1, -⟩ := k5 1 (le_refl _) (List.length_pos_of_ne_nil hV)
  exact ⟨V, hV, x, x1, d', r1⟩

end Phenum
