import Verif.Proof.ProgramSome
import Verif.Proof.FloatParts
import Verif.Props.Tolerance
import Verif.Proof.ContentsScale
import Verif.Proof.Periods
/-
C75: the command line program asked for a number of structures, `enumeration.py -enum -distribution all N -super`.
-/
namespace Phenum
open Spec

/-- `enumeration.py -enum -distribution all n -lattice lattice`, with or without `-super`. -/
structure NumberCall (a : Args) (lattice : Str) (supers : Bool) (n : ℕ) : Prop where
  polya : a.polya = false
  enum : a.enum = true
  lattice : a.lattice = lattice
  input : a.input = none
  outfile : a.outfile = none
  distribution : a.distribution = some ["all".toList, natStr n]
  sizes : a.sizes = none
  super : a.super = supers
  accept : a.accept = none
  filter : a.filter = none

/-- The structures of composition `c` are not searched for at random, however few are wanted: there are at most 100000 labellings, and
fewer than 12 sites if there are arrows. -/
def Spec.NoRandomSearch (aconcs : List ℚ) (c : Conc) : Prop :=
  c.sum.factorial / (c.map Nat.factorial).prod ≤ 100000 ∧ (NoArrows aconcs c ∨ c.sum < 12)

/-- What is requested when `n` structures are wanted, `K` being the supercells with the compositions and `cnt x` the number of structures of `x`:
`V` lists supercells with compositions, each once, with the positive numbers requested. If `n` or fewer structures exist all are requested. Otherwise
the number requested of `x` is at most four times the share of `x` in `n`, rounded up; in total the requests miss `n` by less
than the number of entries of `K` and exceed it by less than the largest share rounded up. If all shares are whole numbers the requests
are the shares, `n` in total. -/
structure Spec.RequestsOk (K : List (ℕ × M3 ℤ × Conc)) (cnt : ℕ × M3 ℤ × Conc → ℕ) (n : ℕ) (V : List ((ℕ × M3 ℤ × Conc) × ℕ)) : Prop where
  nodup : (V.map (·.1)).Nodup
  mem : ∀ x ∈ V, x.1 ∈ K ∧ 0 < x.2
  all : (K.map cnt).sum ≤ n → ∀ x v, (x, v) ∈ V ↔ x ∈ K ∧ v = cnt x
  share : n < (K.map cnt).sum → ∀ x ∈ V, x.2 ≤ 4 * ⌈(n : ℚ) * cnt x.1 / (K.map cnt).sum⌉₊
  lower : n < (K.map cnt).sum → n ≤ (V.map (·.2)).sum + (K.length - 1)
  upper : n < (K.map cnt).sum → ∀ M, (∀ x ∈ K, cnt x ≤ M) → (V.map (·.2)).sum ≤ (n - 1) + ⌈(n : ℚ) * M / (K.map cnt).sum⌉₊
  whole : 0 < n → n ≤ (K.map cnt).sum → (∀ x ∈ K, (K.map cnt).sum ∣ n * cnt x) →
    (∀ x v, (x, v) ∈ V ↔ x ∈ K ∧ v * (K.map cnt).sum = n * cnt x) ∧ (V.map (·.2)).sum = n

/-- What a run writes that lists structures as requested by `V`, `K` being the supercells with the compositions: enum.in holds the requests; the rows of enum.out are all
different and are part of a list `full` of all structures, each once; of each request for `v` structures `delivered v total` are listed: `v`,
if there are as many (and fewer than a million), and otherwise all. -/
def Spec.OutputSome (lat : LatticeIn) (P0 : Matrix (Fin 3) (Fin 3) ℚ) (b0 : List (Fin 3 → ℚ)) (lo hi : ℕ) (C : ℕ → List Conc)
    (U : ℕ → List (M3 ℤ)) (cnt : ℕ → M3 ℤ → Conc → ℕ) (now : Str) (K : List (ℕ × M3 ℤ × Conc)) (V : List ((ℕ × M3 ℤ × Conc) × ℕ)) (d : Dir)
    (rows full : List EnumEntry) (d' : Dir) : Prop :=
  dictGet d' "enum.out".toList = some (enumOutFile (lat.enumParams (P0, b0)) now rows) ∧
  rows.Nodup ∧ (∀ row ∈ rows, row ∈ full) ∧ ListsAll (realMat P0) (realVecs b0) lo hi C lat.arrowFractions full ∧
  full.length = (K.map (fun x => cnt x.1 x.2.1 x.2.2)).sum ∧
  rows.length = (V.map (fun x => delivered x.2 (cnt x.1.1 x.1.2.1 x.1.2.2))).sum ∧
  (∃ blocks : List (List EnumEntry), rows = blocks.flatten ∧
    List.Forall₂ (fun (x : (ℕ × M3 ℤ × Conc) × ℕ) B => B.length = delivered x.2 (cnt x.1.1 x.1.2.1 x.1.2.2) ∧ ∀ row ∈ B,
      row.size = (x.1.1 : ℤ) ∧ row.hnf = hnfNumbers x.1.2.1 ∧ ∃ ψ, RowDescribes (realMat P0) (realVecs b0) row ψ ∧
        PeriodicOn (CrystalSites (ColLattice (realMat P0).transpose) (realVecs b0)) (rowLattice (realMat P0) row) ψ ∧
        HasContents (CrystalSites (ColLattice (realMat P0).transpose) (realVecs b0)) (rowLattice (realMat P0) row) (b0.length * x.1.1)
          (Composed x.1.2.2 lat.arrowFractions 6) ψ) V blocks) ∧
  (∃ s, dictGet d' "enum.in".toList = some s ∧
    readEnum s = .ok (V.map (fun x => (hnfNumbers x.1.2.1, x.1.2.2.map (fun c : ℕ => (c : ℤ)), (x.2 : ℤ))))) ∧
  (∀ n, lo ≤ n → n ≤ hi → dictGet d' ("polya.out.".toList ++ natStr n) = some (writePolya (countTable n (U n) (C n) (cnt n)))) ∧
  ∀ f, f ≠ "enum.out".toList → f ≠ "enum.in".toList → (∀ n, lo ≤ n → n ≤ hi → f ≠ "polya.out.".toList ++ natStr n) → dictGet d' f = dictGet d f

/-- The program asked for `n` structures in a directory with the file lattice.in and no results of earlier runs, whatever the order of the directory listing and the
random numbers: the requests `V` are as above; if all random numbers are at least as large as the shares nothing is requested. If there are no requests the program stops with a NameError. Otherwise it finishes with the files of
`OutputSome`. -/
def Spec.RunListsSome (tol : Tol) (text : Str) (lat : LatticeIn) (P0 : Matrix (Fin 3) (Fin 3) ℚ) (b0 : List (Fin 3 → ℚ)) (lo hi : ℕ) (C : ℕ → List Conc)
    (U : ℕ → List (M3 ℤ)) (cnt : ℕ → M3 ℤ → Conc → ℕ) : Prop :=
  ∀ (w : World) (a : Args) (lattice : Str) (d : Dir) (n : ℕ), (∀ l, (w.listdir l).Perm l) → (∀ i l, ((w.rnd i).shuffle l).Perm l) → (∀ i, 0 ≤ w.draws i) →
      NumberCall a lattice true n → FreshDir lattice text d →
    ∃ (K : List (ℕ × M3 ℤ × Conc)) (V : List ((ℕ × M3 ℤ × Conc) × ℕ)),
      K.Nodup ∧ (∀ n u c, (n, u, c) ∈ K ↔ lo ≤ n ∧ n ≤ hi ∧ u ∈ U n ∧ c ∈ C n) ∧
      RequestsOk K (fun x => cnt x.1 x.2.1 x.2.2) n V ∧
      ((∀ i, w.draws i < 1 ∧ ∀ x ∈ K, (n : ℚ) * cnt x.1 x.2.1 x.2.2 ≤ w.draws i * ((K.map (fun x => cnt x.1 x.2.1 x.2.2)).sum : ℕ)) → V = []) ∧
      (V = [] → scriptEnum w tol a d = (throw .nameError : Run Dir)) ∧
      (V ≠ [] → ∃ (rows full : List EnumEntry) (d' : Dir), scriptEnum w tol a d = (pure d' : Run Dir) ∧
        OutputSome lat P0 b0 lo hi C U cnt w.now K V d rows full d')

/-! ## the call -/

theorem number_names {a : Args} {lattice : Str} {supers : Bool} {n : ℕ} (ha : NumberCall a lattice supers n) :
    fileNames a = (some "enum.in".toList, some "enum.out".toList) := by
  unfold fileNames
  simp [ha.polya, ha.enum, ha.input, ha.outfile, ha.distribution]

theorem number_check {a : Args} {lattice : Str} {supers : Bool} {n : ℕ} (ha : NumberCall a lattice supers n) (d : Dir) : checkArgs a d = .ok () := by
  unfold checkArgs
  simp [ha.polya, ha.accept, ha.distribution]

theorem lower_natStr (n : ℕ) : lowerStr (natStr n) ≠ "all".toList := by
  have h : lowerStr (natStr n) = natStr n := by
    unfold lowerStr
    conv_rhs => rw [← List.map_id (natStr n)]
    exact List.map_congr_left (fun c hc => toLower_digit (natStr_digits n c hc))
  rw [h]
  intro e
  have : 'a' ∈ natStr n := by rw [e]; decide
  have := natStr_digits n _ this
  revert this
  decide

/-- the call of the distribution -/
theorem number_enumIn {w : World} {tol : Tol} {a : Args} {lattice : Str} {supers : Bool} {n : ℕ} (ha : NumberCall a lattice supers n) {d1 : Dir}
    (hany : anyNumbered d1 "polya.out".toList = true) {s : Str}
    (hmake : makeEnumIn w "polya.out".toList "all".toList "enum.in".toList (some (n : ℤ)) none a.savedist none d1 = .ok (dictSet d1 "enum.in".toList s)) :
    enumIn w tol a "polya.out".toList "enum.in".toList ["all".toList, natStr n] d1 = (pure (dictSet d1 "enum.in".toList s) : Run _) := by
  unfold enumIn
  rw [hany]
  simp only [if_true, pure_bind]
  rw [show pyGet ["all".toList, natStr n] 0 = .ok "all".toList from rfl, show pyGet ["all".toList, natStr n] 1 = .ok (natStr n) from rfl]
  simp only [runPy_ok, pure_bind]
  rw [if_neg (lower_natStr n), strip_word (natStr_word n), parseInt_natStr, show (Except.map some (Except.ok (n : ℤ)) : Py _) = .ok (some (n : ℤ)) from rfl,
    runPy_ok, pure_bind, ha.sizes, ha.filter, Option.map_none, show lowerStr "all".toList = "all".toList by decide, hmake, runPy_ok]

/-- the run of the program from the requests on -/
theorem number_run {w : World} {tol : Tol} {a : Args} {lattice text : Str} {supers : Bool} {n : ℕ} (ha : NumberCall a lattice supers n) {d d1 : Dir}
    (hd : FreshDir lattice text d) {lat : LatticeIn} (hlat : readLattice text = .ok lat)
    (hpolya : polyaOut tol lattice "polya.out".toList d = (pure d1 : Run _)) (hany : anyNumbered d1 "polya.out".toList = true) {s : Str}
    (hmake : makeEnumIn w "polya.out".toList "all".toList "enum.in".toList (some (n : ℤ)) none a.savedist none d1 = .ok (dictSet d1 "enum.in".toList s))
    {sys : List (List ℤ × List ℤ × ℤ)} (hread : readEnum s = .ok sys) :
    scriptEnum w tol a d = enumWrite w tol lat supers false "enum.out".toList sys (dictSet d1 "enum.in".toList s) := by
  have hout : enumOut w tol a "enum.in".toList "enum.out".toList d =
      enumWrite w tol lat supers false "enum.out".toList sys (dictSet d1 "enum.in".toList s) := by
    unfold enumOut
    rw [ha.lattice]
    unfold readFile
    rw [hd.text]
    have e1 : (do let s ← (Except.ok text : Py Str); readLattice s) = .ok lat := hlat
    rw [e1, runPy_ok, pure_bind, hd.noEnumIn, like_of_numbered hd.noPolya]
    simp only [Option.isSome_none, Bool.false_eq_true, if_false]
    rw [hpolya, pure_bind, ha.distribution, Option.getD_some, number_enumIn ha hany hmake, pure_bind]
    have e2 : dictGet (dictSet d1 "enum.in".toList s) "enum.in".toList = some s := by rw [dictGet_set, if_pos rfl]
    rw [e2]
    have e3 : (do let s ← (Except.ok s : Py Str); readEnum s) = .ok sys := hread
    simp only
    rw [e3, runPy_ok, pure_bind, ha.super, ha.accept]
    rfl
  unfold scriptEnum
  rw [number_names ha, number_check ha]
  simp only [runPy_ok, pure_bind, ha.polya, ha.enum, ha.distribution, Option.getD_some, if_true, Bool.false_eq_true, if_false, hout]
  simp

/-- if the random numbers are at least as large as the shares nothing is assigned -/
theorem recount_nothing {n g : ℕ} {rel : List (DKey × ℕ)} (h : ∀ p ∈ rel, share n g p.2 < 1) : ∀ (m : ℕ) (draws : ℕ → ℚ),
    (∀ p ∈ rel, ∀ i, share n g p.2 ≤ draws i) → recountLoop n g rel m draws (0, []) = (0, [])
  | 0, _, _ => rfl
  | m + 1, draws, hd => by
    rw [recountLoop]
    by_cases hn : 0 < n
    · rw [if_pos hn]
      have key : ∀ (L : List (DKey × ℕ)) (draws : ℕ → ℚ), (∀ p ∈ L, share n g p.2 < 1) → (∀ p ∈ L, ∀ i, share n g p.2 ≤ draws i) →
          (passLoop n n g L draws (0, [])).1 = (0, []) := by
        intro L
        induction L with
        | nil => intros; rfl
        | cons p L ih =>
          intro draws h1 h2
          have h0 : 0 ≤ share n g p.2 := by unfold share; positivity
          have e : drawCount (share n g p.2) (draws 0) = 0 := by
            unfold drawCount
            have hf : ⌊share n g p.2⌋ = 0 := Int.floor_eq_zero_iff.mpr ⟨h0, h1 p List.mem_cons_self⟩
            have hfr : Int.fract (share n g p.2) = share n g p.2 := Int.fract_eq_self.mpr ⟨h0, h1 p List.mem_cons_self⟩
            rw [hf, hfr, if_neg (not_lt.mpr (h2 p List.mem_cons_self 0))]
            rfl
          have e2 : vinsert p.1 (drawCount (share n g p.2) (draws 0)) n (0, []) = some (0, []) := by
            rw [e]
            unfold vinsert
            rw [if_pos hn, if_neg (lt_irrefl 0)]
          unfold passLoop
          rw [e2]
          exact ih _ (fun q hq => h1 q (List.mem_cons_of_mem _ hq)) (fun q hq i => h2 q (List.mem_cons_of_mem _ hq) _)
      simp only [Nat.sub_zero]
      rw [key rel draws h hd]
      exact recount_nothing h m _ (fun p hp i => hd p hp _)
    · rw [if_neg hn]

/-- the requests -/
theorem requests_some {l : List ℤ} {U : ℕ → List (M3 ℤ)} {C : ℕ → List Conc} {cnt : ℕ → M3 ℤ → Conc → ℕ} {K : List (ℕ × M3 ℤ × Conc)} {k : ℕ}
    (hF : TablesFacts l U C cnt K) (hk : ∀ x ∈ K, x.2.2.length = k) (hpos : ∀ x ∈ K, 1 ≤ cnt x.1 x.2.1 x.2.2) (n : ℕ) {draws : ℕ → ℚ} (hd : ∀ i, 0 ≤ draws i) :
    ∃ V : List ((ℕ × M3 ℤ × Conc) × ℕ), RequestsOk K (fun x => cnt x.1 x.2.1 x.2.2) n V ∧
      ((∀ i, draws i < 1 ∧ ∀ x ∈ K, (n : ℚ) * cnt x.1 x.2.1 x.2.2 ≤ draws i * ((K.map (fun x => cnt x.1 x.2.1 x.2.2)).sum : ℕ)) → V = []) ∧
      readEnum (printDist .all (distribute (tablesOf l U C cnt) .none .all (some n) draws)) = .ok (V.map sysOfRequest) := by
  set E := entries .none (tablesOf l U C cnt) with hE
  set D := distribute (tablesOf l U C cnt) .none .all (some n) draws with hD
  have hkinj : ∀ x ∈ K, ∀ y ∈ K, keyOf x = keyOf y → x = y := by
    intro x hx y hy h
    unfold keyOf at h
    simp only [Prod.mk.injEq, Option.some.injEq] at h
    obtain ⟨h1, h2, h3⟩ := h
    have : x.2.1 = y.2.1 := by rw [← (hF.full x hx).1, h2, (hF.full y hy).1]
    exact Prod.ext h1 (Prod.ext this h3)
  have hav : ∀ x ∈ K, available .all E (keyOf x) = cnt x.1 x.2.1 x.2.2 := hF.avail
  have htot : grandTotal E = (K.map (fun x => cnt x.1 x.2.1 x.2.2)).sum := hF.total
  have hres : Ftype.all = .shape → ∀ l, Restrict.none ≠ .concs l := by intro h; cases h
  have hM : ∀ key M, (∀ x ∈ K, cnt x.1 x.2.1 x.2.2 ≤ M) → available .all E key ≤ M := by
    intro key M h
    rcases Nat.eq_zero_or_pos (available .all E key) with h0 | h0
    · omega
    · obtain ⟨x, hx, rfl⟩ := hF.keys key h0
      rw [hav x hx]
      exact h x hx
  have hfull := C33_full_distribution (tablesOf l U C cnt) .none .all draws hF.ok hF.sizes hres
  have hDall : grandTotal E ≤ n → D = distribute (tablesOf l U C cnt) .none .all none draws :=
    fun h => C34_ample (tablesOf l U C cnt) .none .all draws hF.ok hF.sizes hres n h
  have hDsome := fun (h : n < grandTotal E) => C34_bounds (tablesOf l U C cnt) .none .all draws hF.ok hF.sizes hres hd n h
  have hDgood : (D.map (·.1)).Nodup ∧ ∀ p ∈ D, 0 < p.2 ∧ 0 < available .all E p.1 := by
    rcases Nat.lt_or_ge n (grandTotal E) with h | h
    · obtain ⟨h1, h2, -⟩ := hDsome h (K.map keyOf) (fun key hkey => by
        obtain ⟨x, hx, rfl⟩ := hF.keys key hkey
        exact List.mem_map_of_mem hx) _ (fun key => hM key _ (fun x hx => List.single_le_sum (by simp) _ (List.mem_map_of_mem hx)))
      exact ⟨h1, fun p hp => ⟨(h2 p hp).1, (h2 p hp).2.1⟩⟩
    · rw [hDall h]
      refine ⟨hfull.1, fun p hp => ?_⟩
      obtain ⟨e, hp0⟩ := (hfull.2.1 p.1 p.2).mp hp
      exact ⟨hp0, by rw [← hE] at e; rw [← e]; exact hp0⟩
  obtain ⟨V, hV, hVK, hread⟩ := requests_ok hF hk (D := D) (fun p hp => (hDgood.2 p hp).2)
  have hmemV : ∀ x ∈ K, ∀ v, (x, v) ∈ V ↔ (keyOf x, v) ∈ D := by
    intro x hx v
    rw [hV, List.mem_map]
    constructor
    · exact fun h => ⟨(x, v), h, rfl⟩
    · rintro ⟨y, hy, e⟩
      have e1 := hkinj _ (hVK y hy) _ hx (congrArg Prod.fst e)
      have e2 : y.2 = v := congrArg Prod.snd e
      have : y = (x, v) := Prod.ext e1 e2
      exact this ▸ hy
  have hsum : (V.map (·.2)).sum = (D.map (·.2)).sum := by
    rw [hV, List.map_map]; rfl
  refine ⟨V, ⟨?_, ?_, ?_, ?_, ?_, ?_, ?_⟩, ?_, hread⟩
  · have := hDgood.1
    rw [hV, List.map_map] at this
    have h2 : (V.map (·.1)).map keyOf = V.map ((fun x : DKey × ℕ => x.1) ∘ fun x => (keyOf x.1, x.2)) := by rw [List.map_map]; rfl
    rw [← h2] at this
    exact this.of_map
  · intro x hx
    refine ⟨hVK x hx, ?_⟩
    exact (hDgood.2 (keyOf x.1, x.2) ((hmemV x.1 (hVK x hx) x.2).mp hx)).1
  · intro hn x v
    rw [← htot] at hn
    constructor
    · intro h
      have hx := hVK _ h
      refine ⟨hx, ?_⟩
      have := (hmemV x hx v).mp h
      rw [hDall hn, hfull.2.1] at this
      rw [this.1]
      exact hav x hx
    · rintro ⟨hx, rfl⟩
      rw [hmemV x hx, hDall hn, hfull.2.1]
      exact ⟨(hav x hx).symm, hpos x hx⟩
  · intro hn x hx
    rw [← htot] at hn ⊢
    obtain ⟨-, h2, -⟩ := hDsome hn (K.map keyOf) (fun key hkey => by
      obtain ⟨x, hx, rfl⟩ := hF.keys key hkey
      exact List.mem_map_of_mem hx) _ (fun key => hM key _ (fun x hx => List.single_le_sum (by simp) _ (List.mem_map_of_mem hx)))
    have := (h2 _ ((hmemV x.1 (hVK x hx) x.2).mp hx)).2.2
    rw [← hE, hav _ (hVK x hx)] at this
    exact this
  · intro hn
    rw [← htot] at hn
    obtain ⟨-, -, h3, -⟩ := hDsome hn (K.map keyOf) (fun key hkey => by
      obtain ⟨x, hx, rfl⟩ := hF.keys key hkey
      exact List.mem_map_of_mem hx) _ (fun key => hM key _ (fun x hx => List.single_le_sum (by simp) _ (List.mem_map_of_mem hx)))
    rw [List.length_map] at h3
    rw [hsum]
    exact h3
  · intro hn M hMx
    rw [← htot] at hn ⊢
    obtain ⟨-, -, -, h4⟩ := hDsome hn (K.map keyOf) (fun key hkey => by
      obtain ⟨x, hx, rfl⟩ := hF.keys key hkey
      exact List.mem_map_of_mem hx) M (fun key => hM key M hMx)
    rw [hsum]
    exact h4
  · intro hn0 hn hw
    rw [← htot] at hn hw ⊢
    obtain ⟨h1, -, -, h4⟩ := C34_whole_shares (tablesOf l U C cnt) .none .all draws hF.ok hF.sizes hres hd n hn0 hn (by
      intro key
      rcases Nat.eq_zero_or_pos (available .all E key) with h0 | h0
      · rw [← hE, h0, Nat.mul_zero]; exact dvd_zero _
      · obtain ⟨x, hx, rfl⟩ := hF.keys key h0
        rw [← hE, hav x hx]
        exact hw x hx)
    refine ⟨?_, by rw [hsum]; exact h4⟩
    intro x v
    constructor
    · intro h
      have hx := hVK _ h
      have := ((h1 _ _).mp ((hmemV x hx v).mp h)).1
      rw [← hE, hav x hx] at this
      exact ⟨hx, this⟩
    · rintro ⟨hx, e⟩
      rw [hmemV x hx]
      refine (h1 _ _).mpr ⟨by rw [← hE, hav x hx]; exact e, ?_⟩
      rcases Nat.eq_zero_or_pos v with h0 | h0
      · subst h0
        have := Nat.mul_pos hn0 (hpos x hx)
        omega
      · exact h0
  · intro hdr
    by_cases hKne : K = []
    · rw [List.eq_nil_iff_forall_not_mem]
      intro x hx
      have := hVK x hx
      rw [hKne] at this
      simp at this
    rw [← htot] at hdr
    obtain ⟨r1, r2, r3, r4⟩ := relOk_tables (tablesOf l U C cnt) .none .all hF.ok hF.sizes hres
    obtain ⟨x0, hx0⟩ := List.exists_mem_of_ne_nil _ hKne
    have hG0 : 0 < grandTotal E := by
      rw [htot]
      exact lt_of_lt_of_le (hpos x0 hx0) (List.single_le_sum (by simp) _ (List.mem_map_of_mem hx0))
    have hG0' : (0 : ℚ) < (grandTotal E : ℕ) := by exact_mod_cast hG0
    have hdr1 : ∀ i, ∀ key, (n : ℚ) * available .all E key ≤ draws i * (grandTotal E : ℕ) := by
      intro i key
      rcases Nat.eq_zero_or_pos (available .all E key) with h0 | h0
      · rw [h0, Nat.cast_zero, mul_zero]
        exact mul_nonneg (hd i) hG0'.le
      · obtain ⟨x, hx, rfl⟩ := hF.keys key h0
        rw [hav x hx]
        exact (hdr i).2 x hx
    have hsh : ∀ key i, share n (grandTotal E) (available .all E key) ≤ draws i := by
      intro key i
      unfold share
      rw [div_mul_eq_mul_div, div_le_iff₀ hG0', mul_comm]
      exact hdr1 i key
    have hnlt : n < grandTotal E := by
      by_contra hge
      have h1 := (hdr 0).2 x0 hx0
      have h2 := (hdr 0).1
      have h3 : ((grandTotal E : ℕ) : ℚ) ≤ n := by exact_mod_cast not_lt.mp hge
      have h4 : (1 : ℚ) ≤ cnt x0.1 x0.2.1 x0.2.2 := by exact_mod_cast hpos x0 hx0
      nlinarith
    have : D = [] := by
      rw [hD]
      unfold distribute
      simp only
      rw [if_neg (show ¬ n > (distSummary (tablesOf l U C cnt) .none).2 by rw [r4]; exact not_lt.mpr hnlt.le), if_neg (by rw [r4]; exact hnlt.ne)]
      rw [recount_nothing]
      · intro p hp
        rw [r4]
        rw [r2 p ((sortShares_perm _ _ _).mem_iff.mp hp)]
        exact lt_of_le_of_lt (hsh _ 0) (hdr 0).1
      · intro p hp i
        rw [r4]
        rw [r2 p ((sortShares_perm _ _ _).mem_iff.mp hp)]
        exact hsh _ i
    rw [hV] at this
    exact List.map_eq_nil_iff.mp this

/-! ## the program -/

theorem sublist_flatMap {α β : Type} {l l' : List α} (h : l.Sublist l') (f : α → List β) : (l.flatMap f).Sublist (l'.flatMap f) := by
  induction h with
  | slnil => simp
  | cons a _ ih => rw [List.flatMap_cons]; exact ih.trans (List.sublist_append_right _ _)
  | cons_cons a _ ih => rw [List.flatMap_cons, List.flatMap_cons]; exact (List.Sublist.refl _).append ih

/-- the distribution over the tables of the run -/
theorem makeEnumIn_tables {w : World} {d1 : Dir} {l' : List ℤ} {tables : List PolyaTable} (h : sizesUsed w d1 "polya.out".toList none = .ok l' ∧
      readTables d1 "polya.out".toList l' = .ok tables ∧ ((distSummary tables .none).2 = 0 → relKeys (distSummary tables .none).1 .all = []))
    (number : Option ℤ) (save : Bool) :
    makeEnumIn w "polya.out".toList "all".toList "enum.in".toList number none save none d1 = .ok (dictSet d1 "enum.in".toList
      (printDist .all (distribute tables .none .all (number.map Int.toNat) w.draws))) := by
  obtain ⟨h1, h2, h3⟩ := h
  have hpy : distributePy tables .none .all (number.map Int.toNat) w.draws = .ok (distribute tables .none .all (number.map Int.toNat) w.draws) := by
    unfold distributePy
    rw [if_neg (fun hh => hh.2 (h3 hh.1))]
  unfold makeEnumIn
  rw [h1]
  show (do
    let res ← readRestrict d1 none
    let tables ← readTables d1 "polya.out".toList l'
    let ft ← ftypeOf "all".toList
    let distr ← distributePy tables res ft (number.map Int.toNat) w.draws
    if "all".toList = "all".toList ∨ save = true then .ok (dictSet d1 "enum.in".toList (printDist ft distr)) else .ok d1 : Py Dir) = _
  rw [show readRestrict d1 none = .ok .none from rfl, h2, show ftypeOf "all".toList = .ok .all from rfl]
  show (do
    let distr ← distributePy tables .none .all (number.map Int.toNat) w.draws
    if "all".toList = "all".toList ∨ save = true then .ok (dictSet d1 "enum.in".toList (printDist .all distr)) else .ok d1 : Py Dir) = _
  rw [hpy]
  show (if "all".toList = "all".toList ∨ save = true then (.ok (dictSet d1 "enum.in".toList (printDist .all (distribute tables .none .all (number.map Int.toNat) w.draws))) : Py Dir) else .ok d1) = _
  rw [if_pos (Or.inl rfl)]

theorem delivered_self (t : ℕ) : delivered t t = t := by
  unfold delivered
  split <;> rfl

/-- the rows written for requests -/
def RowsSome (lat : LatticeIn) (P0 : Matrix (Fin 3) (Fin 3) ℚ) (b0 : List (Fin 3 → ℚ)) (lo hi : ℕ) (C : ℕ → List Conc)
    (cnt : ℕ → M3 ℤ → Conc → ℕ) (K : List (ℕ × M3 ℤ × Conc)) (V : List ((ℕ × M3 ℤ × Conc) × ℕ)) (rows full : List EnumEntry) : Prop :=
  rows.Nodup ∧ (∀ row ∈ rows, row ∈ full) ∧ ListsAll (realMat P0) (realVecs b0) lo hi C lat.arrowFractions full ∧
  full.length = (K.map (fun x => cnt x.1 x.2.1 x.2.2)).sum ∧
  rows.length = (V.map (fun x => delivered x.2 (cnt x.1.1 x.1.2.1 x.1.2.2))).sum ∧
  (∃ blocks : List (List EnumEntry), rows = blocks.flatten ∧
    List.Forall₂ (fun (x : (ℕ × M3 ℤ × Conc) × ℕ) B => B.length = delivered x.2 (cnt x.1.1 x.1.2.1 x.1.2.2) ∧ ∀ row ∈ B,
      row.size = (x.1.1 : ℤ) ∧ row.hnf = hnfNumbers x.1.2.1 ∧ ∃ ψ, RowDescribes (realMat P0) (realVecs b0) row ψ ∧
        PeriodicOn (CrystalSites (ColLattice (realMat P0).transpose) (realVecs b0)) (rowLattice (realMat P0) row) ψ ∧
        HasContents (CrystalSites (ColLattice (realMat P0).transpose) (realVecs b0)) (rowLattice (realMat P0) row) (b0.length * x.1.1)
          (Composed x.1.2.2 lat.arrowFractions 6) ψ) V blocks)

/-- The systems of an arbitrary list of requests; of a supercell and composition of which all structures are requested, all rows are listed. -/
theorem loop_some_all {text : Str} {lat : LatticeIn} {P0 : Matrix (Fin 3) (Fin 3) ℚ} {b0 : List (Fin 3 → ℚ)} {lo hi k : ℕ} {T : Set ℚ}
    {C : ℕ → List Conc} (h : EnumInput text lat P0 b0 lo hi k T C) {tol : Tol} (ht : ExactTol P0 b0 hi tol)
    {U : ℕ → List (M3 ℤ)} {cnt : ℕ → M3 ℤ → Conc → ℕ} (hcnt : CountsAll tol lat P0 b0 lo hi C U cnt)
    (hdel : ∀ n c, lo ≤ n → n ≤ hi → c ∈ C n → NoRandomSearch lat.arrowFractions c) {w : World} (hsh : ∀ i l, ((w.rnd i).shuffle l).Perm l)
    {K : List (ℕ × M3 ℤ × Conc)} {V : List ((ℕ × M3 ℤ × Conc) × ℕ)} (hKnd : K.Nodup) (hKm : ∀ n u c, (n, u, c) ∈ K ↔ lo ≤ n ∧ n ≤ hi ∧ u ∈ U n ∧ c ∈ C n)
    (hVnd : (V.map (·.1)).Nodup) (hVm : ∀ x ∈ V, x.1 ∈ K) :
    ∃ rows full, enumLoop w tol lat true false 0 (V.map sysOfRequest) = (pure rows : Run _) ∧ RowsSome lat P0 b0 lo hi C cnt K V rows full ∧
      (∀ row ∈ full, ∃ x ∈ K, row.size = (x.1 : ℤ) ∧ row.hnf = hnfNumbers x.2.1 ∧ ∃ ψ, RowDescribes (realMat P0) (realVecs b0) row ψ ∧
        PeriodicOn (CrystalSites (ColLattice (realMat P0).transpose) (realVecs b0)) (rowLattice (realMat P0) row) ψ ∧
        HasContents (CrystalSites (ColLattice (realMat P0).transpose) (realVecs b0)) (rowLattice (realMat P0) row) (b0.length * x.1) (Composed x.2.2 lat.arrowFractions 6) ψ) ∧
      ∀ x ∈ V, x.2 = cnt x.1.1 x.1.2.1 x.1.2.2 → ∀ row ∈ full, row.size = (x.1.1 : ℤ) → row.hnf = hnfNumbers x.1.2.1 →
        (∃ ψ, RowDescribes (realMat P0) (realVecs b0) row ψ ∧
          HasContents (CrystalSites (ColLattice (realMat P0).transpose) (realVecs b0)) (rowLattice (realMat P0) row) (b0.length * x.1.1)
            (Composed x.1.2.2 lat.arrowFractions 6) ψ) → row ∈ rows := by
  classical
  set P := realMat P0 with hPdef
  set bas := realVecs b0 with hbdef
  have hbl : bas.length = b0.length := realVecs_length b0
  set aconcs := lat.arrowFractions with hadef
  set flag : Bool := decide (aconcs.sum ≠ 0) with hflag
  have hnoarr : flag = true ∨ ∀ c : Conc, NoArrows aconcs c := by
    by_cases h0 : aconcs.sum = 0
    · exact Or.inr (no_arrows h.fractions.2 h0)
    · left; rw [hflag]; simpa using h0
  have horig : flag = true ∨ bas.getD 0 0 = 0 := by
    rcases h.origin with h0 | h0
    · left; rw [hflag]; simpa using h0
    · exact Or.inr h0
  have hsm : ∀ x : ℝ, 0 < x → x * hi < 1 → ∀ n, n ≤ hi → x * n < 1 := by
    intro x hx hlt n hn
    have : (n : ℝ) ≤ hi := by exact_mod_cast hn
    nlinarith
  have hU : ∀ n, lo ≤ n → n ≤ hi → getHNFs n P bas 3 tol.hnf = some (.ok (U n)) ∧ (U n).Nodup ∧ (∀ u ∈ U n, u ∈ findAllHNFs n) ∧
      (∀ M : M3 ℤ, M.det = n ∨ M.det = -n → ∃! u, u ∈ U n ∧ ∃ R s, PSym (ColLattice P.transpose) bas R s ∧
        R.mulVec '' SupLat P M = SupLat P u) := by
    intro n a b
    obtain ⟨u1, u2, u3, -⟩ := hcnt n a b
    obtain ⟨U', v1, v2, v3, v4⟩ := hnf_calls_at h.cell n (le_trans h.lo_pos a) 3 (by norm_num) ht.hnf (hsm _ ht.hnf.pos ht.hnf_small n b)
    have e : U' = U n := Except.ok.inj (Option.some.inj (v1.symm.trans u1))
    subst e
    exact ⟨v1, v2, v3, v4⟩
  have key2 : ∀ n u, ∃ G G' snf, lo ≤ n → n ≤ hi → u ∈ U n → CellData P bas n tol.sym flag u G G' snf := by
    intro n u
    by_cases hn : (lo ≤ n ∧ n ≤ hi) ∧ u ∈ U n
    · obtain ⟨G, G', snf, hd⟩ := cell_data_at h.cell h.primitive (flag := flag) horig n (le_trans h.lo_pos hn.1.1) (lt_of_le_of_lt hn.1.2 h.hi_lt)
        ht.sym (hsm _ ht.sym.pos ht.sym_small n hn.1.2) u ((hU n hn.1.1 hn.1.2).2.2.1 u hn.2)
      exact ⟨G, G', snf, fun _ _ _ => hd⟩
    · exact ⟨[], [], ⟨0, 0, 0⟩, fun a b c => absurd ⟨⟨a, b⟩, c⟩ hn⟩
  choose G G' snf hG using key2
  have hbpos : 0 < bas.length := List.length_pos_iff.mpr h.cell.nonempty
  have hcs : ∀ n, lo ≤ n → n ≤ hi → ∀ c ∈ C n, c.length = k ∧ c.sum = bas.length * n ∧ 1 ≤ c.sum := by
    intro n a b c hc
    obtain ⟨c1, c2⟩ := (h.concs n a b).2.2 c hc
    rw [← hbl] at c2
    refine ⟨c1, c2, ?_⟩
    rw [c2]
    exact Nat.mul_pos hbpos (by have := h.lo_pos; omega)
  have hcount : ∀ n u c, lo ≤ n → n ≤ hi → u ∈ U n → c ∈ C n → 1 ≤ cnt n u c ∧ polyaCount (G n u) aconcs c = (pure (cnt n u c) : Run ℕ) ∧
      ∃ L, IsTransversal (Composed c aconcs 6) (OpEquiv (G n u)) L ∧ L.length = cnt n u c := by
    intro n u c a1 a2 a3 a4
    obtain ⟨-, -, -, u4⟩ := hcnt n a1 a2
    obtain ⟨G0, g1, -, -, -, g5⟩ := u4 u a3
    have e : G0 = G n u := Except.ok.inj (Option.some.inj (g1.symm.trans (hG n u a1 a2 a3).group))
    subst e
    exact g5 c a4
  have hcell : ∀ n u c (wanted nB : ℕ) (rnd : EnumRandom), lo ≤ n → n ≤ hi → u ∈ U n → c ∈ C n → (∀ l, (rnd.shuffle l).Perm l) →
      ∃ S T, enumSys (G' n u) c aconcs wanted nB true false rnd = some (.ok S) ∧ S.Sublist T ∧ T.length = cnt n u c ∧
        IsTransversal (Composed c aconcs 6) (OpEquiv (G' n u)) T ∧ S.length = delivered wanted (cnt n u c) := by
    intro n u c wanted nB rnd a1 a2 a3 a4 hsh
    have hd := hG n u a1 a2 a3
    obtain ⟨c1, c2, c3⟩ := hcs n a1 a2 c a4
    obtain ⟨-, -, L, hL, hlen⟩ := hcount n u c a1 a2 a3 a4
    obtain ⟨m1, m2⟩ := hdel n c a1 a2 a4
    have := cell_request (c := c) (by have := h.species.1; omega) c3 aconcs (by rw [c1]; exact h.fractions.1)
        (by rw [c2]; exact hd.isGroup) (by rw [c2]; exact hd.isGroup') hd.nodup' hd.sites
        (by
          rcases hnoarr with hf | hf
          · exact Or.inl (hd.same hf)
          · exact Or.inr (hf c)) hL wanted nB rnd hsh (Or.inl m1) (m2.imp id Or.inl)
    rw [hlen] at this
    exact this
  -- the systems one after the other
  obtain ⟨Es, hEs, hQ⟩ := enumLoop_ok (w := w) (tol := tol) (lat := lat) (supers := true) (accept := false) sysOfRequest
    (fun x E => ∃ S T : List Config, E = S.map (enumEntry (hnfNumbers x.1.2.1) (snf x.1.1 x.1.2.1)) ∧ S.Sublist T ∧ T.length = cnt x.1.1 x.1.2.1 x.1.2.2 ∧
      IsTransversal (Composed x.1.2.2 aconcs 6) (OpEquiv (G' x.1.1 x.1.2.1)) T ∧ S.length = delivered x.2 (cnt x.1.1 x.1.2.1 x.1.2.2)) V (by
      rintro ⟨⟨n, u, c⟩, v⟩ hx i
      obtain ⟨a1, a2, a3, a4⟩ := (hKm n u c).mp (hVm _ hx)
      obtain ⟨S, T, r1, r2, r3, r4, r5⟩ := hcell n u c v bas.length (w.rnd i) a1 a2 a3 a4 (hsh i)
      refine ⟨S.map (enumEntry (hnfNumbers u) (snf n u)), ?_, S, T, rfl, r2, r3, r4, r5⟩
      have hd := hG n u a1 a2 a3
      obtain ⟨hfull, h6⟩ := hnf_numbers_full (by have := h.lo_pos; omega) ((hU n a1 a2).2.2.1 u a3)
      obtain ⟨dd, hdd, -⟩ := C40_arrow_concs c aconcs (by rw [(hcs n a1 a2 c a4).1]; exact h.fractions.1)
      unfold enumSystem sysOfRequest
      simp only [h6, lt_self_iff_false, if_false, h.geometry, runPy_ok, pure_bind, hfull, hd.smith, runO_ok, map_toNat, Int.toNat_natCast]
      rw [← hadef, hdd, runPy_ok, pure_bind, ← hflag, hd.group', pure_bind, r1, runO_ok, pure_bind]) 0
  obtain ⟨F, hEF, hFQ⟩ := forall₂_fun hVnd.of_map hQ ⟨[], trivial⟩
  choose! SS TT hS using hFQ
  -- the full list
  have key5 : ∀ x, ∃ T : List Config, x ∈ K → (∀ v, (x, v) ∈ V → T = TT (x, v)) ∧ T.length = cnt x.1 x.2.1 x.2.2 ∧
      IsTransversal (Composed x.2.2 aconcs 6) (OpEquiv (G' x.1 x.2.1)) T := by
    intro x
    by_cases hx : x ∈ K
    · by_cases hxv : ∃ v, (x, v) ∈ V
      · obtain ⟨v, hv⟩ := hxv
        refine ⟨TT (x, v), fun _ => ⟨fun v' hv' => ?_, (hS _ hv).2.2.1, (hS _ hv).2.2.2.1⟩⟩
        have : (x, v) = (x, v') := List.inj_on_of_nodup_map hVnd hv hv' rfl
        rw [this]
      · obtain ⟨a1, a2, a3, a4⟩ := (hKm x.1 x.2.1 x.2.2).mp hx
        obtain ⟨S, T, -, -, r3, r4, -⟩ := hcell x.1 x.2.1 x.2.2 0 0 (w.rnd 0) a1 a2 a3 a4 (hsh 0)
        exact ⟨T, fun _ => ⟨fun v hv => absurd ⟨v, hv⟩ hxv, r3, r4⟩⟩
    · exact ⟨[], fun hx' => absurd hx' hx⟩
  choose FT hFT using key5
  set rowsOf : ℕ × M3 ℤ × Conc → List EnumEntry := fun x => (FT x).map (enumEntry (hnfNumbers x.2.1) (snf x.1 x.2.1)) with hrowsOf
  have hCok : ∀ n, lo ≤ n → n ≤ hi → (C n).Nodup ∧ ∀ c ∈ C n, c.length = k ∧ c.sum = bas.length * n ∧
      (flag = true ∨ ∀ i, i < c.length → arrowCount (c.getD i 0) (aconcs.getD i 0) = 0) :=
    fun n a b => ⟨(h.concs n a b).2.1, fun c hc => ⟨(hcs n a b c hc).1, (hcs n a b c hc).2.1, hnoarr.imp id (fun h => h c)⟩⟩
  have hUok := fun n a b => (⟨(hU n a b).2.1, (hU n a b).2.2.1, (hU n a b).2.2.2⟩ : _ ∧ _ ∧ _)
  obtain ⟨s1, s2, s3⟩ := rows_once (usable_false h.cell flag) h.lo_pos h.species.2 h.fractions.1 U C G G' snf
    hUok (fun n a b u hu => hG n u a b hu) hCok K hKnd hKm FT (fun n u c hx => (hFT (n, u, c) hx).2.2)
  -- the rows of one entry have its composition
  have hcomp : ∀ x ∈ K, ∀ row ∈ rowsOf x, row.size = (x.1 : ℤ) ∧ row.hnf = hnfNumbers x.2.1 ∧ ∃ ψ, RowDescribes P bas row ψ ∧
      PeriodicOn (CrystalSites (ColLattice P.transpose) bas) (rowLattice P row) ψ ∧
      HasContents (CrystalSites (ColLattice P.transpose) bas) (rowLattice P row) (bas.length * x.1) (Composed x.2.2 aconcs 6) ψ := by
    intro x hx row hrow
    obtain ⟨b1, b2, b3, b4⟩ := (hKm x.1 x.2.1 x.2.2).mp hx
    obtain ⟨-, q2, -⟩ := rows_once (usable_false h.cell flag) h.lo_pos h.species.2 h.fractions.1 U
      (fun m => if m = x.1 then [x.2.2] else []) G G' snf
      hUok (fun n a b u hu => hG n u a b hu)
      (by
        intro m m1 m2
        by_cases hm : m = x.1
        · subst hm
          simp only [if_true]
          refine ⟨by simp, fun c hc => ?_⟩
          rw [List.mem_singleton] at hc
          subst hc
          exact (hCok _ m1 m2).2 _ b4
        · simp [hm])
      (K.filter (fun y => decide (y.1 = x.1 ∧ y.2.2 = x.2.2))) (hKnd.filter _)
      (by
        intro m u c
        rw [List.mem_filter, hKm, decide_eq_true_eq]
        constructor
        · rintro ⟨⟨m1, m2, m3, m4⟩, rfl, rfl⟩
          exact ⟨m1, m2, m3, by simp⟩
        · rintro ⟨m1, m2, m3, m4⟩
          by_cases hm : m = x.1
          · subst hm
            rw [if_pos rfl, List.mem_singleton] at m4
            subst m4
            exact ⟨⟨m1, m2, m3, b4⟩, rfl, rfl⟩
          · simp [hm] at m4)
      FT (fun n u c hx => (hFT (n, u, c) (List.mem_of_mem_filter hx)).2.2)
    obtain ⟨m, m1, m2, m3, c, hc, ψ, p1, p2, p3⟩ := q2 row (List.mem_flatMap.mpr ⟨x, List.mem_filter.mpr ⟨hx, by simp⟩, hrow⟩)
    by_cases hm : m = x.1
    · subst hm
      rw [if_pos rfl, List.mem_singleton] at hc
      subst hc
      refine ⟨m3, ?_, ψ, p1, p2, p3⟩
      obtain ⟨z, -, rfl⟩ := List.mem_map.mp hrow
      rfl
    · simp [hm] at hc
  have hFS : ∀ x ∈ V, (F x).Sublist (rowsOf x.1) := by
    intro x hx
    obtain ⟨f1, f2, -⟩ := hS x hx
    rw [f1]
    have := (hFT x.1 (hVm x hx)).1 x.2 hx
    rw [hrowsOf]
    simp only
    rw [this]
    exact f2.map _
  have hFl : ∀ x ∈ V, (F x).length = delivered x.2 (cnt x.1.1 x.1.2.1 x.1.2.2) := by
    intro x hx
    obtain ⟨f1, -, -, -, f5⟩ := hS x hx
    rw [f1, List.length_map, f5]
  have hflat : Es.flatten = V.flatMap F := by rw [hEF]; rfl
  have hsubV : (V.flatMap F).Sublist ((V.map (·.1)).flatMap rowsOf) := by
    rw [List.flatMap_map]
    clear hEF hflat hFl hEs hQ
    have hFS' := hFS
    revert hFS'
    generalize V = W
    intro hW
    induction W with
    | nil => simp
    | cons x W ih =>
      rw [List.flatMap_cons, List.flatMap_cons]
      exact (hW x List.mem_cons_self).append (ih (fun y hy => hW y (List.mem_cons_of_mem _ hy)))
  have hVK : (V.map (·.1)).Subperm K := List.subperm_of_subset hVnd (by
    intro x hx
    obtain ⟨y, hy, rfl⟩ := List.mem_map.mp hx
    exact (hVm y hy))
  obtain ⟨K', hp', hs'⟩ := hVK
  have hperm : ((V.map (·.1)).flatMap rowsOf).Perm (K'.flatMap rowsOf) := (hp'.flatMap_right _).symm
  have hsubK : (K'.flatMap rowsOf).Sublist (K.flatMap rowsOf) := sublist_flatMap hs' rowsOf
  refine ⟨Es.flatten, K.flatMap rowsOf, hEs, ⟨?_, ?_, ⟨s1, s2, ?_⟩, ?_, ?_, ⟨Es, rfl, ?_⟩⟩, ?_, ?_⟩
  · rw [hflat]
    exact (hperm.nodup_iff.mpr (s1.sublist hsubK)).sublist hsubV
  · intro row hrow
    rw [hflat] at hrow
    exact hsubK.subset (hperm.subset (hsubV.subset hrow))
  · intro n M a b hM χ _ c hc hχ
    exact s3 n M a b hM χ c hc hχ
  · rw [List.length_flatMap]
    congr 1
    apply List.map_congr_left
    intro x hx
    rw [hrowsOf]
    simp only
    rw [List.length_map, (hFT x hx).2.1]
  · rw [hflat, List.length_flatMap]
    congr 1
    exact List.map_congr_left hFl
  · rw [hEF, List.forall₂_map_right_iff, List.forall₂_same]
    intro x hx
    refine ⟨hFl x hx, fun row hrow => ?_⟩
    rw [← hbl]
    exact hcomp x.1 (hVm x hx) row ((hFS x hx).subset hrow)
  · intro row hrow
    obtain ⟨x, hx, hrowx⟩ := List.mem_flatMap.mp hrow
    rw [← hbl]
    exact ⟨x, hx, hcomp x hx row hrowx⟩
  · rintro x hx hv row hrow hsize hhnf ⟨ψ, hψ, hψc⟩
    obtain ⟨y, hy, hrowy⟩ := List.mem_flatMap.mp hrow
    obtain ⟨y1, y2, ψ', y3, y4, y5⟩ := hcomp y hy row hrowy
    obtain ⟨a1, a2, a3, a4⟩ := (hKm x.1.1 x.1.2.1 x.1.2.2).mp (hVm x hx)
    obtain ⟨c1, c2, c3, c4⟩ := (hKm y.1 y.2.1 y.2.2).mp hy
    have e1 : y.1 = x.1.1 := by exact_mod_cast y1.symm.trans hsize
    have e2 : y.2.1 = x.1.2.1 := by
      rw [← (hnf_numbers_full (le_trans h.lo_pos c1) ((hU _ c1 c2).2.2.1 _ c3)).1, ← y2, hhnf,
        (hnf_numbers_full (le_trans h.lo_pos a1) ((hU _ a1 a2).2.2.1 _ a3)).1]
    have hlat : IsSub (rowLattice P row) := by unfold rowLattice; exact colLat_isSub _
    have hψ5 : HasContents (CrystalSites (ColLattice P.transpose) bas) (rowLattice P row) (bas.length * y.1) (Composed x.1.2.2 aconcs 6) ψ' := by
      rw [e1, hbl]
      exact contents_congr hψc (row_describes_unique hψ y3)
    have e3 : y.2.2 = x.1.2.2 := by
      refine contents_unique hlat (S := CrystalSites (ColLattice P.transpose) bas) (fun z hz t ht => ?_) (N := bas.length * y.1) (Nat.mul_pos hbpos (by have := h.lo_pos; omega)) y4
        (by rw [(hcs _ c1 c2 _ c4).1, (hcs _ a1 a2 _ a4).1]) y5 hψ5
      obtain ⟨b, hb, hm⟩ := hz
      refine ⟨b, hb, ?_⟩
      have := (colLat_isSub P.transpose).add _ hm _ (rowLattice_sub P row ht)
      convert this using 1
      abel
    have exy : y = x.1 := Prod.ext e1 (Prod.ext e2 e3)
    rw [hflat]
    refine List.mem_flatMap.mpr ⟨x, hx, ?_⟩
    have hl : (F x).length = (rowsOf x.1).length := by
      rw [hFl x hx, hv, delivered_self, hrowsOf]
      simp only
      rw [List.length_map, (hFT x.1 (hVm x hx)).2.1]
    rw [(hFS x hx).eq_of_length hl, ← exy]
    exact hrowy

/-- The systems of an arbitrary list of requests. -/
theorem loop_some {text : Str} {lat : LatticeIn} {P0 : Matrix (Fin 3) (Fin 3) ℚ} {b0 : List (Fin 3 → ℚ)} {lo hi k : ℕ} {T : Set ℚ}
    {C : ℕ → List Conc} (h : EnumInput text lat P0 b0 lo hi k T C) {tol : Tol} (ht : ExactTol P0 b0 hi tol)
    {U : ℕ → List (M3 ℤ)} {cnt : ℕ → M3 ℤ → Conc → ℕ} (hcnt : CountsAll tol lat P0 b0 lo hi C U cnt)
    (hdel : ∀ n c, lo ≤ n → n ≤ hi → c ∈ C n → NoRandomSearch lat.arrowFractions c) {w : World} (hsh : ∀ i l, ((w.rnd i).shuffle l).Perm l)
    {K : List (ℕ × M3 ℤ × Conc)} {V : List ((ℕ × M3 ℤ × Conc) × ℕ)} (hKnd : K.Nodup) (hKm : ∀ n u c, (n, u, c) ∈ K ↔ lo ≤ n ∧ n ≤ hi ∧ u ∈ U n ∧ c ∈ C n)
    (hVnd : (V.map (·.1)).Nodup) (hVm : ∀ x ∈ V, x.1 ∈ K) :
    ∃ rows full, enumLoop w tol lat true false 0 (V.map sysOfRequest) = (pure rows : Run _) ∧ RowsSome lat P0 b0 lo hi C cnt K V rows full := by
  obtain ⟨rows, full, h1, h2, -⟩ := loop_some_all h ht hcnt hdel hsh hKnd hKm hVnd hVm
  exact ⟨rows, full, h1, h2⟩

/-- The tables of a run. -/
theorem tables_some {text : Str} {lat : LatticeIn} {P0 : Matrix (Fin 3) (Fin 3) ℚ} {b0 : List (Fin 3 → ℚ)} {lo hi k : ℕ} {T : Set ℚ}
    {C : ℕ → List Conc} (h : EnumInput text lat P0 b0 lo hi k T C) {tol : Tol} (ht : ExactTol P0 b0 hi tol) (t5 : tol.conc ∈ T)
    {U : ℕ → List (M3 ℤ)} {cnt : ℕ → M3 ℤ → Conc → ℕ} (hcnt : CountsAll tol lat P0 b0 lo hi C U cnt)
    (hfits : ∀ n, lo ≤ n → n ≤ hi → (countTable n (U n) (C n) (cnt n)).Fits) {w : World} (hw : ∀ l, (w.listdir l).Perm l) {lattice : Str} {d : Dir}
    (hd : FreshDir lattice text d) :
    ∃ (l' : List ℤ) (d1 : Dir) (K : List (ℕ × M3 ℤ × Conc)), TablesFacts l' U C cnt K ∧ (∀ n u c, (n, u, c) ∈ K ↔ lo ≤ n ∧ n ≤ hi ∧ u ∈ U n ∧ c ∈ C n) ∧
      (∀ x ∈ K, x.2.2.length = k) ∧ (∀ x ∈ K, 1 ≤ cnt x.1 x.2.1 x.2.2) ∧
      polyaOut tol lattice "polya.out".toList d = (pure d1 : Run _) ∧ anyNumbered d1 "polya.out".toList = true ∧
      (sizesUsed w d1 "polya.out".toList none = .ok l' ∧ readTables d1 "polya.out".toList l' = .ok (tablesOf l' U C cnt) ∧
        ((distSummary (tablesOf l' U C cnt) .none).2 = 0 → relKeys (distSummary (tablesOf l' U C cnt) .none).1 .all = [])) ∧
      (∀ n, lo ≤ n → n ≤ hi → dictGet d1 (polyaName n) = some (writePolya (countTable n (U n) (C n) (cnt n)))) ∧
      ∀ f, (∀ n, lo ≤ n → n ≤ hi → f ≠ polyaName n) → dictGet d1 f = dictGet d f := by
  classical
  set P := realMat P0 with hPdef
  set bas := realVecs b0 with hbdef
  have hbl : bas.length = b0.length := realVecs_length b0
  set aconcs := lat.arrowFractions with hadef
  set flag : Bool := decide (aconcs.sum ≠ 0) with hflag
  have hnoarr : flag = true ∨ ∀ c : Conc, NoArrows aconcs c := by
    by_cases h0 : aconcs.sum = 0
    · exact Or.inr (no_arrows h.fractions.2 h0)
    · left; rw [hflag]; simpa using h0
  have horig : flag = true ∨ bas.getD 0 0 = 0 := by
    rcases h.origin with h0 | h0
    · left; rw [hflag]; simpa using h0
    · exact Or.inr h0
  have hsm : ∀ x : ℝ, 0 < x → x * hi < 1 → ∀ n, n ≤ hi → x * n < 1 := by
    intro x hx hlt n hn
    have : (n : ℝ) ≤ hi := by exact_mod_cast hn
    nlinarith
  have hU : ∀ n, lo ≤ n → n ≤ hi → getHNFs n P bas 3 tol.hnf = some (.ok (U n)) ∧ (U n).Nodup ∧ (∀ u ∈ U n, u ∈ findAllHNFs n) ∧
      (∀ M : M3 ℤ, M.det = n ∨ M.det = -n → ∃! u, u ∈ U n ∧ ∃ R s, PSym (ColLattice P.transpose) bas R s ∧
        R.mulVec '' SupLat P M = SupLat P u) := by
    intro n a b
    obtain ⟨u1, u2, u3, -⟩ := hcnt n a b
    obtain ⟨U', v1, v2, v3, v4⟩ := hnf_calls_at h.cell n (le_trans h.lo_pos a) 3 (by norm_num) ht.hnf (hsm _ ht.hnf.pos ht.hnf_small n b)
    have e : U' = U n := Except.ok.inj (Option.some.inj (v1.symm.trans u1))
    subst e
    exact ⟨v1, v2, v3, v4⟩
  have key2 : ∀ n u, ∃ G G' snf, lo ≤ n → n ≤ hi → u ∈ U n → CellData P bas n tol.sym flag u G G' snf := by
    intro n u
    by_cases hn : (lo ≤ n ∧ n ≤ hi) ∧ u ∈ U n
    · obtain ⟨G, G', snf, hd⟩ := cell_data_at h.cell h.primitive (flag := flag) horig n (le_trans h.lo_pos hn.1.1) (lt_of_le_of_lt hn.1.2 h.hi_lt)
        ht.sym (hsm _ ht.sym.pos ht.sym_small n hn.1.2) u ((hU n hn.1.1 hn.1.2).2.2.1 u hn.2)
      exact ⟨G, G', snf, fun _ _ _ => hd⟩
    · exact ⟨[], [], ⟨0, 0, 0⟩, fun a b c => absurd ⟨⟨a, b⟩, c⟩ hn⟩
  choose G G' snf hG using key2
  have hbpos : 0 < bas.length := List.length_pos_iff.mpr h.cell.nonempty
  have hcs : ∀ n, lo ≤ n → n ≤ hi → ∀ c ∈ C n, c.length = k ∧ c.sum = bas.length * n ∧ 1 ≤ c.sum := by
    intro n a b c hc
    obtain ⟨c1, c2⟩ := (h.concs n a b).2.2 c hc
    rw [← hbl] at c2
    refine ⟨c1, c2, ?_⟩
    rw [c2]
    exact Nat.mul_pos hbpos (by have := h.lo_pos; omega)
  have hcount : ∀ n u c, lo ≤ n → n ≤ hi → u ∈ U n → c ∈ C n → 1 ≤ cnt n u c ∧ polyaCount (G n u) aconcs c = (pure (cnt n u c) : Run ℕ) ∧
      ∃ L, IsTransversal (Composed c aconcs 6) (OpEquiv (G n u)) L ∧ L.length = cnt n u c := by
    intro n u c a1 a2 a3 a4
    obtain ⟨-, -, -, u4⟩ := hcnt n a1 a2
    obtain ⟨G0, g1, -, -, -, g5⟩ := u4 u a3
    have e : G0 = G n u := Except.ok.inj (Option.some.inj (g1.symm.trans (hG n u a1 a2 a3).group))
    subst e
    exact g5 c a4
  obtain ⟨rest, hsz⟩ := h.sizes
  obtain ⟨l', d1, hnd', hmem', hpolya, hany, -, hmake, hd1t, hd1o⟩ := program_tables hw hd h.read h.geometry h.lo_pos h.lo_hi hsz U C G cnt
    (fun n a b => ⟨(hU n a b).1, (hU n a b).2.1, (hU n a b).2.2.1, (h.concs n a b).1 _ t5, (h.concs n a b).2.1,
      fun u hu => (hG n u a b hu).group, fun u hu c hc => (hcount n u c a b hu hc).2.1⟩)
    (fun n u c a b hu hc => ⟨n, u, c, a, b, hu, hc, (hcount n u c a b hu hc).1⟩) hfits
  obtain ⟨K, hF⟩ := tables_facts (l := l') (U := U) (C := C) (cnt := cnt) hnd' (by
      intro s hs
      obtain ⟨n, rfl, h1, -⟩ := (hmem' s).mp hs
      have := h.lo_pos
      omega) (by
      intro s hs
      obtain ⟨n, rfl, h1, h2⟩ := (hmem' s).mp hs
      exact ⟨(hU n h1 h2).2.1, (hU n h1 h2).2.2.1⟩) (by
      intro s hs
      obtain ⟨n, rfl, h1, h2⟩ := (hmem' s).mp hs
      exact (h.concs n h1 h2).2.1)
  have hKm : ∀ n u c, (n, u, c) ∈ K ↔ lo ≤ n ∧ n ≤ hi ∧ u ∈ U n ∧ c ∈ C n := by
    intro n u c
    rw [hF.mem, hmem']
    constructor
    · rintro ⟨⟨m, e, h1, h2⟩, h⟩
      have : n = m := by exact_mod_cast e
      subst this
      exact ⟨h1, h2, h⟩
    · rintro ⟨h1, h2, h⟩
      exact ⟨⟨n, rfl, h1, h2⟩, h⟩
  refine ⟨l', d1, K, hF, hKm, ?_, ?_, hpolya, hany, hmake, hd1t, hd1o⟩
  · intro x hx
    obtain ⟨h1, h2, -, h4⟩ := (hKm x.1 x.2.1 x.2.2).mp hx
    exact (hcs _ h1 h2 _ h4).1
  · intro x hx
    obtain ⟨h1, h2, h3, h4⟩ := (hKm x.1 x.2.1 x.2.2).mp hx
    exact (hcount _ _ _ h1 h2 h3 h4).1

/-- the files at the end -/
theorem output_some {lat : LatticeIn} {P0 : Matrix (Fin 3) (Fin 3) ℚ} {b0 : List (Fin 3 → ℚ)} {lo hi : ℕ} {C : ℕ → List Conc}
    {U : ℕ → List (M3 ℤ)} {cnt : ℕ → M3 ℤ → Conc → ℕ} {now : Str} {K : List (ℕ × M3 ℤ × Conc)} {V : List ((ℕ × M3 ℤ × Conc) × ℕ)} {d d1 : Dir}
    {rows full : List EnumEntry} (h : RowsSome lat P0 b0 lo hi C cnt K V rows full) {s : Str} (hread : readEnum s = .ok (V.map sysOfRequest))
    (hd1t : ∀ n, lo ≤ n → n ≤ hi → dictGet d1 (polyaName n) = some (writePolya (countTable n (U n) (C n) (cnt n))))
    (hd1o : ∀ f, (∀ n, lo ≤ n → n ≤ hi → f ≠ polyaName n) → dictGet d1 f = dictGet d f) :
    OutputSome lat P0 b0 lo hi C U cnt now K V d rows full
      (dictSet (dictSet d1 "enum.in".toList s) "enum.out".toList (enumOutFile (lat.enumParams (P0, b0)) now rows)) := by
  have hname : ∀ n : ℕ, polyaName n = "polya.out.".toList ++ natStr n := fun n => by
    unfold polyaName
    rw [show "polya.out.".toList = "polya.out".toList ++ ['.'] from by decide, List.append_assoc]
    rfl
  have hneq : ("enum.in".toList : Str) ≠ "enum.out".toList := by decide
  obtain ⟨r1, r2, r3, r4, r5, r6⟩ := h
  refine ⟨?_, r1, r2, r3, r4, r5, r6, ⟨s, ?_, hread⟩, ?_, ?_⟩
  · rw [dictGet_set, if_pos rfl]
  · rw [dictGet_set, if_neg hneq, dictGet_set, if_pos rfl]
  · intro n h1 h2
    rw [← hname, dictGet_set, if_neg (show polyaName n ≠ "enum.out".toList from fun e => enumOut_not_like (e ▸ polyaName_like n)), dictGet_set,
      if_neg (show polyaName n ≠ "enum.in".toList from fun e => enumIn_not_like (e ▸ polyaName_like n)), hd1t n h1 h2]
  · intro f h1 h2 h3
    rw [dictGet_set, if_neg h1, dictGet_set, if_neg h2]
    exact hd1o f (fun n a b => by rw [hname]; exact h3 n a b)

/-- At tolerances at which the searches are exact. -/
theorem some_structures_at {text : Str} {lat : LatticeIn} {P0 : Matrix (Fin 3) (Fin 3) ℚ} {b0 : List (Fin 3 → ℚ)} {lo hi k : ℕ} {T : Set ℚ}
    {C : ℕ → List Conc} (h : EnumInput text lat P0 b0 lo hi k T C) {tol : Tol} (ht : ExactTol P0 b0 hi tol) (t5 : tol.conc ∈ T)
    {U : ℕ → List (M3 ℤ)} {cnt : ℕ → M3 ℤ → Conc → ℕ} (hcnt : CountsAll tol lat P0 b0 lo hi C U cnt)
    (hfits : ∀ n, lo ≤ n → n ≤ hi → (countTable n (U n) (C n) (cnt n)).Fits)
    (hdel : ∀ n c, lo ≤ n → n ≤ hi → c ∈ C n → NoRandomSearch lat.arrowFractions c) :
    RunListsSome tol text lat P0 b0 lo hi C U cnt := by
  intro w a lattice d n hw hsh hdraws ha hd
  obtain ⟨l', d1, K, hF, hKm, hk, hpos, hpolya, hany, hmake, hd1t, hd1o⟩ := tables_some h ht t5 hcnt hfits hw hd
  obtain ⟨V, hV, hVnone, hread⟩ := requests_some hF hk hpos n hdraws
  have hrun := number_run ha hd h.read hpolya hany (makeEnumIn_tables hmake (some (n : ℤ)) a.savedist) (sys := V.map sysOfRequest) hread
  refine ⟨K, V, hF.nodup, hKm, hV, hVnone, ?_, ?_⟩
  · intro hV0
    rw [hrun, hV0]
    unfold enumWrite
    rw [h.geometry, runPy_ok, pure_bind]
    simp [enumLoop]
  intro hV0
  obtain ⟨rows, full, h1, h2⟩ := loop_some h ht hcnt hdel hsh hF.nodup hKm hV.nodup (fun x hx => (hV.mem x hx).1)
  refine ⟨rows, full, _, ?_, output_some h2 hread hd1t hd1o⟩
  rw [hrun]
  unfold enumWrite
  rw [h.geometry, runPy_ok, pure_bind, h1, pure_bind, if_neg (by simpa using hV0)]
  rfl

/-- C75. The program asked for a number of structures. For every sufficiently small tolerance, with the supercells and numbers that the routines return: if the
numbers fit into the columns of polya.out and no structures have to be searched for at random, a run is as described in `RunListsSome`. -/
theorem C75_some_structures {text : Str} {lat : LatticeIn} {P0 : Matrix (Fin 3) (Fin 3) ℚ} {b0 : List (Fin 3 → ℚ)} {lo hi k : ℕ} {T : Set ℚ}
    {C : ℕ → List Conc} (h : EnumInput text lat P0 b0 lo hi k T C) (hdel : ∀ n c, lo ≤ n → n ≤ hi → c ∈ C n → NoRandomSearch lat.arrowFractions c) :
    ∃ e > 0, ∀ tol : Tol, 0 < tol.hnf → tol.hnf < e → 0 < tol.sym → tol.sym < e → tol.conc ∈ T →
      ∃ (U : ℕ → List (M3 ℤ)) (cnt : ℕ → M3 ℤ → Conc → ℕ),
        CountsAll tol lat P0 b0 lo hi C U cnt ∧
        ((∀ n, lo ≤ n → n ≤ hi → (countTable n (U n) (C n) (cnt n)).Fits) → RunListsSome tol text lat P0 b0 lo hi C U cnt) :=
  small_tol h.cell.det h.cell.nonempty hi (fun _ ht t5 => by
    obtain ⟨U, cnt, hcnt, -⟩ := every_structure_once_at h ht t5
    exact ⟨U, cnt, hcnt, fun hf => some_structures_at h ht t5 hcnt hf hdel⟩)

/-- few labellings -/
theorem no_random_search {aconcs : List ℚ} (hpos : ∀ x ∈ aconcs, 0 ≤ x) {c : Conc} {k N : ℕ} (hk : 1 ≤ k) (hc : c.length = k) (hs : c.sum ≤ N) (hN : k ^ N ≤ 100000)
    (harr : aconcs.sum = 0 ∨ N < 12) : NoRandomSearch aconcs c := by
  refine ⟨?_, ?_⟩
  · refine le_trans (multinomial_le_pow c) ?_
    rw [hc]
    exact le_trans (Nat.pow_le_pow_right hk hs) hN
  · rcases harr with h0 | h0
    · exact Or.inl (no_arrows hpos h0 c)
    · exact Or.inr (by omega)

section
variable {text : Str} {lat : LatticeIn} {P0 : Matrix (Fin 3) (Fin 3) ℚ} {b0 : List (Fin 3 → ℚ)} {lo hi k : ℕ}

theorem some_small {T : Set ℚ} {C : ℕ → List Conc} (h : EnumInput text lat P0 b0 lo hi k T C) (hsize : b0.length * hi ≤ 20)
    (harr : lat.arrowFractions.sum = 0 ∨ b0.length * hi < 12) (hN : k ^ (b0.length * hi) ≤ 100000) {tol : Tol} (ht : ExactTol P0 b0 hi tol) (t5 : tol.conc ∈ T) :
    ∃ (U : ℕ → List (M3 ℤ)) (cnt : ℕ → M3 ℤ → Conc → ℕ), CountsAll tol lat P0 b0 lo hi C U cnt ∧ RunListsSome tol text lat P0 b0 lo hi C U cnt := by
  obtain ⟨U, cnt, hcnt, -⟩ := every_structure_once_at h ht t5
  obtain ⟨h1, -⟩ := small_ok h hsize harr hcnt
  refine ⟨U, cnt, hcnt, some_structures_at h ht t5 hcnt h1 (fun n c a b hc => ?_)⟩
  obtain ⟨c1, c2⟩ := (h.concs n a b).2.2 c hc
  exact no_random_search h.fractions.2 (by have := h.species.1; omega) c1 (by rw [c2]; exact Nat.mul_le_mul_left _ b) hN harr

/-- C75. With the tolerances of the code, without restrictions: `k` species and at most `N` atoms per supercell with `k^N` at most 100000. -/
theorem C75_free (h : CrystalInput text lat P0 b0 lo hi k) (hfree : lat.restricted = false) (hsize : b0.length * hi ≤ 20) (hN : k ^ (b0.length * hi) ≤ 100000)
    {K K' : ℝ} {g D : ℕ} (hc : Coarse (realMat P0) (realVecs b0) K K' g D (1 / 10 ^ 7)) :
    ∃ (U : ℕ → List (M3 ℤ)) (cnt : ℕ → M3 ℤ → Conc → ℕ), CountsAll shippedTol lat P0 b0 lo hi (fun n => concsFree n k b0.length) U cnt ∧
      RunListsSome shippedTol text lat P0 b0 lo hi (fun n => concsFree n k b0.length) U cnt := by
  have hal : lat.arrowFractions = List.replicate lat.nspecies.toNat 0 := by
    unfold LatticeIn.arrowFractions getArrowConcs
    rw [hfree]; rfl
  exact some_small (free_input h hfree (lt_of_le_of_lt (size_hi h hsize) (by norm_num))) hsize (Or.inl (by rw [hal]; simp)) hN
    (coarse_exact h.cell.det hc (size_hi h hsize)) (Set.mem_univ _)

/-- C75. With the tolerances of the code, ranges of concentrations and displaced atoms. -/
theorem C75_ranges {rows : List ConcRange} {d : ℤ} (h : CrystalInput text lat P0 b0 lo hi k) (hr : RangesInput lat k rows d)
    (hsize : b0.length * hi ≤ 20) (harr : lat.arrowFractions.sum = 0 ∨ b0.length * hi < 12) (hN : k ^ (b0.length * hi) ≤ 100000)
    (hne : ∃ n c, lo ≤ n ∧ n ≤ hi ∧ InConcRanges rows (b0.length * n) c) (hd : d ≤ 10 ^ 8)
    {K K' : ℝ} {g D : ℕ} (hc : Coarse (realMat P0) (realVecs b0) K K' g D (1 / 10 ^ 7)) :
    ∃ (C : ℕ → List Conc), (∀ n, lo ≤ n → n ≤ hi → (C n).Nodup ∧ ∀ c, c ∈ C n ↔ InConcRanges rows (b0.length * n) c) ∧
      ∃ (U : ℕ → List (M3 ℤ)) (cnt : ℕ → M3 ℤ → Conc → ℕ), CountsAll shippedTol lat P0 b0 lo hi C U cnt ∧
        RunListsSome shippedTol text lat P0 b0 lo hi C U cnt := by
  have hd' : (d : ℚ) ≤ 10 ^ 8 := by exact_mod_cast hd
  obtain ⟨C, h1, h2⟩ := ranges_enum h hr hsize hne (t := 1 / 10 ^ 10) (by norm_num) (by linarith)
  exact ⟨C, h1, some_small h2 hsize harr hN (coarse_exact h.cell.det hc (size_hi h hsize)) rfl⟩

/-! ## consequences -/

section
variable {tol : Tol} {C : ℕ → List Conc} {U : ℕ → List (M3 ℤ)} {cnt : ℕ → M3 ℤ → Conc → ℕ}

theorem delivered_le {v t : ℕ} (h : v ≤ t) (h0 : 0 < v) (h1 : t < 1000000) : delivered v t = v := by
  unfold delivered
  rw [if_pos ⟨h0, h, h1⟩]

theorem delivered_all (t : ℕ) : delivered t t = t := by
  unfold delivered
  split <;> rfl

/-- C75. Fewer than a million structures of each type, and shares that are whole numbers: exactly `n` different structures are listed, whatever the random numbers. -/
theorem C75_exact_number (hrun : RunListsSome tol text lat P0 b0 lo hi C U cnt) {w : World} {a : Args} {lattice : Str} {d : Dir} {n : ℕ} (hw : ∀ l, (w.listdir l).Perm l)
    (hsh : ∀ i l, ((w.rnd i).shuffle l).Perm l) (hdr : ∀ i, 0 ≤ w.draws i) (ha : NumberCall a lattice true n) (hd : FreshDir lattice text d) (hn : 0 < n)
    (hlt : ∀ s u c, lo ≤ s → s ≤ hi → u ∈ U s → c ∈ C s → cnt s u c < 1000000)
    (hwhole : ∀ K : List (ℕ × M3 ℤ × Conc), K.Nodup → (∀ n u c, (n, u, c) ∈ K ↔ lo ≤ n ∧ n ≤ hi ∧ u ∈ U n ∧ c ∈ C n) →
      n ≤ (K.map (fun x => cnt x.1 x.2.1 x.2.2)).sum ∧ ∀ x ∈ K, (K.map (fun x => cnt x.1 x.2.1 x.2.2)).sum ∣ n * cnt x.1 x.2.1 x.2.2) :
    ∃ (rows full : List EnumEntry) (d' : Dir), scriptEnum w tol a d = (pure d' : Run Dir) ∧
      dictGet d' "enum.out".toList = some (enumOutFile (lat.enumParams (P0, b0)) w.now rows) ∧ rows.Nodup ∧ rows.length = n ∧
      (∀ row ∈ rows, row ∈ full) ∧ ListsAll (realMat P0) (realVecs b0) lo hi C lat.arrowFractions full := by
  obtain ⟨K, V, k1, k2, k3, -, -, k4⟩ := hrun w a lattice d n hw hsh hdr ha hd
  obtain ⟨h1, h2⟩ := hwhole K k1 k2
  obtain ⟨v1, v2⟩ := k3.whole hn h1 h2
  have hV : V ≠ [] := by
    rintro rfl
    simp at v2
    omega
  obtain ⟨rows, full, d', r1, r2, r3, r4, r5, -, r7, -⟩ := k4 hV
  refine ⟨rows, full, d', r1, r2, r3, ?_, r4, r5⟩
  rw [r7]
  refine Eq.trans ?_ v2
  congr 1
  apply List.map_congr_left
  rintro ⟨x, v⟩ hx
  obtain ⟨x1, x2⟩ := (v1 x v).mp hx
  obtain ⟨s1, s2, s3, s4⟩ := (k2 x.1 x.2.1 x.2.2).mp x1
  refine delivered_le ?_ (k3.mem _ hx).2 (hlt _ _ _ s1 s2 s3 s4)
  simp only at x2 ⊢
  have h0 : 0 < (K.map (fun x => cnt x.1 x.2.1 x.2.2)).sum := by omega
  have h5 : v * (K.map (fun x => cnt x.1 x.2.1 x.2.2)).sum ≤ cnt x.1 x.2.1 x.2.2 * (K.map (fun x => cnt x.1 x.2.1 x.2.2)).sum := by
    rw [x2, Nat.mul_comm (cnt x.1 x.2.1 x.2.2)]
    exact Nat.mul_le_mul_right _ h1
  exact Nat.le_of_mul_le_mul_right h5 h0

/-- C75. If at least as many structures are requested as there are, all are listed. -/
theorem C75_ample (hrun : RunListsSome tol text lat P0 b0 lo hi C U cnt) {w : World} {a : Args} {lattice : Str} {d : Dir} {n : ℕ} (hw : ∀ l, (w.listdir l).Perm l)
    (hsh : ∀ i l, ((w.rnd i).shuffle l).Perm l) (hdr : ∀ i, 0 ≤ w.draws i) (ha : NumberCall a lattice true n) (hd : FreshDir lattice text d)
    (hne : ∃ s u c, lo ≤ s ∧ s ≤ hi ∧ u ∈ U s ∧ c ∈ C s)
    (hall : ∀ K : List (ℕ × M3 ℤ × Conc), K.Nodup → (∀ n u c, (n, u, c) ∈ K ↔ lo ≤ n ∧ n ≤ hi ∧ u ∈ U n ∧ c ∈ C n) →
      (K.map (fun x => cnt x.1 x.2.1 x.2.2)).sum ≤ n) :
    ∃ (rows : List EnumEntry) (d' : Dir), scriptEnum w tol a d = (pure d' : Run Dir) ∧
      dictGet d' "enum.out".toList = some (enumOutFile (lat.enumParams (P0, b0)) w.now rows) ∧
      ListsAll (realMat P0) (realVecs b0) lo hi C lat.arrowFractions rows := by
  obtain ⟨K, V, k1, k2, k3, -, -, k4⟩ := hrun w a lattice d n hw hsh hdr ha hd
  have hV := k3.all (hall K k1 k2)
  have hV0 : V ≠ [] := by
    obtain ⟨s, u, c, hx⟩ := hne
    exact List.ne_nil_of_mem ((hV (s, u, c) _).mpr ⟨(k2 s u c).mpr hx, rfl⟩)
  obtain ⟨rows, full, d', r1, r2, r3, r4, r5, r6, r7, -⟩ := k4 hV0
  refine ⟨rows, d', r1, r2, ?_⟩
  have hVK : V.Perm (K.map (fun x => (x, cnt x.1 x.2.1 x.2.2))) := by
    refine (List.perm_ext_iff_of_nodup k3.nodup.of_map (k1.map (fun x y h => (Prod.mk.inj h).1))).mpr ?_
    rintro ⟨x, v⟩
    rw [hV, List.mem_map]
    constructor
    · rintro ⟨h1, rfl⟩; exact ⟨x, h1, rfl⟩
    · rintro ⟨y, h1, e⟩
      obtain ⟨rfl, rfl⟩ := Prod.mk.inj e
      exact ⟨h1, rfl⟩
  have hlen : rows.length = full.length := by
    rw [r7, r6, (hVK.map _).sum_eq, List.map_map]
    congr 1
    apply List.map_congr_left
    intro x _
    exact delivered_all _
  have hperm : rows.Perm full := (List.subperm_of_subset r3 r4).perm_of_length_le (by omega)
  refine ⟨r3, fun row hrow => r5.valid row (r4 row hrow), ?_⟩
  intro n M a b hM χ hper c hc hχ
  obtain ⟨row, ⟨h1, h2⟩, hu⟩ := r5.complete n M a b hM χ hper c hc hχ
  exact ⟨row, ⟨hperm.mem_iff.mpr h1, h2⟩, fun y hy => hu y ⟨r4 y hy.1, hy.2⟩⟩

/-- C75. Asked for no structures, the program always stops with a NameError. -/
theorem C75_zero (hrun : RunListsSome tol text lat P0 b0 lo hi C U cnt) {w : World} {a : Args} {lattice : Str} {d : Dir} (hw : ∀ l, (w.listdir l).Perm l)
    (hsh : ∀ i l, ((w.rnd i).shuffle l).Perm l) (hdr : ∀ i, 0 ≤ w.draws i) (ha : NumberCall a lattice true 0) (hd : FreshDir lattice text d) :
    scriptEnum w tol a d = (throw .nameError : Run Dir) := by
  obtain ⟨K, V, k1, k2, k3, -, k5, -⟩ := hrun w a lattice d 0 hw hsh hdr ha hd
  apply k5
  rw [List.eq_nil_iff_forall_not_mem]
  rintro ⟨x, v⟩ hx
  have h0 := (k3.mem _ hx).2
  rcases Nat.eq_zero_or_pos (K.map (fun x => cnt x.1 x.2.1 x.2.2)).sum with h | h
  · obtain ⟨h1, h2⟩ := (k3.all h.le x v).mp hx
    have := List.single_le_sum (by simp) _ (List.mem_map_of_mem (f := fun x : ℕ × M3 ℤ × Conc => cnt x.1 x.2.1 x.2.2) h1)
    simp only at h0
    omega
  · have := k3.share h _ hx
    simp at this h0
    omega

/-- C75. A number so small that every share is below one: there are random numbers (in the interval from 0 to 1) for which the program stops with a NameError. -/
theorem C75_crash (hrun : RunListsSome tol text lat P0 b0 lo hi C U cnt) {a : Args} {lattice : Str} {d : Dir} {n : ℕ} (ha : NumberCall a lattice true n)
    (hd : FreshDir lattice text d) (hsmall : ∀ K : List (ℕ × M3 ℤ × Conc), K.Nodup → (∀ n u c, (n, u, c) ∈ K ↔ lo ≤ n ∧ n ≤ hi ∧ u ∈ U n ∧ c ∈ C n) →
      ∀ x ∈ K, n * cnt x.1 x.2.1 x.2.2 < (K.map (fun x => cnt x.1 x.2.1 x.2.2)).sum) (listdir : List Str → List Str) (hl : ∀ l, (listdir l).Perm l) (now : Str) (rnd : ℕ → EnumRandom)
    (hsh : ∀ i l, ((rnd i).shuffle l).Perm l) :
    ∃ r : ℚ, 0 ≤ r ∧ r < 1 ∧ ∀ draws : ℕ → ℚ, (∀ i, r ≤ draws i ∧ draws i < 1) →
      scriptEnum ⟨listdir, now, draws, rnd⟩ tol a d = (throw .nameError : Run Dir) := by
  by_cases hKex : ∃ K : List (ℕ × M3 ℤ × Conc), K.Nodup ∧ (∀ n u c, (n, u, c) ∈ K ↔ lo ≤ n ∧ n ≤ hi ∧ u ∈ U n ∧ c ∈ C n)
  swap
  · obtain ⟨K, V, k1, k2, -⟩ := hrun ⟨listdir, now, fun _ => 0, rnd⟩ a lattice d n hl hsh (fun _ => le_refl _) ha hd
    exact absurd ⟨K, k1, k2⟩ hKex
  obtain ⟨K0, q1, q2⟩ := hKex
  set N := (K0.map (fun x => cnt x.1 x.2.1 x.2.2)).sum with hN
  refine ⟨(N - 1 : ℚ) / N ⊔ 0, le_max_right _ _, ?_, ?_⟩
  · refine max_lt ?_ one_pos
    rcases Nat.eq_zero_or_pos N with e | e
    · rw [e]; simp
    · have : (0 : ℚ) < N := by exact_mod_cast e
      rw [div_lt_one this]
      linarith
  intro draws hdr
  have h0 : ∀ i, 0 ≤ draws i := fun i => le_trans (le_max_right _ _) (hdr i).1
  obtain ⟨K, V, k1, k2, k3, k5, k6, -⟩ := hrun ⟨listdir, now, draws, rnd⟩ a lattice d n hl hsh h0 ha hd
  apply k6
  apply k5
  intro i
  refine ⟨(hdr i).2, fun x hx => ?_⟩
  have hKN : (K.map (fun x => cnt x.1 x.2.1 x.2.2)).sum = N := by
    have : K.Perm K0 := (List.perm_ext_iff_of_nodup k1 q1).mpr (fun x => (k2 x.1 x.2.1 x.2.2).trans (q2 x.1 x.2.1 x.2.2).symm)
    exact (this.map _).sum_eq
  have h2 := hsmall K k1 k2 x hx
  rw [hKN] at h2 ⊢
  have h3 : (n : ℚ) * cnt x.1 x.2.1 x.2.2 ≤ N - 1 := by
    have : n * cnt x.1 x.2.1 x.2.2 + 1 ≤ N := h2
    have : ((n * cnt x.1 x.2.1 x.2.2 + 1 : ℕ) : ℚ) ≤ N := by exact_mod_cast this
    push_cast at this
    linarith
  refine le_trans h3 ?_
  have h4 : (0 : ℚ) < N := by exact_mod_cast lt_of_le_of_lt (Nat.zero_le _) h2
  have h5 := le_trans (le_max_left _ _) (hdr i).1
  rwa [div_le_iff₀ h4] at h5

end

end

/-- every size has a supercell -/
theorem counts_nonempty {text : Str} {lat : LatticeIn} {P0 : Matrix (Fin 3) (Fin 3) ℚ} {b0 : List (Fin 3 → ℚ)} {lo hi k : ℕ} {T : Set ℚ}
    {C : ℕ → List Conc} (h : EnumInput text lat P0 b0 lo hi k T C) {tol : Tol} (ht : ExactTol P0 b0 hi tol)
    {U : ℕ → List (M3 ℤ)} {cnt : ℕ → M3 ℤ → Conc → ℕ} (hcnt : CountsAll tol lat P0 b0 lo hi C U cnt) {n : ℕ} (a : lo ≤ n) (b : n ≤ hi) : ∃ u, u ∈ U n := by
  obtain ⟨u1, -⟩ := hcnt n a b
  obtain ⟨U', v1, -, -, v4⟩ := hnf_calls_at h.cell n (le_trans h.lo_pos a) 3 (by norm_num) ht.hnf (by
    have : (n : ℝ) ≤ hi := by exact_mod_cast b
    nlinarith [ht.hnf.pos, ht.hnf_small])
  have e : U' = U n := Except.ok.inj (Option.some.inj (v1.symm.trans u1))
  subst e
  obtain ⟨u, ⟨hu, -⟩, -⟩ := v4 (Matrix.diagonal ![(n : ℤ), 1, 1]) (Or.inl (by simp [Matrix.det_diagonal, Fin.prod_univ_three]))
  exact ⟨u, hu⟩

/-- the call of the examples -/
def numberArgs (n : ℕ) : Args := ⟨false, true, "lattice.in".toList, none, none, some ["all".toList, natStr n], none, true, none, false, none⟩

theorem numberArgs_call (n : ℕ) : NumberCall (numberArgs n) "lattice.in".toList true n := by constructor <;> rfl

theorem scDir_call : FreshDir "lattice.in".toList scText scDir := by
  refine ⟨by decide +kernel, ?_, by decide +kernel⟩
  have : ∀ f ∈ ["notes.txt".toList, "lattice.in".toList], ¬ f.head? = some 'p' := by decide +kernel
  exact fun f hf h => this f hf h.2

/-- C75 for the simple cubic file of the examples, at the tolerances of the code: every request is met as described. -/
theorem sc_some : ∃ (U : ℕ → List (M3 ℤ)) (cnt : ℕ → M3 ℤ → Conc → ℕ),
    CountsAll shippedTol scLat (Matrix.of ![![1, 0, 0], ![0, 1, 0], ![0, 0, 1]]) [![0, 0, 0]] 1 2 (fun n => concsFree n 2 1) U cnt ∧
    RunListsSome shippedTol scText scLat (Matrix.of ![![1, 0, 0], ![0, 1, 0], ![0, 0, 1]]) [![0, 0, 0]] 1 2 (fun n => concsFree n 2 1) U cnt :=
  C75_free sc_crystal rfl (by simp) (by simp) (decimal_coarse sc_decimal)

/-- C75: `enumeration.py -enum -distribution all 1 -super` for the simple cubic file (sizes 1 and 2, two species) stops with a NameError when the random numbers
are close to 1. -/
theorem C75_crash_cubic : ∃ r : ℚ, 0 ≤ r ∧ r < 1 ∧ ∀ draws : ℕ → ℚ, (∀ i, r ≤ draws i ∧ draws i < 1) →
    scriptEnum ⟨id, [], draws, scWorld.rnd⟩ shippedTol (numberArgs 1) scDir = (throw .nameError : Run Dir) := by
  obtain ⟨U, cnt, h1, h2⟩ := sc_some
  have ht := coarse_exact (hi := 2) sc_crystal.cell.det (decimal_coarse sc_decimal) (by norm_num)
  obtain ⟨u, hu⟩ := counts_nonempty (free_input sc_crystal rfl (by norm_num)) ht h1 (n := 1) (le_refl _) (by norm_num)
  obtain ⟨-, -, -, h4⟩ := h1 1 (le_refl _) (by norm_num)
  have hpos : ∀ n, 1 ≤ n → n ≤ 2 → ∀ v ∈ U n, ∀ c ∈ concsFree n 2 1, 1 ≤ cnt n v c := by
    intro n a b v hv c hc
    obtain ⟨-, -, -, q⟩ := h1 n a b
    obtain ⟨G, -, -, -, -, q5⟩ := q v hv
    exact (q5 c hc).1
  have m1 : [1, 0] ∈ concsFree 1 2 1 := by rw [(C25_concs_complete 1 2 1).2]; decide
  have m2 : [0, 1] ∈ concsFree 1 2 1 := by rw [(C25_concs_complete 1 2 1).2]; decide
  refine C75_crash h2 (numberArgs_call 1) scDir_call ?_ id (fun l => List.Perm.refl _) [] scWorld.rnd (fun i l => List.Perm.refl _)
  intro K k1 k2 x hx
  rw [one_mul]
  have hin : ∀ c ∈ concsFree 1 2 1, ((1 : ℕ), u, c) ∈ K := fun c hc => (k2 _ _ _).mpr ⟨le_refl _, by norm_num, hu, hc⟩
  -- another entry
  obtain ⟨y, hy, hyx, hy1⟩ : ∃ y ∈ K, y ≠ x ∧ 1 ≤ cnt y.1 y.2.1 y.2.2 := by
    by_cases hx1 : x = (1, u, [1, 0])
    · refine ⟨(1, u, [0, 1]), hin _ m2, ?_, hpos 1 (le_refl _) (by norm_num) u hu _ m2⟩
      rw [hx1]
      intro e
      have := (Prod.mk.inj (Prod.mk.inj e).2).2
      revert this
      decide
    · exact ⟨(1, u, [1, 0]), hin _ m1, fun e => hx1 e.symm, hpos 1 (le_refl _) (by norm_num) u hu _ m1⟩
  have hsub : [y, x].Subperm K := List.subperm_of_subset (by simp [hyx]) (by intro z hz; simp at hz; rcases hz with rfl | rfl <;> assumption)
  obtain ⟨K', p1, p2⟩ := hsub
  have e1 : ((K'.map (fun x => cnt x.1 x.2.1 x.2.2))).sum = cnt y.1 y.2.1 y.2.2 + cnt x.1 x.2.1 x.2.2 := by
    rw [(p1.map _).sum_eq]; simp
  have e2 := (p2.map (fun x : ℕ × M3 ℤ × Conc => cnt x.1 x.2.1 x.2.2)).sum_le_sum (by simp)
  omega

/-- C75 for the simple cubic file: a request that is large enough leads to a list of all structures, alternating layers among them. -/
example : ∃ N, ∀ n, N ≤ n → ∃ (rows : List EnumEntry) (d' : Dir), scriptEnum scWorld shippedTol (numberArgs n) scDir = (pure d' : Run Dir) ∧
    dictGet d' "enum.out".toList = some (enumOutFile (scLat.enumParams (Matrix.of ![![1, 0, 0], ![0, 1, 0], ![0, 0, 1]], [![0, 0, 0]])) scWorld.now rows) ∧
    ListsAll 1 [0] 1 2 (fun n => concsFree n 2 1) scLat.arrowFractions rows := by
  obtain ⟨U, cnt, h1, h2⟩ := sc_some
  have ht := coarse_exact (hi := 2) sc_crystal.cell.det (decimal_coarse sc_decimal) (by norm_num)
  obtain ⟨u, hu⟩ := counts_nonempty (free_input sc_crystal rfl (by norm_num)) ht h1 (n := 1) (le_refl _) (by norm_num)
  have m1 : [1, 0] ∈ concsFree 1 2 1 := by rw [(C25_concs_complete 1 2 1).2]; decide
  obtain ⟨K0, V0, q1, q2, -⟩ := h2 scWorld (numberArgs 0) "lattice.in".toList scDir 0 (fun l => List.Perm.refl _) (fun i l => List.Perm.refl _)
    (fun _ => le_refl _) (numberArgs_call 0) scDir_call
  refine ⟨(K0.map (fun x => cnt x.1 x.2.1 x.2.2)).sum, fun n hn => ?_⟩
  have := C75_ample h2 (w := scWorld) (fun l => List.Perm.refl _) (fun i l => List.Perm.refl _) (fun _ => le_refl _) (numberArgs_call n) scDir_call
    ⟨1, u, [1, 0], le_refl _, by norm_num, hu, m1⟩ (by
      intro K k1 k2
      have : K.Perm K0 := (List.perm_ext_iff_of_nodup k1 q1).mpr (fun x => (k2 x.1 x.2.1 x.2.2).trans (q2 x.1 x.2.1 x.2.2).symm)
      rw [(this.map _).sum_eq]
      exact hn)
  rw [realVecs_zero, realMat_sc] at this
  exact this

/-- C75 for the simple cubic file: a number with whole shares, namely that of all structures; the hypotheses of `C75_exact_number` hold. -/
example : ∃ n > 0, ∃ (rows full : List EnumEntry) (d' : Dir), scriptEnum scWorld shippedTol (numberArgs n) scDir = (pure d' : Run Dir) ∧
    dictGet d' "enum.out".toList = some (enumOutFile (scLat.enumParams (Matrix.of ![![1, 0, 0], ![0, 1, 0], ![0, 0, 1]], [![0, 0, 0]])) scWorld.now rows) ∧ rows.Nodup ∧
    rows.length = n ∧ (∀ row ∈ rows, row ∈ full) ∧ ListsAll 1 [0] 1 2 (fun n => concsFree n 2 1) scLat.arrowFractions full := by
  obtain ⟨U, cnt, h1, h2⟩ := sc_some
  have ht := coarse_exact (hi := 2) sc_crystal.cell.det (decimal_coarse sc_decimal) (by norm_num)
  obtain ⟨u, hu⟩ := counts_nonempty (free_input sc_crystal rfl (by norm_num)) ht h1 (n := 1) (le_refl _) (by norm_num)
  have m1 : [1, 0] ∈ concsFree 1 2 1 := by rw [(C25_concs_complete 1 2 1).2]; decide
  obtain ⟨K0, V0, q1, q2, -⟩ := h2 scWorld (numberArgs 0) "lattice.in".toList scDir 0 (fun l => List.Perm.refl _) (fun i l => List.Perm.refl _)
    (fun _ => le_refl _) (numberArgs_call 0) scDir_call
  have hcount : ∀ n, 1 ≤ n → n ≤ 2 → ∀ v ∈ U n, ∀ c ∈ concsFree n 2 1, 1 ≤ cnt n v c ∧ cnt n v c < 1000000 := by
    intro n a b v hv c hc
    obtain ⟨-, -, -, q⟩ := h1 n a b
    obtain ⟨G, -, -, -, -, q5⟩ := q v hv
    obtain ⟨h3, -, L, hL, e⟩ := q5 c hc
    refine ⟨h3, ?_⟩
    obtain ⟨c1, c2⟩ := ((C25_concs_complete n 2 1).2 c).mp hc
    rw [← e]
    refine lt_of_le_of_lt (composed_count (by rw [c1]; norm_num) (by rw [c1]; decide +kernel) hL.nodup hL.mem) ?_
    rw [c2, mul_one]
    exact lt_of_le_of_lt (Nat.pow_le_pow_right (by norm_num) b) (by norm_num)
  have hx0 : ((1 : ℕ), u, [1, 0]) ∈ K0 := (q2 _ _ _).mpr ⟨le_refl _, by norm_num, hu, m1⟩
  have hpos : 0 < (K0.map (fun x => cnt x.1 x.2.1 x.2.2)).sum := by
    refine lt_of_lt_of_le (hcount 1 (le_refl _) (by norm_num) u hu _ m1).1 ?_
    exact List.single_le_sum (by simp) _ (List.mem_map_of_mem (f := fun x : ℕ × M3 ℤ × Conc => cnt x.1 x.2.1 x.2.2) hx0)
  refine ⟨(K0.map (fun x => cnt x.1 x.2.1 x.2.2)).sum, hpos, ?_⟩
  have := C75_exact_number h2 (w := scWorld) (fun l => List.Perm.refl _) (fun i l => List.Perm.refl _) (fun _ => le_refl _) (numberArgs_call _) scDir_call hpos
    (fun s v c a b hv hc => (hcount s a b v hv c hc).2) (by
      intro K k1 k2
      have : K.Perm K0 := (List.perm_ext_iff_of_nodup k1 q1).mpr (fun x => (k2 x.1 x.2.1 x.2.2).trans (q2 x.1 x.2.1 x.2.2).symm)
      rw [(this.map _).sum_eq]
      exact ⟨le_refl _, fun x _ => dvd_mul_right _ _⟩)
  rw [realVecs_zero, realMat_sc] at this
  exact this

end Phenum
