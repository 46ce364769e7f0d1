import Verif.Props.ProgramSome
import Verif.Props.ProgramFloat
import Verif.Props.DistributionFloat
/-
C77: the command line program asked for a number of structures, `enumeration.py -enum -distribution all N -super`, with rounding errors.
-/
namespace Phenum
open Spec

/-- Every possible run of the call stops with the error. -/
def Spec.AlwaysRaises {α : Type} (call : Noisy α) (e : PyErr) : Prop := ∀ r, call r ↔ r = .error e

/-- What is requested when `n` structures are wanted and the shares are computed in double precision, whatever the random numbers: as `RequestsOk`, but a request may be up to four times one more than the share rounded up, and the total may miss `n` by one more in both directions. -/
structure Spec.RequestsNear (K : List (ℕ × M3 ℤ × Conc)) (cnt : ℕ × M3 ℤ × Conc → ℕ) (n : ℕ) (V : List ((ℕ × M3 ℤ × Conc) × ℕ)) : Prop where
  nodup : (V.map (·.1)).Nodup
  mem : ∀ x ∈ V, x.1 ∈ K ∧ 0 < x.2
  all : (K.map cnt).sum ≤ n → ∀ x v, (x, v) ∈ V ↔ x ∈ K ∧ v = cnt x
  share : n < (K.map cnt).sum → ∀ x ∈ V, x.2 ≤ 4 * (⌈(n : ℚ) * cnt x.1 / (K.map cnt).sum⌉₊ + 1)
  lower : n < (K.map cnt).sum → n ≤ (V.map (·.2)).sum + K.length
  upper : n < (K.map cnt).sum → ∀ M, (∀ x ∈ K, cnt x ≤ M) → (V.map (·.2)).sum ≤ n + ⌈(n : ℚ) * M / (K.map cnt).sum⌉₊

theorem RequestsOk.near {K : List (ℕ × M3 ℤ × Conc)} {cnt : ℕ × M3 ℤ × Conc → ℕ} {n : ℕ} {V : List ((ℕ × M3 ℤ × Conc) × ℕ)} (h : RequestsOk K cnt n V) :
    RequestsNear K cnt n V :=
  ⟨h.nodup, h.mem, h.all, fun a x hx => le_trans (h.share a x hx) (by omega), fun a => by have := h.lower a; omega,
    fun a M hM => by have := h.upper a M hM; omega⟩

/-- The program with rounding errors (Model/DriversFloat.lean) asked for `n` structures in a directory with the file lattice.in and no results of earlier runs, whatever the order of the
directory listing and the random numbers, if there are at most 2^50 structures: the requests `V` are as in `RequestsNear`; they are as in exact arithmetic (`RequestsOk`)
if no random number is within n/2^51 of a multiple of 1/(number of structures), or if the shares are whole numbers and no random number is within n/2^51 of 0 or 1.
If there are no requests every run stops with a NameError. Otherwise all runs finish with the same files, those of `OutputSome`. -/
def Spec.AlwaysListsSome (fl : ℚ → ℚ) (δ : ℝ) (text : Str) (lat : LatticeIn) (P0 : Matrix (Fin 3) (Fin 3) ℚ) (b0 : List (Fin 3 → ℚ)) (lo hi : ℕ) (C : ℕ → List Conc)
    (U : ℕ → List (M3 ℤ)) (cnt : ℕ → M3 ℤ → Conc → ℕ) : Prop :=
  ∀ (w : World) (a : Args) (lattice : Str) (d : Dir) (n : ℕ), (∀ l, (w.listdir l).Perm l) → (∀ i l, ((w.rnd i).shuffle l).Perm l) → (∀ i, 0 ≤ w.draws i) →
      NumberCall a lattice true n → FreshDir lattice text d →
    ∃ K : List (ℕ × M3 ℤ × Conc), K.Nodup ∧ (∀ n u c, (n, u, c) ∈ K ↔ lo ≤ n ∧ n ≤ hi ∧ u ∈ U n ∧ c ∈ C n) ∧
      ((K.map (fun x => cnt x.1 x.2.1 x.2.2)).sum ≤ 2 ^ 50 →
        ∃ V : List ((ℕ × M3 ℤ × Conc) × ℕ), RequestsNear K (fun x => cnt x.1 x.2.1 x.2.2) n V ∧
          ((∀ i, w.draws i < 1 ∧ ∀ j : ℤ, (n : ℚ) / 2 ^ 51 < |w.draws i - j / ((K.map (fun x => cnt x.1 x.2.1 x.2.2)).sum : ℕ)|) →
            RequestsOk K (fun x => cnt x.1 x.2.1 x.2.2) n V) ∧
          ((∀ x ∈ K, (K.map (fun x => cnt x.1 x.2.1 x.2.2)).sum ∣ n * cnt x.1 x.2.1 x.2.2) →
            (∀ i, (n : ℚ) / 2 ^ 51 < w.draws i ∧ w.draws i < 1 - (n : ℚ) / 2 ^ 51) → RequestsOk K (fun x => cnt x.1 x.2.1 x.2.2) n V) ∧
          (V = [] → AlwaysRaises (scriptEnumN fl δ w shippedTol a d) .nameError) ∧
          (V ≠ [] → ∃ (rows full : List EnumEntry) (d' : Dir), AlwaysReturns (scriptEnumN fl δ w shippedTol a d) d' ∧
            OutputSome lat P0 b0 lo hi C U cnt w.now K V d rows full d'))

/-- the requests in floating point -/
theorem requests_someF {fl : ℚ → ℚ} (hfl : RoundsToNearest fl) {l : List ℤ} {U : ℕ → List (M3 ℤ)} {C : ℕ → List Conc} {cnt : ℕ → M3 ℤ → Conc → ℕ}
    {K : List (ℕ × M3 ℤ × Conc)} {k : ℕ}
    (hF : TablesFacts l U C cnt K) (hk : ∀ x ∈ K, x.2.2.length = k) (hpos : ∀ x ∈ K, 1 ≤ cnt x.1 x.2.1 x.2.2) (n : ℕ) {draws : ℕ → ℚ} (hd : ∀ i, 0 ≤ draws i)
    (hG : (K.map (fun x => cnt x.1 x.2.1 x.2.2)).sum ≤ 2 ^ 50) :
    ∃ V : List ((ℕ × M3 ℤ × Conc) × ℕ), RequestsNear K (fun x => cnt x.1 x.2.1 x.2.2) n V ∧
      ((∀ i, draws i < 1 ∧ ∀ j : ℤ, (n : ℚ) / 2 ^ 51 < |draws i - j / ((K.map (fun x => cnt x.1 x.2.1 x.2.2)).sum : ℕ)|) →
        RequestsOk K (fun x => cnt x.1 x.2.1 x.2.2) n V) ∧
      ((∀ x ∈ K, (K.map (fun x => cnt x.1 x.2.1 x.2.2)).sum ∣ n * cnt x.1 x.2.1 x.2.2) →
        (∀ i, (n : ℚ) / 2 ^ 51 < draws i ∧ draws i < 1 - (n : ℚ) / 2 ^ 51) → RequestsOk K (fun x => cnt x.1 x.2.1 x.2.2) n V) ∧
      readEnum (printDist .all (distributeF fl (tablesOf l U C cnt) .none .all (some n) draws)) = .ok (V.map sysOfRequest) := by
  have hres : Ftype.all = .shape → ∀ l, Restrict.none ≠ .concs l := by intro h; cases h
  have htot := hF.total
  have hav := hF.avail
  by_cases hsame : distributeF fl (tablesOf l U C cnt) .none .all (some n) draws = distribute (tablesOf l U C cnt) .none .all (some n) draws
  · obtain ⟨V, h1, -, h3⟩ := requests_some hF hk hpos n hd
    exact ⟨V, RequestsOk.near h1, fun _ => h1, fun _ _ => h1, by rw [hsame]; exact h3⟩
  have hlt : n < grandTotal (entries .none (tablesOf l U C cnt)) := by
    by_contra hge
    apply hsame
    rw [(C76_all fl _ .none .all draws hF.ok hF.sizes hres).2 n (not_lt.mp hge), C34_ample _ .none .all draws hF.ok hF.sizes hres n (not_lt.mp hge)]
  have hM : ∀ key M, (∀ x ∈ K, cnt x.1 x.2.1 x.2.2 ≤ M) → available .all (entries .none (tablesOf l U C cnt)) key ≤ M := by
    intro key M h
    rcases Nat.eq_zero_or_pos (available .all (entries .none (tablesOf l U C cnt)) key) with h0 | h0
    · omega
    · obtain ⟨x, hx, rfl⟩ := hF.keys key h0
      rw [hav x hx]
      exact h x hx
  have hb := fun M hMx => C76_bounds hfl (tablesOf l U C cnt) .none .all draws hF.ok hF.sizes hres (by rw [htot]; exact hG) hd n hlt (K.map keyOf) (fun key hkey => by
      obtain ⟨x, hx, rfl⟩ := hF.keys key hkey
      exact List.mem_map_of_mem hx) M (fun key => hM key M hMx)
  set D := distributeF fl (tablesOf l U C cnt) .none .all (some n) draws with hD
  obtain ⟨b1, b2, b3, -⟩ := hb _ (fun x hx => List.single_le_sum (by simp) _ (List.mem_map_of_mem hx))
  obtain ⟨V, hV, hVK, hread⟩ := requests_ok hF hk (D := D) (fun p hp => (b2 p hp).2.1)
  have hsum : (V.map (·.2)).sum = (D.map (·.2)).sum := by
    rw [hV, List.map_map]; rfl
  have hmemV : ∀ x ∈ V, (keyOf x.1, x.2) ∈ D := by
    intro x hx
    rw [hV]
    exact List.mem_map.mpr ⟨x, hx, rfl⟩
  rw [htot] at hlt
  refine ⟨V, ⟨?_, ?_, ?_, ?_, ?_, ?_⟩, ?_, ?_, hread⟩
  · have := b1
    rw [hV, List.map_map] at this
    have h2 : (V.map (·.1)).map keyOf = V.map ((fun x : DKey × ℕ => x.1) ∘ fun x => (keyOf x.1, x.2)) := by rw [List.map_map]; rfl
    rw [← h2] at this
    exact this.of_map
  · intro x hx
    exact ⟨hVK x hx, (b2 _ (hmemV x hx)).1⟩
  · exact fun hn => absurd hlt (not_lt.mpr hn)
  · intro _ x hx
    have := (b2 _ (hmemV x hx)).2.2
    rw [hav _ (hVK x hx), htot] at this
    exact this
  · intro _
    rw [List.length_map] at b3
    rw [hsum]
    exact b3
  · intro _ M hMx
    rw [hsum]
    have := (hb M hMx).2.2.2
    rw [htot] at this
    exact this
  · intro hfar
    refine absurd (C76_same hfl _ .none .all draws hF.ok hF.sizes hres (by rw [htot]; exact hG) n (fun i => ⟨hd i, (hfar i).1⟩) ?_) hsame
    intro i j
    rw [htot]
    exact (hfar i).2 j
  · intro hw haway
    rcases Nat.eq_zero_or_pos n with hn0 | hn0
    · exfalso
      apply hsame
      have h0 : ∀ (rel : List (DKey × ℕ)) g, recountLoopF fl 0 g rel 4 draws (0, []) = (0, []) ∧ recountLoop 0 g rel 4 draws (0, []) = (0, []) :=
        fun rel g => ⟨recountLoopF_done (le_refl _), recountLoop_done (le_refl _)⟩
      obtain ⟨rel, e1, e2, -⟩ := distributeF_setup (tables := tablesOf l U C cnt) (res := .none) (ft := .all) hF.ok hF.sizes hres (n := 0) (by rw [htot]; omega)
      rw [hD, hn0, e1, e2, (h0 _ _).1, (h0 _ _).2]
    · refine absurd (distributeF_whole hfl _ .none .all draws hF.ok hF.sizes hres (by rw [htot]; exact hG) n hn0 (by rw [htot]; exact hlt.le) haway ?_) hsame
      intro key
      rcases Nat.eq_zero_or_pos (available .all (entries .none (tablesOf l U C cnt)) key) with h0 | h0
      · rw [h0, Nat.mul_zero]; exact dvd_zero _
      · obtain ⟨x, hx, rfl⟩ := hF.keys key h0
        rw [hav x hx, htot]
        exact hw x hx

/-- the distribution over the tables of the run -/
theorem makeEnumInF_tables {fl : ℚ → ℚ} {w : World} {d1 : Dir} {l' : List ℤ} {tables : List PolyaTable} (h : sizesUsed w d1 "polya.out".toList none = .ok l' ∧
      readTables d1 "polya.out".toList l' = .ok tables ∧ ((distSummary tables .none).2 = 0 → relKeys (distSummary tables .none).1 .all = []))
    (number : Option ℤ) (save : Bool) :
    makeEnumInF fl w "polya.out".toList "all".toList "enum.in".toList number none save none d1 = .ok (dictSet d1 "enum.in".toList
      (printDist .all (distributeF fl tables .none .all (number.map Int.toNat) w.draws))) := by
  obtain ⟨h1, h2, h3⟩ := h
  have hpy : distributePyF fl tables .none .all (number.map Int.toNat) w.draws = .ok (distributeF fl tables .none .all (number.map Int.toNat) w.draws) := by
    unfold distributePyF
    rw [if_neg (fun hh => hh.2 (h3 hh.1))]
  unfold makeEnumInF
  rw [h1]
  show (do
    let res ← readRestrict d1 none
    let tables ← readTables d1 "polya.out".toList l'
    let ft ← ftypeOf "all".toList
    let distr ← distributePyF fl tables res ft (number.map Int.toNat) w.draws
    if "all".toList = "all".toList ∨ save = true then .ok (dictSet d1 "enum.in".toList (printDist ft distr)) else .ok d1 : Py Dir) = _
  rw [show readRestrict d1 none = .ok .none from rfl, h2, show ftypeOf "all".toList = .ok .all from rfl]
  show (do
    let distr ← distributePyF fl tables .none .all (number.map Int.toNat) w.draws
    if "all".toList = "all".toList ∨ save = true then .ok (dictSet d1 "enum.in".toList (printDist .all distr)) else .ok d1 : Py Dir) = _
  rw [hpy]
  show (if "all".toList = "all".toList ∨ save = true then (.ok (dictSet d1 "enum.in".toList (printDist .all (distributeF fl tables .none .all (number.map Int.toNat) w.draws))) : Py Dir) else .ok d1) = _
  rw [if_pos (Or.inl rfl)]

/-- the call of the distribution -/
theorem number_enumInN {fl : ℚ → ℚ} {δ : ℝ} {w : World} {tol : Tol} {a : Args} {lattice : Str} {supers : Bool} {n : ℕ} (ha : NumberCall a lattice supers n) {d1 : Dir}
    (hany : anyNumbered d1 "polya.out".toList = true) {s : Str}
    (hmake : makeEnumInF fl w "polya.out".toList "all".toList "enum.in".toList (some (n : ℤ)) none a.savedist none d1 = .ok (dictSet d1 "enum.in".toList s)) :
    enumInN fl δ w tol a "polya.out".toList "enum.in".toList ["all".toList, natStr n] d1 = sure (.ok (dictSet d1 "enum.in".toList s)) := by
  unfold enumInN
  rw [hany]
  simp only [if_true, noisy_pure, sure_ok_bind]
  rw [show pyGet ["all".toList, natStr n] 0 = .ok "all".toList from rfl, show pyGet ["all".toList, natStr n] 1 = .ok (natStr n) from rfl]
  simp only [sure_ok_bind]
  rw [if_neg (lower_natStr n), strip_word (natStr_word n), parseInt_natStr, show (Except.map some (Except.ok (n : ℤ)) : Py _) = .ok (some (n : ℤ)) from rfl,
    sure_ok_bind, ha.sizes, ha.filter, Option.map_none, show lowerStr "all".toList = "all".toList by decide, hmake]

/-- the run of the program from the requests on -/
theorem number_runN {fl : ℚ → ℚ} {δ : ℝ} {w : World} {tol : Tol} {a : Args} {lattice text : Str} {supers : Bool} {n : ℕ} (ha : NumberCall a lattice supers n) {d d1 : Dir}
    (hd : FreshDir lattice text d) {lat : LatticeIn} (hlat : readLattice text = .ok lat)
    (hpolya : polyaOutN fl δ tol lattice "polya.out".toList d = sure (.ok d1)) (hany : anyNumbered d1 "polya.out".toList = true) {s : Str}
    (hmake : makeEnumInF fl w "polya.out".toList "all".toList "enum.in".toList (some (n : ℤ)) none a.savedist none d1 = .ok (dictSet d1 "enum.in".toList s))
    {sys : List (List ℤ × List ℤ × ℤ)} (hread : readEnum s = .ok sys) {r : Py Dir}
    (hwr : enumWriteN fl δ w tol lat supers false "enum.out".toList sys (dictSet d1 "enum.in".toList s) = sure r) :
    scriptEnumN fl δ w tol a d = sure r := by
  have hout : enumOutN fl δ w tol a "enum.in".toList "enum.out".toList d = sure r := by
    unfold enumOutN
    rw [ha.lattice]
    unfold readFile
    rw [hd.text]
    have e1 : (do let s ← (Except.ok text : Py Str); readLattice s) = .ok lat := hlat
    rw [e1, sure_ok_bind, hd.noEnumIn, like_of_numbered hd.noPolya]
    simp only [Option.isSome_none, Bool.false_eq_true, if_false]
    rw [hpolya, sure_ok_bind, ha.distribution, Option.getD_some, number_enumInN ha hany hmake, sure_ok_bind]
    have e2 : dictGet (dictSet d1 "enum.in".toList s) "enum.in".toList = some s := by rw [dictGet_set, if_pos rfl]
    rw [e2]
    have e3 : (do let s ← (Except.ok s : Py Str); readEnum s) = .ok sys := hread
    simp only
    rw [e3, sure_ok_bind, ha.super, ha.accept]
    exact hwr
  unfold scriptEnumN
  rw [number_names ha, number_check ha]
  simp only [noisy_pure, sure_ok_bind, ha.polya, ha.enum, ha.distribution, Option.getD_some, if_true, Bool.false_eq_true, if_false, hout]
  cases r with
  | ok v => rw [sure_ok_bind, if_neg (by simp)]
  | error e => rw [sure_error_bind]

/-- the program with rounding errors where all numbers are small enough -/
theorem some_structures_noise {fl : ℚ → ℚ} {δ : ℝ} {text : Str} {lat : LatticeIn} {P0 : Matrix (Fin 3) (Fin 3) ℚ} {b0 : List (Fin 3 → ℚ)} {lo hi k : ℕ} {T : Set ℚ}
    {C : ℕ → List Conc} (h : EnumInput text lat P0 b0 lo hi k T C) (t5 : shippedTol.conc ∈ T) {K0 K' : ℝ} {g D : ℕ} (F : RoundOk fl δ shippedTol lat P0 b0 lo hi k C K0 K' g D)
    {U : ℕ → List (M3 ℤ)} {cnt : ℕ → M3 ℤ → Conc → ℕ} (hcnt : CountsAll shippedTol lat P0 b0 lo hi C U cnt)
    (hfits : ∀ n, lo ≤ n → n ≤ hi → (countTable n (U n) (C n) (cnt n)).Fits)
    (hdel : ∀ n c, lo ≤ n → n ≤ hi → c ∈ C n → NoRandomSearch lat.arrowFractions c) :
    AlwaysListsSome fl δ text lat P0 b0 lo hi C U cnt := by
  intro w a lattice d n hw hsh hdraws ha hd
  obtain ⟨l', d1, K, hF, hKm, hk, hpos, hpolya, hany, hmake, hd1t, hd1o⟩ := tables_some h F.exact t5 hcnt hfits hw hd
  refine ⟨K, hF.nodup, hKm, fun hG => ?_⟩
  obtain ⟨V, hV, hV1, hV2, hread⟩ := requests_someF F.nearest hF hk hpos n hdraws hG
  have hmk := makeEnumInF_tables (fl := fl) hmake (some (n : ℤ)) a.savedist
  refine ⟨V, hV, hV1, hV2, ?_, ?_⟩
  · intro hV0
    have : scriptEnumN fl δ w shippedTol a d = sure (.error .nameError) := by
      refine number_runN ha hd h.read (F.polyaOut h t5 hcnt hd hpolya) hany hmk (sys := V.map sysOfRequest) hread ?_
      rw [hV0, List.map_nil]
      unfold enumWriteN
      rw [h.geometry, sure_ok_bind, enumLoopN, noisy_pure, sure_ok_bind, if_pos rfl]
    intro r
    rw [this]
    exact Iff.rfl
  intro hV0
  obtain ⟨rows, full, h1, h2⟩ := loop_some h F.exact hcnt hdel hsh hF.nodup hKm hV.nodup (fun x hx => (hV.mem x hx).1)
  refine ⟨rows, full, _, always_of_sure ?_, output_some h2 hread hd1t hd1o⟩
  refine number_runN ha hd h.read (F.polyaOut h t5 hcnt hd hpolya) hany hmk (sys := V.map sysOfRequest) hread ?_
  have hloop : enumLoopN fl δ w shippedTol lat true false 0 (V.map sysOfRequest) = sure (.ok rows) := by
    refine (enumLoopN_follows _ _ fun x hx i => ?_) rows h1
    obtain ⟨⟨⟨n, u, c⟩, v⟩, hxV, rfl⟩ := List.mem_map.mp hx
    obtain ⟨a1, a2, a3, a4⟩ := (hKm n u c).mp (hV.mem ((n, u, c), v) hxV).1
    exact F.enumSystem h a1 a2 ((hcnt n a1 a2).2.2.1 u a3) a4 _ _ _ _
  unfold enumWriteN
  rw [h.geometry, sure_ok_bind, hloop, sure_ok_bind, if_neg (by simpa using hV0)]
  rfl

section
variable {fl : ℚ → ℚ} {δ : ℝ} {text : Str} {lat : LatticeIn} {P0 : Matrix (Fin 3) (Fin 3) ℚ} {b0 : List (Fin 3 → ℚ)} {lo hi k : ℕ}

/-- auxiliary: the parts put together -/
theorem some_noise_at {T : Set ℚ} {C : ℕ → List Conc} (h : EnumInput text lat P0 b0 lo hi k T C) (hT : (1 / 10 ^ 10 : ℚ) ∈ T) (hsize : b0.length * hi ≤ 20)
    (harr : lat.arrowFractions.sum = 0 ∨ b0.length * hi < 12) (hN : k ^ (b0.length * hi) ≤ 100000)
    {K K' : ℝ} {g D : ℕ} (h0 : 0 ≤ δ) (hlt : δ < 1 / 10 ^ 10) (hc : Coarse (realMat P0) (realVecs b0) K K' g D (1 / 10 ^ 7 + δ)) (hfl : RoundsToNearest fl)
    (hconc : ∀ n, lo ≤ n → n ≤ hi → Follows (sizeConcsF fl (1 / 10 ^ 10) lat n) (sizeConcs (1 / 10 ^ 10) lat n))
    (hkept : ArrowsKept fl lat (b0.length * hi)) (hfit : NumbersFit lat (b0.length * hi) k) :
    ∃ (U : ℕ → List (M3 ℤ)) (cnt : ℕ → M3 ℤ → Conc → ℕ), CountsAll shippedTol lat P0 b0 lo hi C U cnt ∧
      AlwaysListsSome fl δ text lat P0 b0 lo hi C U cnt := by
  have F := round_ok_at h hsize h0 hlt hc hfl hconc hkept hfit
  obtain ⟨U, cnt, hcnt, -⟩ := every_structure_once_at h F.exact hT
  obtain ⟨f1, -⟩ := small_ok h hsize harr hcnt
  refine ⟨U, cnt, hcnt, some_structures_noise h hT F hcnt f1 (fun n c a b hc => ?_)⟩
  obtain ⟨c1, c2⟩ := (h.concs n a b).2.2 c hc
  exact no_random_search h.fractions.2 (by have := h.species.1; omega) c1 (by rw [c2]; exact Nat.mul_le_mul_left _ b) hN harr

/-- C77. The program with rounding errors asked for a number of structures, with the tolerances of the code and without restrictions: `k` species and at most `N` atoms per supercell
with `k^N` at most 100000. -/
theorem C77_free (h : CrystalInput text lat P0 b0 lo hi k) (hfree : lat.restricted = false) (hsize : b0.length * hi ≤ 20) (hN : k ^ (b0.length * hi) ≤ 100000)
    {K K' : ℝ} {g D : ℕ} (h0 : 0 ≤ δ) (hlt : δ < 1 / 10 ^ 10) (hc : Coarse (realMat P0) (realVecs b0) K K' g D (1 / 10 ^ 7 + δ)) (hfl : RoundsToNearest fl) :
    ∃ (U : ℕ → List (M3 ℤ)) (cnt : ℕ → M3 ℤ → Conc → ℕ), CountsAll shippedTol lat P0 b0 lo hi (fun n => concsFree n k b0.length) U cnt ∧
      AlwaysListsSome fl δ text lat P0 b0 lo hi (fun n => concsFree n k b0.length) U cnt := by
  have hz := free_fractions hfree
  refine some_noise_at (free_input h hfree (lt_of_le_of_lt (size_hi h hsize) (by norm_num))) (Set.mem_univ _) hsize (Or.inl (by rw [hz]; simp)) hN h0 hlt hc hfl
    (fun n _ _ => sizeConcsF_free fl _ hfree n) (arrowsKept_zero hfl (by rw [hz]; intro a ha; exact List.eq_of_mem_replicate ha) _) ?_
  unfold NumbersFit
  rw [if_pos (by rw [hz]; simp)]
  exact le_trans (Nat.mul_le_mul (Nat.mul_le_mul_left _ hsize) hN) (by norm_num)

/-- C77. With ranges of concentrations and displaced atoms. -/
theorem C77_ranges {rows : List ConcRange} {d : ℤ} (h : CrystalInput text lat P0 b0 lo hi k) (hr : RangesInput lat k rows d)
    (hle : ∀ r ∈ rows, max r.1 r.2.1 ≤ d) (hd : d ≤ 10 ^ 8) (hsize : b0.length * hi ≤ 20) (harr : lat.arrowFractions.sum = 0 ∨ b0.length * hi < 12)
    (hN : k ^ (b0.length * hi) ≤ 100000) (hne : ∃ n c, lo ≤ n ∧ n ≤ hi ∧ InConcRanges rows (b0.length * n) c)
    {K K' : ℝ} {g D : ℕ} (h0 : 0 ≤ δ) (hlt : δ < 1 / 10 ^ 10) (hc : Coarse (realMat P0) (realVecs b0) K K' g D (1 / 10 ^ 7 + δ)) (hfl : RoundsToNearest fl)
    (hkept : ArrowsKept fl lat (b0.length * hi)) (hfit : NumbersFit lat (b0.length * hi) k) :
    ∃ (C : ℕ → List Conc), (∀ n, lo ≤ n → n ≤ hi → (C n).Nodup ∧ ∀ c, c ∈ C n ↔ InConcRanges rows (b0.length * n) c) ∧
      ∃ (U : ℕ → List (M3 ℤ)) (cnt : ℕ → M3 ℤ → Conc → ℕ), CountsAll shippedTol lat P0 b0 lo hi C U cnt ∧
        AlwaysListsSome fl δ text lat P0 b0 lo hi C U cnt := by
  have hd' : (d : ℚ) ≤ 10 ^ 8 := by exact_mod_cast hd
  obtain ⟨C, h1, h2⟩ := ranges_enum h hr hsize hne (t := 1 / 10 ^ 10) (by norm_num) (by linarith)
  have hb : 0 < b0.length := by
    have := List.length_pos_iff.mpr h.cell.nonempty
    rwa [realVecs_length] at this
  refine ⟨C, h1, some_noise_at h2 rfl hsize harr hN h0 hlt hc hfl (fun n a b => ?_) hkept hfit⟩
  have hNN : n * lat.basisVecs.length ≤ 20 := by
    rw [geometry_basis h.geometry, mul_comm]
    exact le_trans (Nat.mul_le_mul_left _ b) hsize
  refine sizeConcsF_ranges hfl hr (by have := h.species.2.1; omega) hle ?_ ?_
  · rw [geometry_basis h.geometry]
    exact Nat.mul_pos (lt_of_lt_of_le h.lo_pos a) hb
  · have h3 : ((n * lat.basisVecs.length : ℕ) : ℤ) ≤ 20 := by exact_mod_cast hNN
    have h4 := hr.denom.1
    nlinarith

end

/-- the structures of one supercell, without arrows: at most as many as labellings -/
theorem cell_total {aconcs : List ℚ} {k N : ℕ} {C : List Conc} (hCn : C.Nodup) (hC : ∀ c ∈ C, c.length = k ∧ c.sum = N ∧ NoArrows aconcs c) (hlen : k ≤ aconcs.length)
    {R : Config → Config → Prop} {cnt : Conc → ℕ} (h : ∀ c ∈ C, ∃ L, IsTransversal (Composed c aconcs 6) R L ∧ L.length = cnt c) :
    (C.map cnt).sum ≤ k ^ N := by
  choose! L hL using h
  have hnd : (C.flatMap L).Nodup := by
    rw [List.nodup_flatMap]
    refine ⟨fun c hc => (hL c hc).1.nodup, ?_⟩
    apply List.Pairwise.imp_of_mem _ hCn
    intro c c' hc hc' hne z hz hz'
    apply hne
    have h1 := (hL c hc).1.mem z hz
    have h2 := (hL c' hc').1.mem z hz'
    apply List.ext_getElem (by rw [(hC c hc).1, (hC c' hc').1])
    intro i hi hi'
    have e1 := (h1.counts i hi).1
    have e2 := (h2.counts i hi').1
    rw [e1, List.getD_eq_getElem _ _ hi, List.getD_eq_getElem _ _ hi'] at e2
    exact e2
  have hw := words_le ((List.range k).map (fun b : ℕ => ((-1 : ℤ), b + 1))) N hnd (by
    intro z hz
    obtain ⟨c, hc, hz⟩ := List.mem_flatMap.mp hz
    obtain ⟨c1, c2, c3⟩ := hC c hc
    have h1 := (hL c hc).1.mem z hz
    refine ⟨by rw [(composed_contents c aconcs (by rw [c1]; exact hlen)).length z h1, c2], fun p hp => ?_⟩
    have h2 := h1.species p hp
    have h3 : p.1 = -1 := by
      rcases h1.arrow p hp with h | h
      · exact h
      · exfalso
        have h4 := (h1.counts (p.2 - 1) (by omega)).2
        rw [c3 _ (by omega), List.countP_eq_zero] at h4
        have := h4 p hp
        rw [decide_eq_true_eq] at this
        exact this ⟨h.1, by omega⟩
    refine List.mem_map.mpr ⟨p.2 - 1, List.mem_range.mpr (by omega), ?_⟩
    ext
    · exact h3.symm
    · show p.2 - 1 + 1 = p.2
      omega)
  rw [List.length_flatMap, List.length_map, List.length_range] at hw
  refine le_trans (le_of_eq ?_) hw
  congr 1
  exact List.map_congr_left (fun c hc => ((hL c hc).2).symm)

/-- C77. Without displaced atoms, with at most 20 atoms per supercell and at most 100000 labellings, the number of all structures is at most 2^48, below the limit of 2^50 of the other theorems. -/
theorem C77_total {text : Str} {lat : LatticeIn} {P0 : Matrix (Fin 3) (Fin 3) ℚ} {b0 : List (Fin 3 → ℚ)} {lo hi k : ℕ} {T : Set ℚ}
    {C : ℕ → List Conc} (h : EnumInput text lat P0 b0 lo hi k T C) (hsize : b0.length * hi ≤ 20) (harr : lat.arrowFractions.sum = 0) (hN : k ^ (b0.length * hi) ≤ 100000)
    {tol : Tol} {U : ℕ → List (M3 ℤ)} {cnt : ℕ → M3 ℤ → Conc → ℕ} (hcnt : CountsAll tol lat P0 b0 lo hi C U cnt)
    {K : List (ℕ × M3 ℤ × Conc)} (hK : K.Nodup) (hKm : ∀ n u c, (n, u, c) ∈ K ↔ lo ≤ n ∧ n ≤ hi ∧ u ∈ U n ∧ c ∈ C n) :
    (K.map (fun x => cnt x.1 x.2.1 x.2.2)).sum ≤ 2 ^ 48 := by
  have hb : 0 < b0.length := by
    have := List.length_pos_iff.mpr h.cell.nonempty
    rwa [realVecs_length] at this
  have h20 : hi ≤ 20 := le_trans (Nat.le_mul_of_pos_left hi hb) hsize
  let A : List (ℕ × M3 ℤ × Conc) := (List.range' lo (hi + 1 - lo)).flatMap (fun n => (U n).flatMap (fun u => (C n).map (fun c => (n, u, c))))
  have hsub : K.Subperm A := by
    apply hK.subperm
    rintro ⟨n, u, c⟩ hx
    obtain ⟨h1, h2, h3, h4⟩ := (hKm n u c).mp hx
    have hlo := h.lo_hi
    refine List.mem_flatMap.mpr ⟨n, List.mem_range'_1.mpr ⟨h1, by omega⟩, List.mem_flatMap.mpr ⟨u, h3, List.mem_map.mpr ⟨c, h4, rfl⟩⟩⟩
  have hle : (K.map (fun x => cnt x.1 x.2.1 x.2.2)).sum ≤ (A.map (fun x => cnt x.1 x.2.1 x.2.2)).sum := by
    obtain ⟨K', p1, p2⟩ := hsub
    rw [← (p1.map _).sum_eq]
    exact (p2.map _).sum_le_sum (by simp)
  refine le_trans hle ?_
  have hA : (A.map (fun x => cnt x.1 x.2.1 x.2.2)).sum ≤ (List.range' lo (hi + 1 - lo)).length * (21 ^ 6 * 100000) := by
    show (((List.range' lo (hi + 1 - lo)).flatMap (fun n => (U n).flatMap (fun u => (C n).map (fun c => (n, u, c))))).map (fun x => cnt x.1 x.2.1 x.2.2)).sum ≤ _
    rw [sum_flatMap]
    refine sum_map_le _ _ _ (fun n hn => ?_)
    rw [List.mem_range'_1] at hn
    have h1 : lo ≤ n := hn.1
    have h2 : n ≤ hi := by omega
    have hn1 : 1 ≤ n := le_trans h.lo_pos h1
    obtain ⟨-, u2, u3, u4⟩ := hcnt n h1 h2
    rw [sum_flatMap]
    refine le_trans (sum_map_le _ 100000 _ (fun u hu => ?_)) ?_
    · rw [List.map_map]
      obtain ⟨G, -, -, -, -, g5⟩ := u4 u hu
      refine le_trans (cell_total (aconcs := lat.arrowFractions) (k := k) (N := b0.length * n) (h.concs n h1 h2).2.1 (fun c hc => ?_) h.fractions.1
        (cnt := fun c => cnt n u c) (fun c hc => (g5 c hc).2.2)) ?_
      · obtain ⟨c1, c2⟩ := (h.concs n h1 h2).2.2 c hc
        exact ⟨c1, c2, no_arrows h.fractions.2 harr c⟩
      · exact le_trans (Nat.pow_le_pow_right (by have := h.species.1; omega) (Nat.mul_le_mul_left _ h2)) hN
    · exact Nat.mul_le_mul_right _ (le_trans (hnf_count hn1 u2 u3) (Nat.pow_le_pow_left (by omega) 6))
  refine le_trans hA ?_
  rw [List.length_range']
  have h3 : hi + 1 - lo ≤ 20 := by have := h.lo_pos; omega
  calc (hi + 1 - lo) * (21 ^ 6 * 100000) ≤ 20 * (21 ^ 6 * 100000) := Nat.mul_le_mul_right _ h3
    _ ≤ 2 ^ 48 := by norm_num

/-! ## consequences -/

section
variable {fl : ℚ → ℚ} {δ : ℝ} {text : Str} {lat : LatticeIn} {P0 : Matrix (Fin 3) (Fin 3) ℚ} {b0 : List (Fin 3 → ℚ)} {lo hi : ℕ}
  {C : ℕ → List Conc} {U : ℕ → List (M3 ℤ)} {cnt : ℕ → M3 ℤ → Conc → ℕ}

/-- C77. Fewer than a million structures of each type, and shares that are whole numbers: every run lists exactly `n` different structures, if no random number is within n/2^51 of
0 or 1. -/
theorem C77_exact_number (hrun : AlwaysListsSome fl δ text lat P0 b0 lo hi C U cnt) {w : World} {a : Args} {lattice : Str} {d : Dir} {n : ℕ} (hw : ∀ l, (w.listdir l).Perm l)
    (hsh : ∀ i l, ((w.rnd i).shuffle l).Perm l) (hdr : ∀ i, (n : ℚ) / 2 ^ 51 < w.draws i ∧ w.draws i < 1 - (n : ℚ) / 2 ^ 51) (ha : NumberCall a lattice true n)
    (hd : FreshDir lattice text d) (hn : 0 < n)
    (hlt : ∀ s u c, lo ≤ s → s ≤ hi → u ∈ U s → c ∈ C s → cnt s u c < 1000000)
    (hwhole : ∀ K : List (ℕ × M3 ℤ × Conc), K.Nodup → (∀ n u c, (n, u, c) ∈ K ↔ lo ≤ n ∧ n ≤ hi ∧ u ∈ U n ∧ c ∈ C n) →
      n ≤ (K.map (fun x => cnt x.1 x.2.1 x.2.2)).sum ∧ (K.map (fun x => cnt x.1 x.2.1 x.2.2)).sum ≤ 2 ^ 50 ∧
      ∀ x ∈ K, (K.map (fun x => cnt x.1 x.2.1 x.2.2)).sum ∣ n * cnt x.1 x.2.1 x.2.2) :
    ∃ (rows full : List EnumEntry) (d' : Dir), AlwaysReturns (scriptEnumN fl δ w shippedTol a d) d' ∧
      dictGet d' "enum.out".toList = some (enumOutFile (lat.enumParams (P0, b0)) w.now rows) ∧ rows.Nodup ∧ rows.length = n ∧
      (∀ row ∈ rows, row ∈ full) ∧ ListsAll (realMat P0) (realVecs b0) lo hi C lat.arrowFractions full := by
  obtain ⟨K, k1, k2, k3⟩ := hrun w a lattice d n hw hsh (fun i => le_trans (by positivity) (hdr i).1.le) ha hd
  obtain ⟨h1, h50, h2⟩ := hwhole K k1 k2
  obtain ⟨V, -, -, k6, -, k4⟩ := k3 h50
  have k3 := k6 h2 hdr
  obtain ⟨v1, v2⟩ := k3.whole hn h1 h2
  have hV : V ≠ [] := by
    rintro rfl
    simp at v2
    omega
  obtain ⟨rows, full, d', r1, r2, r3, r4, r5, -, r7, -⟩ := k4 hV
  refine ⟨rows, full, d', r1, r2, r3, ?_, r4, r5⟩
  rw [r7]
  refine Eq.trans ?_ v2
  congr 1
  apply List.map_congr_left
  rintro ⟨x, v⟩ hx
  obtain ⟨x1, x2⟩ := (v1 x v).mp hx
  obtain ⟨s1, s2, s3, s4⟩ := (k2 x.1 x.2.1 x.2.2).mp x1
  refine delivered_le ?_ (k3.mem _ hx).2 (hlt _ _ _ s1 s2 s3 s4)
  simp only at x2 ⊢
  have h0 : 0 < (K.map (fun x => cnt x.1 x.2.1 x.2.2)).sum := by omega
  have h5 : v * (K.map (fun x => cnt x.1 x.2.1 x.2.2)).sum ≤ cnt x.1 x.2.1 x.2.2 * (K.map (fun x => cnt x.1 x.2.1 x.2.2)).sum := by
    rw [x2, Nat.mul_comm (cnt x.1 x.2.1 x.2.2)]
    exact Nat.mul_le_mul_right _ h1
  exact Nat.le_of_mul_le_mul_right h5 h0

/-- C77. If at least as many structures are requested as there are, every run lists all, whatever the random numbers. -/
theorem C77_ample (hrun : AlwaysListsSome fl δ text lat P0 b0 lo hi C U cnt) {w : World} {a : Args} {lattice : Str} {d : Dir} {n : ℕ} (hw : ∀ l, (w.listdir l).Perm l)
    (hsh : ∀ i l, ((w.rnd i).shuffle l).Perm l) (hdr : ∀ i, 0 ≤ w.draws i) (ha : NumberCall a lattice true n) (hd : FreshDir lattice text d)
    (hne : ∃ s u c, lo ≤ s ∧ s ≤ hi ∧ u ∈ U s ∧ c ∈ C s)
    (hall : ∀ K : List (ℕ × M3 ℤ × Conc), K.Nodup → (∀ n u c, (n, u, c) ∈ K ↔ lo ≤ n ∧ n ≤ hi ∧ u ∈ U n ∧ c ∈ C n) →
      (K.map (fun x => cnt x.1 x.2.1 x.2.2)).sum ≤ n ∧ (K.map (fun x => cnt x.1 x.2.1 x.2.2)).sum ≤ 2 ^ 50) :
    ∃ (rows : List EnumEntry) (d' : Dir), AlwaysReturns (scriptEnumN fl δ w shippedTol a d) d' ∧
      dictGet d' "enum.out".toList = some (enumOutFile (lat.enumParams (P0, b0)) w.now rows) ∧
      ListsAll (realMat P0) (realVecs b0) lo hi C lat.arrowFractions rows := by
  obtain ⟨K, k1, k2, k3⟩ := hrun w a lattice d n hw hsh hdr ha hd
  obtain ⟨V, k3, -, -, -, k4⟩ := k3 (hall K k1 k2).2
  have hV := k3.all (hall K k1 k2).1
  have hV0 : V ≠ [] := by
    obtain ⟨s, u, c, hx⟩ := hne
    exact List.ne_nil_of_mem ((hV (s, u, c) _).mpr ⟨(k2 s u c).mpr hx, rfl⟩)
  obtain ⟨rows, full, d', r1, r2, r3, r4, r5, r6, r7, -⟩ := k4 hV0
  refine ⟨rows, d', r1, r2, ?_⟩
  have hVK : V.Perm (K.map (fun x => (x, cnt x.1 x.2.1 x.2.2))) := by
    refine (List.perm_ext_iff_of_nodup k3.nodup.of_map (k1.map (fun x y h => (Prod.mk.inj h).1))).mpr ?_
    rintro ⟨x, v⟩
    rw [hV, List.mem_map]
    constructor
    · rintro ⟨h1, rfl⟩; exact ⟨x, h1, rfl⟩
    · rintro ⟨y, h1, e⟩
      obtain ⟨rfl, rfl⟩ := Prod.mk.inj e
      exact ⟨h1, rfl⟩
  have hlen : rows.length = full.length := by
    rw [r7, r6, (hVK.map _).sum_eq, List.map_map]
    congr 1
    apply List.map_congr_left
    intro x _
    exact delivered_all _
  have hperm : rows.Perm full := (List.subperm_of_subset r3 r4).perm_of_length_le (by omega)
  refine ⟨r3, fun row hrow => r5.valid row (r4 row hrow), ?_⟩
  intro n M a b hM χ hper c hc hχ
  obtain ⟨row, ⟨h1, h2⟩, hu⟩ := r5.complete n M a b hM χ hper c hc hχ
  exact ⟨row, ⟨hperm.mem_iff.mpr h1, h2⟩, fun y hy => hu y ⟨r4 y hy.1, hy.2⟩⟩

/-- C77. Asked for no structures, every run stops with a NameError, also with rounding errors. -/
theorem C77_zero (hrun : AlwaysListsSome fl δ text lat P0 b0 lo hi C U cnt) {w : World} {a : Args} {lattice : Str} {d : Dir} (hw : ∀ l, (w.listdir l).Perm l)
    (hsh : ∀ i l, ((w.rnd i).shuffle l).Perm l) (hdr : ∀ i, 0 ≤ w.draws i) (ha : NumberCall a lattice true 0) (hd : FreshDir lattice text d)
    (h50 : ∀ K : List (ℕ × M3 ℤ × Conc), K.Nodup → (∀ n u c, (n, u, c) ∈ K ↔ lo ≤ n ∧ n ≤ hi ∧ u ∈ U n ∧ c ∈ C n) →
      (K.map (fun x => cnt x.1 x.2.1 x.2.2)).sum ≤ 2 ^ 50) :
    AlwaysRaises (scriptEnumN fl δ w shippedTol a d) .nameError := by
  obtain ⟨K, k1, k2, k3⟩ := hrun w a lattice d 0 hw hsh hdr ha hd
  obtain ⟨V, k3, -, -, k5, -⟩ := k3 (h50 K k1 k2)
  apply k5
  rw [List.eq_nil_iff_forall_not_mem]
  rintro ⟨x, v⟩ hx
  have h0 := (k3.mem _ hx).2
  rcases Nat.eq_zero_or_pos (K.map (fun x => cnt x.1 x.2.1 x.2.2)).sum with h | h
  · obtain ⟨h1, h2⟩ := (k3.all h.le x v).mp hx
    have := List.single_le_sum (by simp) _ (List.mem_map_of_mem (f := fun x : ℕ × M3 ℤ × Conc => cnt x.1 x.2.1 x.2.2) h1)
    simp only at h0
    omega
  · have h1 := k3.upper h _ (fun y hy => List.single_le_sum (by simp) _ (List.mem_map_of_mem (f := fun x : ℕ × M3 ℤ × Conc => cnt x.1 x.2.1 x.2.2) hy))
    have h2 := List.single_le_sum (by simp) _ (List.mem_map_of_mem (f := fun x : (ℕ × M3 ℤ × Conc) × ℕ => x.2) hx)
    simp at h1 h2 h0
    omega

end

/-- C77 for the simple cubic file of the examples in double precision. -/
theorem sc_some_noise {δ : ℝ} (h0 : 0 ≤ δ) (hlt : δ < 1 / 10 ^ 10) : ∃ (U : ℕ → List (M3 ℤ)) (cnt : ℕ → M3 ℤ → Conc → ℕ),
    CountsAll shippedTol scLat (Matrix.of ![![1, 0, 0], ![0, 1, 0], ![0, 0, 1]]) [![0, 0, 0]] 1 2 (fun n => concsFree n 2 1) U cnt ∧
    AlwaysListsSome fl53 δ scText scLat (Matrix.of ![![1, 0, 0], ![0, 1, 0], ![0, 0, 1]]) [![0, 0, 0]] 1 2 (fun n => concsFree n 2 1) U cnt := by
  obtain ⟨K, K', g, hc⟩ := C74_decimals sc_decimal h0 (show δ ≤ 1 / 10 ^ 8 by
    have : (1 / 10 ^ 10 : ℝ) ≤ 1 / 10 ^ 8 := by norm_num
    linarith)
  exact C77_free sc_crystal rfl (by simp) (by simp) h0 hlt hc fl53_nearest

/-- the bound on the number of structures for this file -/
theorem sc_total {U : ℕ → List (M3 ℤ)} {cnt : ℕ → M3 ℤ → Conc → ℕ}
    (h : CountsAll shippedTol scLat (Matrix.of ![![1, 0, 0], ![0, 1, 0], ![0, 0, 1]]) [![0, 0, 0]] 1 2 (fun n => concsFree n 2 1) U cnt)
    {K : List (ℕ × M3 ℤ × Conc)} (hK : K.Nodup) (hKm : ∀ n u c, (n, u, c) ∈ K ↔ 1 ≤ n ∧ n ≤ 2 ∧ u ∈ U n ∧ c ∈ concsFree n 2 1) :
    (K.map (fun x => cnt x.1 x.2.1 x.2.2)).sum ≤ 2 ^ 48 :=
  C77_total (free_input sc_crystal rfl (by norm_num)) (by simp) (by rw [free_fractions rfl]; simp) (by simp) h hK hKm

/-- C77 for the simple cubic file: asked for nothing, every run stops with a NameError, whatever the rounding errors -/
example {δ : ℝ} (h0 : 0 ≤ δ) (hlt : δ < 1 / 10 ^ 10) : AlwaysRaises (scriptEnumN fl53 δ scWorld shippedTol (numberArgs 0) scDir) .nameError := by
  obtain ⟨U, cnt, h1, h2⟩ := sc_some_noise h0 hlt
  exact C77_zero h2 (fun l => List.Perm.refl _) (fun i l => List.Perm.refl _) (fun _ => le_refl _) (numberArgs_call 0) scDir_call
    (fun K hK hKm => le_trans (sc_total h1 hK hKm) (by norm_num))

/-- C77 for the simple cubic file: a request that is large enough leads to a list of all structures in every run -/
example {δ : ℝ} (h0 : 0 ≤ δ) (hlt : δ < 1 / 10 ^ 10) : ∃ N, ∀ n, N ≤ n → ∃ (rows : List EnumEntry) (d' : Dir),
    AlwaysReturns (scriptEnumN fl53 δ scWorld shippedTol (numberArgs n) scDir) d' ∧
    dictGet d' "enum.out".toList = some (enumOutFile (scLat.enumParams (Matrix.of ![![1, 0, 0], ![0, 1, 0], ![0, 0, 1]], [![0, 0, 0]])) scWorld.now rows) ∧
    ListsAll 1 [0] 1 2 (fun n => concsFree n 2 1) scLat.arrowFractions rows := by
  obtain ⟨U, cnt, h1, h2⟩ := sc_some_noise h0 hlt
  have ht := coarse_exact (hi := 2) sc_crystal.cell.det (decimal_coarse sc_decimal) (by norm_num)
  obtain ⟨u, hu⟩ := counts_nonempty (free_input sc_crystal rfl (by norm_num)) ht h1 (n := 1) (le_refl _) (by norm_num)
  have m1 : [1, 0] ∈ concsFree 1 2 1 := by rw [(C25_concs_complete 1 2 1).2]; decide
  refine ⟨2 ^ 48, fun n hn => ?_⟩
  have := C77_ample h2 (w := scWorld) (fun l => List.Perm.refl _) (fun i l => List.Perm.refl _) (fun _ => le_refl _) (numberArgs_call n) scDir_call
    ⟨1, u, [1, 0], le_refl _, by norm_num, hu, m1⟩ (fun K k1 k2 => ⟨le_trans (sc_total h1 k1 k2) hn, le_trans (sc_total h1 k1 k2) (by norm_num)⟩)
  rw [realVecs_zero, realMat_sc] at this
  exact this

/-- C77 for the simple cubic file: a number with whole shares, namely that of all structures, and random numbers of 1/2; the hypotheses of `C77_exact_number` hold -/
example {δ : ℝ} (h0 : 0 ≤ δ) (hlt : δ < 1 / 10 ^ 10) : ∃ n > 0, ∃ (rows full : List EnumEntry) (d' : Dir),
    AlwaysReturns (scriptEnumN fl53 δ ⟨id, [], fun _ => 1 / 2, scWorld.rnd⟩ shippedTol (numberArgs n) scDir) d' ∧
    dictGet d' "enum.out".toList = some (enumOutFile (scLat.enumParams (Matrix.of ![![1, 0, 0], ![0, 1, 0], ![0, 0, 1]], [![0, 0, 0]])) [] rows) ∧ rows.Nodup ∧
    rows.length = n ∧ (∀ row ∈ rows, row ∈ full) ∧ ListsAll 1 [0] 1 2 (fun n => concsFree n 2 1) scLat.arrowFractions full := by
  obtain ⟨U, cnt, h1, h2⟩ := sc_some_noise h0 hlt
  have ht := coarse_exact (hi := 2) sc_crystal.cell.det (decimal_coarse sc_decimal) (by norm_num)
  obtain ⟨u, hu⟩ := counts_nonempty (free_input sc_crystal rfl (by norm_num)) ht h1 (n := 1) (le_refl _) (by norm_num)
  have m1 : [1, 0] ∈ concsFree 1 2 1 := by rw [(C25_concs_complete 1 2 1).2]; decide
  obtain ⟨K0, q1, q2, -⟩ := h2 scWorld (numberArgs 0) "lattice.in".toList scDir 0 (fun l => List.Perm.refl _) (fun i l => List.Perm.refl _)
    (fun _ => le_refl _) (numberArgs_call 0) scDir_call
  have hcount : ∀ n, 1 ≤ n → n ≤ 2 → ∀ v ∈ U n, ∀ c ∈ concsFree n 2 1, 1 ≤ cnt n v c ∧ cnt n v c < 1000000 := by
    intro n a b v hv c hc
    obtain ⟨-, -, -, q⟩ := h1 n a b
    obtain ⟨G, -, -, -, -, q5⟩ := q v hv
    obtain ⟨h3, -, L, hL, e⟩ := q5 c hc
    refine ⟨h3, ?_⟩
    obtain ⟨c1, c2⟩ := ((C25_concs_complete n 2 1).2 c).mp hc
    rw [← e]
    refine lt_of_le_of_lt (composed_count (by rw [c1]; norm_num) (by rw [c1]; decide +kernel) hL.nodup hL.mem) ?_
    rw [c2, mul_one]
    exact lt_of_le_of_lt (Nat.pow_le_pow_right (by norm_num) b) (by norm_num)
  have hx0 : ((1 : ℕ), u, [1, 0]) ∈ K0 := (q2 _ _ _).mpr ⟨le_refl _, by norm_num, hu, m1⟩
  have hpos : 0 < (K0.map (fun x => cnt x.1 x.2.1 x.2.2)).sum := by
    refine lt_of_lt_of_le (hcount 1 (le_refl _) (by norm_num) u hu _ m1).1 ?_
    exact List.single_le_sum (by simp) _ (List.mem_map_of_mem (f := fun x : ℕ × M3 ℤ × Conc => cnt x.1 x.2.1 x.2.2) hx0)
  refine ⟨(K0.map (fun x => cnt x.1 x.2.1 x.2.2)).sum, hpos, ?_⟩
  have h50 := sc_total h1 q1 q2
  have hbnd : (((K0.map (fun x => cnt x.1 x.2.1 x.2.2)).sum : ℕ) : ℚ) / 2 ^ 51 < 1 / 2 := by
    have : (((K0.map (fun x => cnt x.1 x.2.1 x.2.2)).sum : ℕ) : ℚ) ≤ 2 ^ 48 := by exact_mod_cast h50
    rw [div_lt_iff₀ (by positivity)]
    refine lt_of_le_of_lt this ?_
    norm_num
  have := C77_exact_number h2 (w := ⟨id, [], fun _ => 1 / 2, scWorld.rnd⟩) (fun l => List.Perm.refl _) (fun i l => List.Perm.refl _)
    (fun _ => ⟨hbnd, by linarith⟩) (numberArgs_call _) scDir_call hpos
    (fun s v c a b hv hc => (hcount s a b v hv c hc).2) (by
      intro K k1 k2
      have : K.Perm K0 := (List.perm_ext_iff_of_nodup k1 q1).mpr (fun x => (k2 x.1 x.2.1 x.2.2).trans (q2 x.1 x.2.1 x.2.2).symm)
      rw [(this.map _).sum_eq]
      exact ⟨le_refl _, le_trans h50 (by norm_num), fun x _ => dvd_mul_right _ _⟩)
  rw [realVecs_zero, realMat_sc] at this
  exact this

end Phenum
