import Verif.Props.Steps
/-
C60: calls of the program that cannot succeed.
-/
namespace Phenum
open Spec

theorem parseNat_err {s : Str} {e : PyErr} (h : parseNat s = .error e) : e = .valueError := by
  unfold parseNat at h
  split at h
  · cases h
  · injection h with h; exact h.symm

theorem parseInt_err {s : Str} {e : PyErr} (h : parseInt s = .error e) : e = .valueError := by
  unfold parseInt at h
  split at h
  all_goals
    first
    | (cases hp : parseNat _ with
        | error x =>
          rw [hp] at h
          have := parseNat_err hp
          subst this
          injection h with h
          exact h.symm
        | ok v => rw [hp] at h; cases h)
    | (injection h with h; exact h.symm)

theorem mapM_err {α β : Type} {f : α → Py β} {e0 : PyErr} (hf : ∀ a e, f a = .error e → e = e0) : ∀ {l : List α}, (∃ a ∈ l, ∃ e, f a = .error e) → l.mapM f = .error e0 := by
  intro l
  induction l with
  | nil => rintro ⟨a, ha, -⟩; cases ha
  | cons x l ih =>
    rintro ⟨a, ha, e, he⟩
    rw [List.mapM_cons]
    cases hx : f x with
    | error e' => rw [hf x e' hx]; rfl
    | ok b =>
      have : ∃ a ∈ l, ∃ e, f a = .error e := by
        rcases List.mem_cons.mp ha with rfl | ha
        · rw [hx] at he; cases he
        · exact ⟨a, ha, e, he⟩
      rw [ih this]
      rfl

/-- a directory that contains a file named `polya.out` -/
theorem sizesFound_err {files : List Str} (h : "polya.out".toList ∈ files) : sizesFound "polya.out".toList files = .error .valueError := by
  unfold sizesFound
  apply mapM_err
  · intro a e he; exact parseInt_err he
  · refine ⟨"polya.out".toList, ?_, .valueError, by decide +kernel⟩
    rw [List.mem_filter]
    refine ⟨h, ?_⟩
    decide +kernel

theorem scriptEnum_both {a : Args} (h : EnumCall a) (w : World) (tol : Tol) {d : Dir} {text : Str} (hl : dictGet d a.lattice = some text) :
    scriptEnum w tol { a with polya := true } d =
      (polyaOut tol a.lattice "polya.out".toList d >>= fun d1 => enumOut w tol a "enum.in".toList "polya.out".toList d1) := by
  have h1 : ¬ (a.distribution.getD [] ≠ [] ∧ (a.distribution.getD []).length ≠ 2) := by
    cases hd : a.distribution with
    | none => simp
    | some l => simp [h.distribution l hd]
  have e1 : (fileNames { a with polya := true }).1 = some "enum.in".toList ∧ (fileNames { a with polya := true }).2 = some "polya.out".toList := by
    unfold fileNames
    simp only [h.enum, h.input, h.outfile, if_true, Option.getD_none, Option.getD_some]
    by_cases hd : a.distribution.getD [] ≠ []
    · rw [if_pos hd, if_pos hd]; exact ⟨rfl, rfl⟩
    · rw [if_neg hd, if_neg hd]; exact ⟨rfl, rfl⟩
  have e2 : checkArgs { a with polya := true } d = .ok () := by
    unfold checkArgs
    simp only [hl, Option.isNone_some, Bool.false_eq_true, and_false, if_false, h1]
    cases hq : a.accept with
    | none => rfl
    | some q =>
      have := h.accept q hq
      have : ¬ (q ≠ 0 ∧ q > 1) := fun hh => absurd hh.2 (by linarith)
      simp only [ne_eq] at this
      simp only [ne_eq, this, if_false]
  have e3 : ∀ i o d, enumOut w tol { a with polya := true } i o d = enumOut w tol a i o d := fun _ _ _ => rfl
  have e4 : ({ a with polya := true } : Args).enum = true := h.enum
  have e5 : ({ a with polya := true } : Args).polya = true := rfl
  have e6 : ({ a with polya := true } : Args).lattice = a.lattice := rfl
  revert e1 e2 e3 e4 e5 e6
  generalize ({ a with polya := true } : Args) = b
  intro e1 e2 e3 e4 e5 e6
  unfold scriptEnum
  rw [e2, runPy_ok]
  simp only [e1.1, e1.2, pure_bind, e4, e5, e6, if_true, Option.getD_some, Bool.true_eq_false, and_false, if_false, bind_pure, e3]

/-- C60. `enumeration.py -polya -enum` writes the structures not to enum.out but to a file named polya.out (the two modes share the name of the
output file), and in the directory it leaves behind the next `enumeration.py -distribution ...` fails with ValueError, whatever it is asked
to select, because polya.out is taken for a table. -/
theorem C60_polya_and_enum {a : Args} (h : EnumCall a) {w : World} {tol : Tol} {d d' : Dir} (hd : NoResults d) (hrun : scriptEnum w tol a d = (pure d' : Run Dir))
    (hnum : ∃ f ∈ d'.map (·.1), "polya.out.".toList <+: f) :
    ∃ d'', scriptEnum w tol { a with polya := true } d = (pure d'' : Run Dir) ∧
      dictGet d'' "polya.out".toList = dictGet d' "enum.out".toList ∧ dictGet d'' "enum.out".toList = dictGet d "enum.out".toList ∧
      ∀ (w' : World) (tol' : Tol) (b : Args), EnumCall b → b.sizes = none → (∀ l, (w'.listdir l).Perm l) →
        scriptEnum w' tol' (asDistribution b) d'' = (throw .valueError : Run Dir) := by
  rw [C57_polya_first h w tol d hd, scriptEnum_polya h] at hrun
  cases hl : dictGet d a.lattice with
  | none =>
    rw [hl] at hrun
    cases hrun
  | some text =>
    rw [hl] at hrun
    simp only [Option.isNone_some, Bool.false_eq_true, if_false] at hrun
    obtain ⟨d1, h1, hrun⟩ := run_bind_ok hrun
    rw [scriptEnum_enum h, enumOut_eq] at hrun
    obtain ⟨lat, h2, hrun⟩ := run_bind_ok hrun
    obtain ⟨d2, h3, hrun⟩ := run_bind_ok hrun
    unfold finish at hrun
    obtain ⟨systems, h4, hrun⟩ := run_bind_ok hrun
    unfold enumWrite at hrun
    obtain ⟨geo, h5, hrun⟩ := run_bind_ok hrun
    obtain ⟨rows, h6, hrun⟩ := run_bind_ok hrun
    by_cases hs : systems = []
    · rw [if_pos hs] at hrun; cases hrun
    rw [if_neg hs] at hrun
    have hd' := run_pure_inj hrun
    have hany : anyNumbered d "polya.out".toList = false := by
      rw [← Bool.not_eq_true, anyNumbered_iff]
      rintro ⟨f, hf, hp⟩
      exact hd.1 f hf hp
    have hin : dictGet d1 "enum.in".toList = none := by
      rw [(polyaOut_inv h1).2.2 _ enumIn_not_numbered]
      exact dictGet_none.mpr hd.2
    rw [hin] at h3
    simp only [Option.isSome_none, Bool.false_eq_true, if_false] at h3
    unfold prepare at h3
    obtain ⟨d3, h7, h3⟩ := run_bind_ok h3
    have hn1 : ¬ ("polya.out".toList ++ ['.'] <+: "enum.out".toList) := by decide
    have hd31 : ∀ f, ¬ ("polya.out".toList ++ ['.'] <+: f) → dictGet d3 f = dictGet d1 f := by
      intro f hf
      by_cases h8 : anyNumbered d1 "polya.out".toList = true
      · rw [if_pos h8] at h7; rw [run_pure_inj h7]
      · rw [if_neg h8] at h7; exact (polyaOut_inv h7).2.2 f hf
    refine ⟨dictSet d2 "polya.out".toList (enumOutFile (lat.enumParams geo) w.now rows), ?_, ?_, ?_, ?_⟩
    · rw [scriptEnum_both h w tol hl, h1, pure_bind, enumOut_eq, h2, pure_bind, hin]
      simp only [Option.isSome_none, Bool.false_eq_true, if_false]
      unfold prepare
      rw [h7, pure_bind, h3, pure_bind]
      unfold finish
      rw [h4, pure_bind]
      unfold enumWrite
      rw [h5, pure_bind, h6, pure_bind, if_neg hs]
    · rw [← hd', dictGet_set, dictGet_set, if_pos rfl, if_pos rfl]
    · rw [dictGet_set, if_neg (by decide), (enumIn_inv h3).1 _ (by decide) hn1, hd31 _ hn1, (polyaOut_inv h1).2.2 _ hn1]
    · intro w' tol' b hb hsz hw'
      set dd := dictSet d2 "polya.out".toList (enumOutFile (lat.enumParams geo) w.now rows) with hdd
      have hmem : "polya.out".toList ∈ w'.listdir (dd.map (·.1)) := by
        rw [(hw' _).mem_iff, hdd, dictSet_keys]
        exact Or.inl rfl
      have hany2 : anyNumbered dd "polya.out".toList = true := by
        rw [anyNumbered_iff]
        obtain ⟨f, hf, hp⟩ := hnum
        refine ⟨f, ?_, hp⟩
        rw [← hd', dictSet_keys] at hf
        rcases hf with rfl | hf
        · exact absurd hp hn1
        · rw [hdd, dictSet_keys]; exact Or.inr hf
      rw [scriptEnum_dist hb, enumIn_eq, if_pos hany2, pure_bind]
      unfold enumInRest
      have hlen : (b.distribution.getD ["all".toList, "all".toList]).length = 2 := by
        cases hbd : b.distribution with
        | none => rfl
        | some l => exact hb.distribution l hbd
      obtain ⟨x, y, hxy⟩ := List.length_eq_two.mp hlen
      rw [hxy, show pyGet [x, y] 0 = .ok x from rfl, show pyGet [x, y] 1 = .ok y from rfl]
      simp only [runPy_ok, pure_bind]
      have hmake : ∀ number, makeEnumIn w' "polya.out".toList (lowerStr x) "enum.in".toList number (b.sizes.map (fun s => pyRange s.1 s.2)) b.savedist b.filter dd = .error .valueError := by
        intro number
        unfold makeEnumIn sizesUsed
        rw [hsz]
        simp only [Option.map_none, sizesFound_err hmem]
        rfl
      by_cases hy : lowerStr y = "all".toList
      · rw [if_pos hy, runPy_ok, pure_bind, hmake]; rfl
      · rw [if_neg hy]
        cases hpi : parseInt (strip y) with
        | error e => rw [parseInt_err hpi]; rfl
        | ok v =>
          rw [show (Except.map some (.ok v) : Py (Option ℤ)) = .ok (some v) from rfl, runPy_ok, pure_bind, hmake]
          rfl

/-! ## Selections that cannot be enumerated -/

/-- what a successful run has read -/
theorem run_systems {a : Args} (h : EnumCall a) {w : World} {tol : Tol} {d d' : Dir} (hin : dictGet d "enum.in".toList = none)
    (hrun : scriptEnum w tol a d = (pure d' : Run Dir)) :
    ∃ d1 d2 lat systems, enumInRest w a "polya.out".toList "enum.in".toList (a.distribution.getD ["all".toList, "all".toList]) d1 = (pure d2 : Run Dir) ∧
      dictGet d1 "enum.in".toList = none ∧
      (do let s ← readFile d2 "enum.in".toList; readEnum s) = .ok systems ∧ systems ≠ [] ∧
      ∃ rows, enumLoop w tol lat a.super a.accept.isSome 0 systems = (pure rows : Run _) := by
  rw [scriptEnum_enum h, enumOut_eq, hin] at hrun
  obtain ⟨lat, h2, hrun⟩ := run_bind_ok hrun
  simp only [Option.isSome_none, Bool.false_eq_true, if_false] at hrun
  obtain ⟨d2, h3, hrun⟩ := run_bind_ok hrun
  unfold prepare at h3
  obtain ⟨d3, h7, h3⟩ := run_bind_ok h3
  have hd3 : dictGet d3 "enum.in".toList = none := by
    by_cases h8 : anyNumbered d "polya.out".toList = true
    · rw [if_pos h8] at h7; rw [← run_pure_inj h7]; exact hin
    · rw [if_neg h8] at h7; rw [(polyaOut_inv h7).2.2 _ enumIn_not_numbered]; exact hin
  rw [enumIn_eq] at h3
  obtain ⟨d1, h9, h3⟩ := run_bind_ok h3
  have hd1 : dictGet d1 "enum.in".toList = none := by
    by_cases h8 : anyNumbered d3 "polya.out".toList = true
    · rw [if_pos h8] at h9; rw [← run_pure_inj h9]; exact hd3
    · rw [if_neg h8] at h9; rw [(polyaOut_inv h9).2.2 _ enumIn_not_numbered]; exact hd3
  unfold finish at hrun
  obtain ⟨systems, h4, hrun⟩ := run_bind_ok hrun
  unfold enumWrite at hrun
  obtain ⟨geo, h5, hrun⟩ := run_bind_ok hrun
  obtain ⟨rows, h6, hrun⟩ := run_bind_ok hrun
  by_cases hs : systems = []
  · rw [if_pos hs] at hrun; cases hrun
  exact ⟨d1, d2, lat, systems, h3, hd1, runPy_eq_pure h4, hs, rows, h6⟩

/-- C60. `enumeration.py -enum -distribution size N` (or `shape`, `conc`) without -savedist, in a directory without enum.in, cannot succeed: the
distribution is only printed, and the file enum.in that is to be read next does not exist. -/
theorem C60_not_saved {a : Args} (h : EnumCall a) (w : World) (tol : Tol) {d : Dir} (hin : "enum.in".toList ∉ d.map (·.1))
    (hdist : lowerStr ((a.distribution.getD ["all".toList, "all".toList]).getD 0 []) ≠ "all".toList) (hsave : a.savedist = false) :
    ∀ d', scriptEnum w tol a d ≠ (pure d' : Run Dir) := by
  intro d' hrun
  obtain ⟨d1, d2, lat, systems, h1, h2, h3, -⟩ := run_systems h (dictGet_none.mpr hin) hrun
  have := (enumInRest_inv h1).2.2 (by rw [hsave]; simp only [Bool.false_eq_true, or_false]; exact hdist)
  subst this
  unfold readFile at h3
  rw [h2] at h3
  cases h3

/-- The contents of the file written. -/
theorem enumInRest_file {w : World} {a : Args} {input outfile : Str} {distribution : List Str} {d d' : Dir}
    (h : enumInRest w a input outfile distribution d = (pure d' : Run Dir)) :
    (dictGet d' outfile = dictGet d outfile) ∨ ∃ ft tables res n, ftypeOf (lowerStr (distribution.getD 0 [])) = .ok ft ∧
      dictGet d' outfile = some (printDist ft (distribute tables res ft n w.draws)) ∧
      ∃ sizes, sizesUsed w d input (a.sizes.map (fun s => pyRange s.1 s.2)) = .ok sizes ∧ readTables d input sizes = .ok tables := by
  unfold enumInRest at h
  obtain ⟨d0, h0, h⟩ := run_bind_ok h
  obtain ⟨d1, -, h⟩ := run_bind_ok h
  obtain ⟨number, -, h⟩ := run_bind_ok h
  have h0' := runPy_eq_pure h0
  have hd0 : distribution.getD 0 [] = d0 := by
    cases distribution with
    | nil => cases h0'
    | cons x l =>
      have : (.ok x : Py Str) = .ok d0 := h0'
      injection this
  rw [hd0]
  have h := runPy_eq_pure h
  unfold makeEnumIn at h
  simp only [bind, Except.bind] at h
  split at h
  · cases h
  rename_i sizes hs
  split at h
  · cases h
  rename_i res hres
  split at h
  · cases h
  rename_i tables ht
  split at h
  · cases h
  rename_i ft hft
  split at h
  · cases h
  rename_i distr hdistr
  have hdistr : distr = distribute tables res ft (number.map Int.toNat) w.draws := by
    unfold distributePy at hdistr
    split at hdistr
    · cases hdistr
    · injection hdistr with hdistr
      exact hdistr.symm
  subst hdistr
  split at h
  · injection h with h
    subst h
    right
    refine ⟨ft, tables, res, number.map Int.toNat, hft, ?_, sizes, hs, ht⟩
    rw [dictGet_set, if_pos rfl]
  · injection h with h
    subst h
    exact Or.inl rfl

theorem distribute_nil (res : Restrict) (ft : Ftype) (n : Option ℕ) (draws : ℕ → ℚ) : distribute [] res ft n draws = [] := by
  have h1 : distSummary [] res = ([], 0) := by
    cases res <;> rfl
  unfold distribute
  rw [h1]
  have h2 : relKeys [] ft = [] := by cases ft <;> rfl
  cases n with
  | none => simp only [h2, if_true]; rfl
  | some k =>
    simp only [h2]
    by_cases hk : k > 0
    · simp only [hk, if_true]; rfl
    · have : k = 0 := by omega
      subst this
      rfl

/-- C60. `enumeration.py -enum -sizes n m` with `m ≤ n`, in particular with `n` twice in order to get one size, cannot succeed in a directory without
enum.in: the second size is excluded, and without systems the name `sortenum` is not defined. -/
theorem C60_empty_sizes {a : Args} (h : EnumCall a) (w : World) (tol : Tol) {d : Dir} (hin : "enum.in".toList ∉ d.map (·.1)) {n m : ℤ} (hs : a.sizes = some (n, m))
    (hnm : m ≤ n) : ∀ d', scriptEnum w tol a d ≠ (pure d' : Run Dir) := by
  intro d' hrun
  obtain ⟨d1, d2, lat, systems, h1, h2, h3, h4, -⟩ := run_systems h (dictGet_none.mpr hin) hrun
  rcases enumInRest_file h1 with h5 | ⟨ft, tables, res, k, h6, h7, sizes, h8, h9⟩
  · unfold readFile at h3
    rw [h5, h2] at h3
    cases h3
  · have e0 : pyRange n m = [] := by
      unfold pyRange
      have : (m - n).toNat = 0 := by omega
      rw [this]; rfl
    have e1 : sizes = [] := by
      rw [hs] at h8
      unfold sizesUsed at h8
      simp only [Option.map_some, e0, List.all_nil, if_true] at h8
      injection h8 with h8
      exact h8.symm
    rw [e1] at h9
    have e2 : tables = [] := by
      injection h9 with h9
      exact h9.symm
    rw [e2, distribute_nil] at h7
    have e3 : ∀ ft, readEnum (printDist ft []) = .ok [] := by
      intro ft
      cases ft <;> decide +kernel
    apply h4
    unfold readFile at h3
    rw [h7] at h3
    have h3' : readEnum (printDist ft []) = .ok systems := h3
    rw [e3] at h3'
    injection h3' with h3'
    exact h3'.symm

theorem mapM_ok_map {α β γ : Type} (f : β → Py γ) (g : α → β) (k : α → γ) : ∀ (l : List α), (∀ a ∈ l, f (g a) = .ok (k a)) → (l.map g).mapM f = .ok (l.map k)
  | [], _ => rfl
  | a :: l, h => by
    rw [List.map_cons, List.mapM_cons, h a (by simp), mapM_ok_map f g k l (fun x hx => h x (by simp [hx]))]
    rfl

theorem printSize_read (distr : List (DKey × ℕ)) : readEnum (printDist .size distr) = .ok (distr.map (fun p => ([(p.1.1 : ℤ), (p.2 : ℤ)], [], (p.2 : ℤ)))) := by
  have key : printDist .size distr = ((none : Option (DKey × ℕ)) :: distr.map some).flatMap (fun x => (match x with
      | none => "# ".toList ++ padRight 6 "Size".toList ++ "  ".toList ++ "Number".toList
      | some p => "  ".toList ++ padRight 6 (natStr p.1.1) ++ "  ".toList ++ natStr p.2) ++ ['\n']) := by
    unfold printDist
    rw [List.flatMap_cons, List.flatMap_map]
  have hsplit : ∀ p : DKey × ℕ, pySplit ("  ".toList ++ padRight 6 (natStr p.1.1) ++ "  ".toList ++ natStr p.2) = [natStr p.1.1, natStr p.2] := by
    intro p
    rw [split_sp2, split_natStr]
    have := split_spaces_append 2 (padRight 6 (natStr p.1.1))
    rw [show (List.replicate 2 ' ' : Str) = "  ".toList from rfl] at this
    rw [this]
    unfold padRight
    rw [split_spaces_end, split_natStr]
    rfl
  have hnum : ∀ p : DKey × ℕ, NumLine ("  ".toList ++ padRight 6 (natStr p.1.1) ++ "  ".toList ++ natStr p.2) := by
    intro p
    exact (((NumLine.spaces 2).append ((NumLine.nat _).padRight 6)).append (NumLine.spaces 2)).append (NumLine.nat _)
  unfold readEnum
  rw [key, loadtxt_spec _ _ (fun x => match x with | none => [] | some p => [(p.1.1 : ℤ), (p.2 : ℤ)]) 2]
  · show List.mapM _ (List.filter _ ([] :: (distr.map some).map _)) = _
    rw [List.filter_cons_of_neg (by simp), List.map_map]
    have : (distr.map ((fun x : Option (DKey × ℕ) => match x with | none => [] | some p => [(p.1.1 : ℤ), (p.2 : ℤ)]) ∘ some)).filter (fun r => decide (r ≠ [])) =
        distr.map (fun p => [(p.1.1 : ℤ), (p.2 : ℤ)]) := by
      rw [List.filter_eq_self.mpr]
      · rfl
      · intro r hr
        obtain ⟨p, -, rfl⟩ := List.mem_map.mp hr
        rfl
    rw [this]
    show List.mapM _ (distr.map (fun p => [(p.1.1 : ℤ), (p.2 : ℤ)])) = _
    exact mapM_ok_map _ _ _ distr (fun p _ => rfl)
  · intro x hx
    match x with
    | none => decide
    | some p => exact (hnum p).no_newline
  · intro x hx
    match x with
    | none => decide +kernel
    | some p =>
      show pySplit (List.takeWhile _ _) = _
      rw [(hnum p).no_hash, hsplit]
      rfl
  · intro x hx hne
    match x with
    | none => exact absurd rfl hne
    | some p => rfl

/-- C60. `enumeration.py -enum -distribution size N`, with or without -savedist, cannot succeed in a directory without enum.in: the file that -savedist
writes has two columns, and the reading of supercells from it fails. -/
theorem C60_saved_sizes {a : Args} (h : EnumCall a) (w : World) (tol : Tol) {d : Dir} (hin : "enum.in".toList ∉ d.map (·.1))
    (hdist : lowerStr ((a.distribution.getD ["all".toList, "all".toList]).getD 0 []) = "size".toList) :
    ∀ d', scriptEnum w tol a d ≠ (pure d' : Run Dir) := by
  intro d' hrun
  obtain ⟨d1, d2, lat, systems, h1, h2, h3, h4, rows, h5⟩ := run_systems h (dictGet_none.mpr hin) hrun
  rcases enumInRest_file h1 with h6 | ⟨ft, tables, res, k, h6, h7, -⟩
  · unfold readFile at h3
    rw [h6, h2] at h3
    cases h3
  · rw [hdist] at h6
    have hft : ft = .size := by
      have : ftypeOf "size".toList = .ok .size := by
        unfold ftypeOf
        rw [if_neg (by decide), if_neg (by decide), if_neg (by decide), if_pos rfl]
      rw [this] at h6
      injection h6 with h6
      exact h6.symm
    subst hft
    unfold readFile at h3
    rw [h7] at h3
    have h3' : readEnum (printDist .size (distribute tables res .size k w.draws)) = .ok systems := h3
    rw [printSize_read] at h3'
    injection h3' with h3'
    cases hsys : systems with
    | nil => exact h4 hsys
    | cons s rest =>
      have hs : s ∈ systems := by rw [hsys]; simp
      rw [← h3'] at hs
      obtain ⟨p, -, hp⟩ := List.mem_map.mp hs
      rw [hsys] at h5
      unfold enumLoop at h5
      obtain ⟨r, h8, -⟩ := run_bind_ok h5
      unfold enumSystem at h8
      obtain ⟨geo, -, h8⟩ := run_bind_ok h8
      simp only at h8
      obtain ⟨H, h9, -⟩ := run_bind_ok h8
      rw [← hp] at h9
      cases h9

theorem dictSet_map_keys {α β : Type} [DecidableEq α] {d : List (α × β)} {k : α} (v : β) (h : k ∈ d.map (·.1)) : (dictSet d k v).map (·.1) = d.map (·.1) := by
  induction d with
  | nil => cases h
  | cons p d ih =>
    obtain ⟨k0, v0⟩ := p
    unfold dictSet
    by_cases h0 : k0 = k
    · rw [if_pos h0]; subst h0; rfl
    · rw [if_neg h0, List.map_cons, List.map_cons, ih]
      rcases List.mem_cons.mp h with h | h
      · exact absurd h.symm h0
      · exact h

theorem readTables_congr {d e : Dir} {infile : Str} (h : ∀ s : ℤ, dictGet e (infile ++ '.' :: intStr s) = dictGet d (infile ++ '.' :: intStr s)) :
    ∀ l, readTables e infile l = readTables d infile l := by
  intro l
  induction l with
  | nil => rfl
  | cons s l ih =>
    unfold readTables
    rw [h s, ih]

/-- C60. Tables of an earlier run are used although the lattice file has changed: when some file polya.out.* exists, `enumeration.py
-distribution ...` writes the same enum.in whatever has been written into the lattice file since (other sizes, other
concentrations, another lattice). -/
theorem C60_stale_tables {a : Args} (h : EnumCall a) (w : World) (tol : Tol) {d d1 : Dir} (hnum : ∃ f ∈ d.map (·.1), "polya.out.".toList <+: f)
    (hl : a.lattice ∈ d.map (·.1) ∧ ¬ "polya.out.".toList <+: a.lattice ∧ a.lattice ≠ "enum.in".toList ∧ ∀ k f, a.filter = some (k, f) → f ≠ a.lattice) (text : Str)
    (hrun : scriptEnum w tol (asDistribution a) d = (pure d1 : Run Dir)) :
    ∃ d2, scriptEnum w tol (asDistribution a) (dictSet d a.lattice text) = (pure d2 : Run Dir) ∧ dictGet d2 "enum.in".toList = dictGet d1 "enum.in".toList := by
  have hany : ∀ e : Dir, e.map (·.1) = d.map (·.1) → anyNumbered e "polya.out".toList = true := by
    intro e he
    rw [anyNumbered_iff, he]
    exact hnum
  have hk := dictSet_map_keys text hl.1
  rw [scriptEnum_dist h, enumIn_eq, if_pos (hany d rfl), pure_bind] at hrun
  rw [scriptEnum_dist h, enumIn_eq, if_pos (hany _ hk), pure_bind]
  unfold enumInRest at hrun ⊢
  obtain ⟨x0, h0, hrun⟩ := run_bind_ok hrun
  obtain ⟨x1, h1, hrun⟩ := run_bind_ok hrun
  obtain ⟨number, h2, hrun⟩ := run_bind_ok hrun
  rw [h0, pure_bind, h1, pure_bind, h2, pure_bind]
  have hrun := runPy_eq_pure hrun
  have hs : sizesUsed w (dictSet d a.lattice text) "polya.out".toList (a.sizes.map (fun s => pyRange s.1 s.2)) =
      sizesUsed w d "polya.out".toList (a.sizes.map (fun s => pyRange s.1 s.2)) := by
    unfold sizesUsed
    rw [hk]
  have ht : ∀ l, readTables (dictSet d a.lattice text) "polya.out".toList l = readTables d "polya.out".toList l := by
    apply readTables_congr
    intro s
    rw [dictGet_set, if_neg]
    intro e
    exact hl.2.1 (e ▸ numbered_prefix "polya.out".toList s)
  have hf : ∀ k f, a.filter = some (k, f) → readFile (dictSet d a.lattice text) f = readFile d f := by
    intro k f hkf
    unfold readFile
    rw [dictGet_set, if_neg (hl.2.2.2 k f hkf)]
  unfold makeEnumIn at hrun ⊢
  rw [hs]
  cases hsz : sizesUsed w d "polya.out".toList (a.sizes.map (fun s => pyRange s.1 s.2)) with
  | error e => rw [hsz] at hrun; cases hrun
  | ok sizes =>
    rw [hsz] at hrun
    have hres : readRestrict (dictSet d a.lattice text) a.filter = readRestrict d a.filter := by
      cases hfl : a.filter with
      | none => rfl
      | some p =>
        show (do let s ← readFile _ p.2; readFilter p.1 s) = (do let s ← readFile d p.2; readFilter p.1 s)
        rw [hf p.1 p.2 hfl]
    rw [hres]
    cases hr : readRestrict d a.filter with
    | error e => rw [hr] at hrun; cases hrun
    | ok res =>
    rw [hr] at hrun
    simp only [bind, Except.bind, ht] at hrun ⊢
    split at hrun
    · cases hrun
    rename_i tables hta
    split at hrun
    · cases hrun
    rename_i ft hft
    split at hrun
    · cases hrun
    by_cases hsave : lowerStr x0 = "all".toList ∨ a.savedist = true
    · rw [if_pos hsave] at hrun
      injection hrun with hrun
      rw [if_pos hsave]
      refine ⟨_, rfl, ?_⟩
      rw [← hrun, dictGet_set, if_pos rfl, dictGet_set, if_pos rfl]
    · rw [if_neg hsave] at hrun
      injection hrun with hrun
      rw [if_neg hsave]
      refine ⟨_, rfl, ?_⟩
      rw [← hrun, dictGet_set, if_neg (fun e => hl.2.2.1 e.symm)]

end Phenum
