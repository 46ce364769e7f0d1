import Verif.Props.Screen
import Verif.Props.Steps
import Verif.Props.Tolerance
/-
C80: the lines about the lattice file on the screen.
-/
namespace Phenum
open Spec

/-- The lines on the screen when a file of the lattice is read. -/
def Spec.latticeLines (lat : LatticeIn) : Str :=
  if lat.restricted = false then "No concentration restrictions given.\n".toList
  else "Concentrations are being restricted.\n".toList ++ if lat.arrows = false then "No displacement directions are included\n".toList else []

theorem polyaOutShown_of {st : MsgState} {tol : Tol} {lattice out : Str} {d d' : Dir} {text : Str} {lat : LatticeIn} (hd : dictGet d lattice = some text)
    (hr : readLattice text = .ok lat) (h : polyaOut tol lattice out d = (pure d' : Run Dir)) :
    polyaOutShown st tol lattice out d = (pure (d', latticeInfos st lat) : Run _) := by
  have e1 : (do let s ← readFile d lattice; readLattice s) = .ok lat := by
    unfold readFile
    rw [hd]
    exact hr
  unfold polyaOutShown
  rw [e1, h]
  rfl

/-- with an existing file of requests -/
theorem enumOutShown_of {st : MsgState} {w : World} {tol : Tol} {a : Args} {input out : Str} {d d' : Dir} {text : Str} {lat : LatticeIn}
    (hd : dictGet d a.lattice = some text) (hr : readLattice text = .ok lat) (hi : (dictGet d input).isSome) (h : enumOut w tol a input out d = (pure d' : Run Dir)) :
    enumOutShown st w tol a input out d = (pure (d', latticeInfos st lat) : Run _) := by
  have e1 : (do let s ← readFile d a.lattice; readLattice s) = .ok lat := by
    unfold readFile
    rw [hd]
    exact hr
  rw [enumOut_shown st] at h
  obtain ⟨⟨d1, shown⟩, h1, h2⟩ := run_bind_ok h
  obtain rfl := run_pure_inj h2
  rw [h1]
  unfold enumOutShown at h1
  rw [e1] at h1
  simp only [runPy_ok, pure_bind, hi, if_true] at h1
  obtain ⟨sys, -, h1⟩ := run_bind_ok h1
  obtain ⟨d2, -, h1⟩ := run_bind_ok h1
  have := run_pure_inj h1
  rw [← this]
  simp

/-- C80. `-polya` without a distribution shows the lines about the lattice file, and nothing else. -/
theorem C80_heading_polya {text : Str} {lat : LatticeIn} (hr : readLattice text = .ok lat) (w : World) (tol : Tol) (a : Args) (d e : Dir)
    (ht : dictGet d a.lattice = some text) (hp : a.polya = true) (he : a.enum = false) (hd : a.distribution.getD [] = [])
    (h : scriptEnum w tol a d = (pure e : Run Dir)) :
    ∃ pieces, scriptShown {} w tol a d = (pure (e, pieces) : Run _) ∧ screenText pieces = latticeLines lat := by
  unfold scriptEnum at h
  obtain ⟨u, hc, h⟩ := run_bind_ok h
  simp only [hp, he, hd, if_true, Bool.false_eq_true, if_false, ne_eq, not_true_eq_false, false_and, bind_pure] at h
  have h1 := h
  refine ⟨latticeInfos {} lat, ?_, infos_text lat⟩
  unfold scriptShown
  simp only [hc, hp, he, hd, if_true, Bool.false_eq_true, if_false, ne_eq, not_true_eq_false, false_and, pure_bind, polyaOutShown_of ht hr h1]
  simp

/-- C80. `-enum` with an existing file of requests shows the lines about the lattice file, and nothing else. -/
theorem C80_heading_enum {text : Str} {lat : LatticeIn} (hr : readLattice text = .ok lat) (w : World) (tol : Tol) (a : Args) (d e : Dir)
    (ht : dictGet d a.lattice = some text) (hp : a.polya = false) (he : a.enum = true) (hi : ∃ req, dictGet d (a.input.getD "enum.in".toList) = some req)
    (h : scriptEnum w tol a d = (pure e : Run Dir)) :
    ∃ pieces, scriptShown {} w tol a d = (pure (e, pieces) : Run _) ∧ screenText pieces = latticeLines lat := by
  have hn : (fileNames a).1.getD [] = a.input.getD "enum.in".toList := by
    unfold fileNames
    simp only [he, if_true]
    split <;> rfl
  have hi' : (dictGet d ((fileNames a).1.getD [])).isSome := by
    obtain ⟨r, hr⟩ := hi
    rw [hn, hr]; rfl
  unfold scriptEnum at h
  obtain ⟨u, hc, h⟩ := run_bind_ok h
  simp only [hp, he, if_true, Bool.false_eq_true, if_false, Bool.true_eq_false, and_false, bind_pure, pure_bind] at h
  have h1 := h
  refine ⟨latticeInfos {} lat, ?_, infos_text lat⟩
  unfold scriptShown
  simp only [hc, hp, he, if_true, Bool.false_eq_true, if_false, Bool.true_eq_false, and_false, pure_bind, enumOutShown_of ht hr hi' h1]
  simp

/-- C80. `-polya -enum` with an existing file of requests reads the lattice file twice and shows the lines twice. -/
theorem C80_heading_both {text : Str} {lat : LatticeIn} (hr : readLattice text = .ok lat) (w : World) (tol : Tol) (a : Args) (d e : Dir)
    (ht : dictGet d a.lattice = some text) (hp : a.polya = true) (he : a.enum = true) (hi : ∃ req, dictGet d (a.input.getD "enum.in".toList) = some req)
    (hl : ¬ (a.outfile.getD "polya.out".toList ++ ['.'] <+: a.lattice)) (hni : ¬ (a.outfile.getD "polya.out".toList ++ ['.'] <+: a.input.getD "enum.in".toList))
    (h : scriptEnum w tol a d = (pure e : Run Dir)) :
    ∃ pieces, scriptShown {} w tol a d = (pure (e, pieces) : Run _) ∧ screenText pieces = latticeLines lat ++ latticeLines lat := by
  have hn : (fileNames a).1.getD [] = a.input.getD "enum.in".toList := by
    unfold fileNames
    simp only [he, if_true]
    split <;> rfl
  have hn2 : (fileNames a).2.getD [] = a.outfile.getD "polya.out".toList := by
    unfold fileNames
    simp only [he, hp, if_true]
    split <;> rfl
  unfold scriptEnum at h
  obtain ⟨u, hc, h⟩ := run_bind_ok h
  simp only [hp, he, if_true, Bool.true_eq_false, and_false, if_false, bind_pure, pure_bind] at h
  obtain ⟨d1, h1, h⟩ := run_bind_ok h
  have h2 := h
  have hk := (polyaOut_inv h1).2.2
  rw [hn2] at hk
  have hi' : (dictGet d1 ((fileNames a).1.getD [])).isSome := by
    obtain ⟨r, hr⟩ := hi
    rw [hn, hk _ hni, hr]; rfl
  refine ⟨latticeInfos {} lat ++ latticeInfos {} lat, ?_, by rw [screenText_append]; simp only [infos_text]; rfl⟩
  unfold scriptShown
  simp only [hc, hp, he, if_true, Bool.true_eq_false, and_false, if_false, pure_bind, polyaOutShown_of ht hr h1,
    enumOutShown_of (by rw [hk _ hl]; exact ht) hr hi' h2]
  simp

/-- `_enum_in` in a directory with the tables, all structures wanted -/
theorem enumInShown_all {st : MsgState} {w : World} {tol : Tol} {a : Args} {input out : Str} {d : Dir} {r : Dir × List Piece} {l : List ℤ} {tables : List PolyaTable}
    (hany : anyNumbered d input = true) (hsz : sizesUsed w d input none = .ok l) (htab : readTables d input l = .ok tables) (hlen : l.length ≤ tables.length)
    (has : a.sizes = none) (h : enumInShown st w tol a input out ["all".toList, "all".toList] d = (pure r : Run _)) : r.2 = [] := by
  unfold enumInShown at h
  rw [if_pos hany, pure_bind] at h
  obtain ⟨d0, e0, h⟩ := run_bind_ok h
  obtain rfl : "all".toList = d0 := Except.ok.inj (runPy_eq_pure e0)
  obtain ⟨d1, -, h⟩ := run_bind_ok h
  obtain ⟨num, -, h⟩ := run_bind_ok h
  obtain ⟨q, hq, h⟩ := run_bind_ok h
  have hr := run_pure_inj h
  rw [← hr]
  have hq := runPy_eq_pure hq
  rw [show lowerStr "all".toList = "all".toList from by decide, has] at hq
  unfold makeEnumInShown at hq
  simp only [Option.map_none, hsz] at hq
  cases hres : readRestrict d a.filter with
  | error e => rw [hres] at hq; cases hq
  | ok res =>
    rw [hres] at hq
    have hq2 : (do
      let distr ← distributePy tables res .all (num.map Int.toNat) w.draws
      (if "all".toList = "all".toList then .ok (dictSet d out (printDist .all distr), missingShown st d input l)
      else do
        let shown ← showDist st distr
        .ok (if a.savedist then dictSet d out (printDist .all distr) else d, missingShown st d input l ++ shown) : Py (Dir × List Piece)) : Py (Dir × List Piece)) = .ok q := by
      rw [← hq]
      show _ = (do
        let tables ← readTables d input l
        let ft ← ftypeOf "all".toList
        let distr ← distributePy tables res ft (num.map Int.toNat) w.draws
        (if "all".toList = "all".toList then .ok (dictSet d out (printDist ft distr), missingShown st d input l)
          else do
            let shown ← showDist st distr
            .ok (if a.savedist then dictSet d out (printDist ft distr) else d, missingShown st d input l ++ shown) : Py (Dir × List Piece)))
      rw [htab]
      rfl
    cases hdist : distributePy tables res .all (num.map Int.toNat) w.draws with
    | error e => rw [hdist] at hq2; cases hq2
    | ok distr =>
      rw [hdist] at hq2
      have hq3 : (dictSet d out (printDist .all distr), missingShown st d input l) = q := Except.ok.inj hq2
      rw [← hq3]
      simp only [List.nil_append]
      exact (missing_none st d input htab).2 hlen

/-- C80. `-enum` in a directory with only the lattice file: the lattice file is read twice and the lines are shown twice; nothing else. -/
theorem C80_heading_fresh {text : Str} {lat : LatticeIn} {P0 : Matrix (Fin 3) (Fin 3) ℚ} {b0 : List (Fin 3 → ℚ)} {lo hi k : ℕ} {T : Set ℚ}
    {C : ℕ → List Conc} (h : EnumInput text lat P0 b0 lo hi k T C) {tol : Tol} (ht : ExactTol P0 b0 hi tol) (t5 : tol.conc ∈ T)
    {U : ℕ → List (M3 ℤ)} {cnt : ℕ → M3 ℤ → Conc → ℕ} (hcnt : CountsAll tol lat P0 b0 lo hi C U cnt)
    (hfits : ∀ n, lo ≤ n → n ≤ hi → (countTable n (U n) (C n) (cnt n)).Fits) (w : World) (hw : ∀ l, (w.listdir l).Perm l) {a : Args} {lattice : Str} {supers : Bool}
    (ha : PlainCall a lattice supers) {d e : Dir} (hd : FreshDir lattice text d) (hrun : scriptEnum w tol a d = (pure e : Run Dir)) :
    ∃ pieces, scriptShown {} w tol a d = (pure (e, pieces) : Run _) ∧ screenText pieces = latticeLines lat ++ latticeLines lat := by
  obtain ⟨l', d1, K, hF, -, -, -, hpolya, hany, ⟨hsz, htab, -⟩, -⟩ := tables_some h ht t5 hcnt hfits hw hd
  have hn : fileNames a = (some "enum.in".toList, some "enum.out".toList) := by
    unfold fileNames
    simp [ha.polya, ha.enum, ha.input, ha.outfile, ha.distribution]
  have e1 : (do let s ← readFile d a.lattice; readLattice s) = .ok lat := by
    unfold readFile
    rw [ha.lattice, hd.text]
    exact h.read
  rw [C80_same_run {}] at hrun
  obtain ⟨⟨e', pieces⟩, h1, h2⟩ := run_bind_ok hrun
  obtain rfl : e' = e := run_pure_inj h2
  refine ⟨pieces, h1, ?_⟩
  unfold scriptShown at h1
  obtain ⟨u, -, h1⟩ := run_bind_ok h1
  simp only [ha.polya, ha.enum, hn, Option.getD_some, if_true, Bool.false_eq_true, if_false, Bool.true_eq_false, and_false, pure_bind] at h1
  obtain ⟨r, h3, h1⟩ := run_bind_ok h1
  have h4 := run_pure_inj h1
  unfold enumOutShown at h3
  rw [e1] at h3
  simp only [runPy_ok, pure_bind, hd.noEnumIn, Option.isSome_none, Bool.false_eq_true, if_false, like_of_numbered hd.noPolya, ha.distribution, Option.getD_none] at h3
  rw [ha.lattice, polyaOutShown_of hd.text h.read hpolya] at h3
  simp only [pure_bind] at h3
  obtain ⟨q, h5, h3⟩ := run_bind_ok h3
  obtain ⟨sys, -, h3⟩ := run_bind_ok h3
  obtain ⟨d', -, h3⟩ := run_bind_ok h3
  have h6 := run_pure_inj h3
  have h7 := enumInShown_all hany hsz htab (by simp [tablesOf]) ha.sizes h5
  have h8 : pieces = latticeInfos {} lat ++ latticeInfos {} lat := by
    have := congrArg Prod.snd h4
    simp only [← h6, h7] at this
    simpa using this.symm
  rw [h8, screenText_append]
  simp only [infos_text]
  rfl

theorem run_leaves_input {a : Args} (h : EnumCall a) {w : World} {tol : Tol} {d d' : Dir} (hrun : scriptEnum w tol a d = (pure d' : Run Dir)) :
    ∃ req, dictGet d' "enum.in".toList = some req := by
  rw [scriptEnum_enum h, enumOut_eq] at hrun
  obtain ⟨lat, h0, hrun⟩ := run_bind_ok hrun
  obtain ⟨d2, h1, hrun⟩ := run_bind_ok hrun
  unfold finish at hrun
  obtain ⟨systems, h2, hrun⟩ := run_bind_ok hrun
  unfold enumWrite at hrun
  obtain ⟨geo, h4, hrun⟩ := run_bind_ok hrun
  obtain ⟨rows, h5, hrun⟩ := run_bind_ok hrun
  by_cases hs : systems = []
  · rw [if_pos hs] at hrun; cases hrun
  rw [if_neg hs] at hrun
  rw [← run_pure_inj hrun, dictGet_set, if_neg (by decide)]
  have := runPy_eq_pure h2
  unfold readFile at this
  cases hx : dictGet d2 "enum.in".toList with
  | none => rw [hx] at this; cases this
  | some x => exact ⟨x, rfl⟩

/-- For input/fcc/lattice.in: `-polya` shows one line, `-enum` shows it twice, and the same call again once. -/
example (w : World) (hw : ∀ l, (w.listdir l).Perm l) (hsh : ∀ i l, ((w.rnd i).shuffle l).Perm l) :
    let d : Dir := [("lattice.in".toList, fccText)]
    let line := "Concentrations are being restricted.\n".toList
    (∃ e pieces, scriptShown {} w shippedTol ⟨true, false, "lattice.in".toList, none, none, none, none, false, none, false, none⟩ d = (pure (e, pieces) : Run _) ∧
      screenText pieces = line) ∧
    ∃ e pieces pieces', scriptShown {} w shippedTol ⟨false, true, "lattice.in".toList, none, none, none, none, true, none, false, none⟩ d = (pure (e, pieces) : Run _) ∧
      screenText pieces = line ++ line ∧
      scriptShown {} w shippedTol ⟨false, true, "lattice.in".toList, none, none, none, none, true, none, false, none⟩ e = (pure (e, pieces') : Run _) ∧
      screenText pieces' = line := by
  intro d line
  have hline : latticeLines fccLat = line := by decide
  obtain ⟨C, h1, h2⟩ := ranges_enum fcc_crystal fcc_ranges (by simp) ⟨4, [4, 0, 0], le_refl _, le_refl _, fcc_in_ranges.mpr ⟨rfl, rfl⟩⟩ (t := 1 / 10 ^ 10) (by norm_num) (by norm_num)
  have ht : ExactTol fccP0 [![0, 0, 0]] 4 shippedTol := coarse_exact fccP0_det (decimal_coarse fcc_decimal) (by simp)
  obtain ⟨U, cnt, hcnt, hall⟩ := every_structure_once_at h2 ht rfl
  obtain ⟨h3, h4⟩ := small_ok h2 (by simp) (Or.inr (by simp)) hcnt
  have hd : FreshDir "lattice.in".toList fccText d := by
    refine ⟨rfl, ?_, rfl⟩
    have : ∀ f ∈ ["lattice.in".toList], ¬ f.head? = some 'p' := by decide +kernel
    exact fun f hf h => this f hf h.2
  have ha : PlainCall ⟨false, true, "lattice.in".toList, none, none, none, none, true, none, false, none⟩ "lattice.in".toList true := by constructor <;> rfl
  constructor
  · obtain ⟨-, d1, -, -, -, -, -, hp, -⟩ := tables_some h2 ht rfl hcnt h3 hw hd
    obtain ⟨pieces, a1, a2⟩ := C80_heading_polya h2.read w shippedTol ⟨true, false, "lattice.in".toList, none, none, none, none, false, none, false, none⟩ d d1 rfl rfl rfl rfl (by
      unfold scriptEnum
      rw [show checkArgs (⟨true, false, "lattice.in".toList, none, none, none, none, false, none, false, none⟩ : Args) d = .ok () from rfl, runPy_ok, pure_bind, if_pos rfl]
      show (polyaOut shippedTol "lattice.in".toList "polya.out".toList d >>= _) = _
      rw [hp]
      rfl)
    exact ⟨d1, pieces, a1, a2.trans hline⟩
  · obtain ⟨rows, e, r1, -, -, -, -, r2⟩ := hall h3 h4 w _ _ d hw hsh ha hd
    obtain ⟨pieces, a1, a2⟩ := C80_heading_fresh h2 ht rfl hcnt h3 w hw ha hd r1
    have hcall : EnumCall ⟨false, true, "lattice.in".toList, none, none, none, none, true, none, false, none⟩ := by
      refine ⟨rfl, rfl, rfl, rfl, ?_, ?_⟩
      · intro l hl; cases hl
      · intro q hq; cases hq
    have r3 := C57_rerun hcall (w := w) (w' := w) ⟨rfl, rfl⟩ ⟨by decide, by decide, by decide⟩ r1
    have hin : ∃ req, dictGet e "enum.in".toList = some req := by
      exact run_leaves_input hcall r1
    obtain ⟨pieces', b1, b2⟩ := C80_heading_enum h2.read w shippedTol ⟨false, true, "lattice.in".toList, none, none, none, none, true, none, false, none⟩ e e (by
      rw [r2 _ (by decide) (by decide) (fun n _ _ => by
        intro he
        have := congrArg List.head? he
        simp at this)]
      rfl) rfl rfl hin r3
    exact ⟨e, pieces, pieces', a1, by rw [a2, hline], b1, b2.trans hline⟩

end Phenum
