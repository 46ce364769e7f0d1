import Verif.Props.ProgramConfig
import Verif.Props.ProgramDisk
import Verif.Props.CubicReduce
import Verif.Props.CommandLineExamples
import Verif.Props.Messages
/-
C97: a whole session at the shell, from the words of two command lines to the POSCAR files or the config file on the disk.
-/
namespace Phenum
open Spec

/-- A command line of makeStr that asks for all structures of enum.out with the names `els`: the options stand anywhere on the line in any of their forms, and the others (`-mink`,
`-displace`, `-rattle`, `-remove_zeros`, `-verbose`, ...) may be given with values of the right form. -/
structure Spec.MakeAllLine (argv : List Str) (given : List (Str × List Str)) : Prop where
  line : ∃ w nums more, Line makeTable argv given ((w :: nums) :: more) ∧ lowerStr w = "all".toList
  values : ∀ p ∈ given, WellFormed p
  examples : "-examples".toList ∉ given.map (·.1)
  input : LastGiven given "-input".toList ["enum.out".toList]

/-- The last `-outfile` is `f`, or there is none and `f` is the name that makeStr takes then. -/
def Spec.OutfileGiven (given : List (Str × List Str)) (f : Str) : Prop :=
  LastGiven given "-outfile".toList [f] ∨ "-outfile".toList ∉ given.map (·.1) ∧ f = "vasp.{}".toList

/-- The options `-mink`, `-config`, `-remove_zeros` have the value t or f. -/
theorem flag_word {given : List (Str × List Str)} (hok : ∀ p ∈ given, WellFormed p) {name : String} (hn : name ∈ ["-mink", "-config", "-remove_zeros"]) {w : Str}
    (hw : w = "t".toList ∨ w = "f".toList) : (lastOne given name).getD w = "t".toList ∨ (lastOne given name).getD w = "f".toList := by
  cases hv : lastOne given name with
  | none => simpa using hw
  | some v =>
    rw [Option.getD_some]
    unfold lastOne lastOpt at hv
    rw [Option.bind_eq_some_iff] at hv
    obtain ⟨l, hl, hv⟩ := hv
    rw [Option.map_eq_some_iff] at hl
    obtain ⟨p, hp, rfl⟩ := hl
    have hp' := List.mem_filter.mp (List.mem_of_getLast? hp)
    have hname := of_decide_eq_true hp'.2
    refine (hok p hp'.1).2.2.2 ?_ v (List.mem_of_head? hv)
    rw [hname]
    simp only [List.mem_cons, List.not_mem_nil, or_false] at hn
    rcases hn with rfl | rfl | rfl
    · exact .inl rfl
    · exact .inr (.inl rfl)
    · exact .inr (.inr rfl)

theorem lower_cases {c : Char} {x : Char} (h : c.toLower = x) : c = x ∨ c.toNat + 32 = x.toNat := by
  unfold Char.toLower at h
  split at h
  · right
    subst h
    rename_i hc
    have e : c.toNat = c.val.toNat := rfl
    simp only [Char.toNat, UInt32.toNat_add]
    have : c.val.toNat ≤ 90 := by
      have := hc.2
      simpa [UInt32.le_iff_toNat_le] using this
    simp
    omega
  · exact .inl h

theorem lower_letter {c x y : Char} (h1 : c.toLower = x) (h2 : y.toNat + 32 = x.toNat) : c = x ∨ c = y := by
  rcases lower_cases h1 with h | h
  · exact .inl h
  · right
    apply Char.ext
    apply UInt32.toNat_inj.mp
    have : c.toNat = y.toNat := by omega
    exact this

theorem lower_all {w : Str} (h : lowerStr w = "all".toList) :
    w ∈ ["all".toList, "alL".toList, "aLl".toList, "aLL".toList, "All".toList, "AlL".toList, "ALl".toList, "ALL".toList] := by
  unfold lowerStr at h
  have e : "all".toList = ['a', 'l', 'l'] := by decide +kernel
  rw [e] at h
  have hl : w.length = 3 := by simpa using congrArg List.length h
  match w, hl with
  | [a, b, c], _ =>
    simp only [List.map_cons, List.map_nil, List.cons.injEq, and_true] at h
    have ha := lower_letter (y := 'A') h.1 (by decide)
    have hb := lower_letter (y := 'L') h.2.1 (by decide)
    have hc := lower_letter (y := 'L') h.2.2 (by decide)
    rcases ha with rfl | rfl <;> rcases hb with rfl | rfl <;> rcases hc with rfl | rfl <;> decide +kernel

theorem select_every {w : Str} {rest : List Str} (h : lowerStr w = "all".toList) : selectStructures (some (w :: rest)) = .ok none := by
  have hr : ∀ w ∈ ["all".toList, "alL".toList, "aLl".toList, "aLL".toList, "All".toList, "AlL".toList, "ALl".toList, "ALL".toList], representsInt w = false := by
    decide +kernel
  simp only [selectStructures]
  rw [if_pos ⟨hr w (lower_all h), h⟩]

/-- C91. What a program does with a line that it accepts: -verbose only shows messages, and the rest is the run of the other properties on the values of the options. -/
theorem C91_program {argv : List Str} {given : List (Str × List Str)} {loose : List (List Str)} (h : Line enumTable argv given loose) (hok : ∀ p ∈ given, WellFormed p)
    (hex : "-examples".toList ∉ given.map (·.1)) (hpr : "-profile".toList ∉ given.map (·.1)) (hvi : "-visualize".toList ∉ given.map (·.1)) :
    ∃ v o, enumLine argv = .run v o ∧ ∀ (st : MsgState) (t : HelpTexts) (w : World) (tol : Tol) (d : Dir),
      ∃ r, programEnum st t w tol argv d = some ([], r) ∧ scriptEnum w tol o.args d = (r >>= fun x => (pure x.1 : Run Dir)) := by
  obtain ⟨v, o, h1, h2, -, -, -, -, h3, h4, -⟩ := C91_enum h hok hex
  refine ⟨v, o, h1, fun st t w tol d => ?_⟩
  have hv : ∀ {b : Bool} {P : Prop}, (b = true ↔ P) → ¬ P → b = false := fun {b P} h hn => by
    cases b
    · rfl
    · exact absurd (h.mp rfl) hn
  unfold programEnum
  rw [h1]
  simp only [hv h3 hpr, hv h4 hvi, Bool.or_self, Bool.false_eq_true, if_false]
  exact ⟨_, rfl, C80_same_run _ w tol o.args d⟩

/-- C93. `-examples` anywhere on the line: the help of the program is shown, nothing is done, and the program ends with an error, whatever else is asked for; makeStr ends with an
error as well. -/
theorem C93_examples {argv : List Str} {given : List (Str × List Str)} {loose : List (List Str)} (hok : ∀ p ∈ given, WellFormed p) (hex : "-examples".toList ∈ given.map (·.1)) :
    (Line enumTable argv given loose → ∀ (t : HelpTexts) (w : World) (tol : Tol) (d : Dir),
      ∃ pieces, programEnum {} t w tol argv d = some (pieces, throw PyErr.typeError) ∧ screenText pieces = linesText (helpLines t)) ∧
    (Line makeTable argv given loose → ∀ rnd d, programMake argv rnd d = some (throw PyErr.valueError)) := by
  have h2 : (commonOf baseTable given).all valuesOk = true := all_wellFormed (fun p hp => hok p (List.mem_filter.mp hp).1)
  have h3 : hasOpt given "-examples" = true := hasOpt_iff.mpr hex
  refine ⟨fun h t w tol d => ⟨msgExample {} t, ?_, C81_help ⟨rfl, by decide⟩ t⟩, fun h rnd d => ?_⟩
  · unfold programEnum enumLine
    rw [exhandler_line enumTable_ok base_enum _ h, h2, h3]
    rfl
  · unfold programMake makeLine
    rw [exhandler_line makeTable_ok base_make _ h, h2, h3]
    rfl

/-- The options of a line that asks for all structures. -/
theorem makeAll_line {argv : List Str} {given : List (Str × List Str)} (h : MakeAllLine argv given) :
    ∃ v o, makeLine argv = .run v o ∧ o.input = "enum.out".toList ∧ selectStructures o.toArgs.structures = .ok none ∧ o.toArgs.mink.truth = true ∧ o.toArgs.removeZeros.truth = true ∧
      (∀ f, OutfileGiven given f → o.toArgs.outfile = f) ∧
      (∀ f, LastGiven given "-config".toList [f] → o.toArgs.config = .str f) ∧ ("-config".toList ∉ given.map (·.1) → o.toArgs.config = .str "f".toList) ∧
      (∀ l, LastGiven given "-species".toList l → o.toArgs.species = some (l.map String.ofList)) ∧ ("-species".toList ∉ given.map (·.1) → o.toArgs.species = none) ∧
      (∀ s q, LastGiven given "-displace".toList [s] → parseFloat (strip s) = .ok q → o.toArgs.displace = (q : ℝ)) ∧ ("-displace".toList ∉ given.map (·.1) → o.toArgs.displace = 0) ∧
      (∀ l ns, LastGiven given "-species_mapping".toList l → List.Forall₂ (fun s (n : ℕ) => parseInt (strip s) = .ok (n : ℤ)) l ns → o.toArgs.speciesMapping = some ns) ∧
      ("-species_mapping".toList ∉ given.map (·.1) → o.toArgs.speciesMapping = none) := by
  obtain ⟨w, nums, more, hl, hw⟩ := h.line
  obtain ⟨v, o, h1, -, h2, h3, -, h4, h5, -, -, h6, h7, -, -, h8, h9, h10, h11, -, -, h12, h13⟩ := C91_make hl h.values h.examples
  have hrun := line_runs makeTable_ok base_make makeOptions hl h.values h.examples
  have ho : o = { (makeOptions given ((w :: nums) :: more)).get rfl with } := by
    have : makeLine argv = .run (hasOpt given "-verbose") ((makeOptions given ((w :: nums) :: more)).get rfl) := hrun
    rw [h1] at this
    exact (CommandLine.run.inj this).2
  have hne : ∀ {s : Str}, s = "t".toList ∨ s = "f".toList → (Flag.str s).truth = true := by
    rintro s (rfl | rfl) <;> decide +kernel
  refine ⟨v, o, h1, h3 _ h.input, by rw [h2]; exact select_every hw, ?_, ?_, ?_, h6, h7, h8, h9, h10, h11, h12, h13⟩
  · rw [ho]
    exact hne (flag_word h.values (name := "-mink") (by simp) (.inl rfl))
  · rw [ho]
    exact hne (flag_word h.values (name := "-remove_zeros") (by simp) (.inr rfl))
  · rintro f (hf | ⟨hf, rfl⟩)
    · exact h4 f hf
    · exact h5 hf

theorem programMake_all {argv : List Str} {v : Bool} {o : MakeOptions} (h : makeLine argv = .run v o) (rnd : ReadStruct → ℕ → ℕ → ℝ) (d : Dir) :
    programMake argv rnd d = some (makeStrDir o.toArgs o.input rnd d) := by
  unfold programMake
  rw [h]

section
variable {text : Str} {lat : LatticeIn} {P0 : Matrix (Fin 3) (Fin 3) ℚ} {b0 : List (Fin 3 → ℚ)} {hi k : ℕ} {ranges : List ConcRange} {d : ℤ} {els : List String}

/-- What the command `makeStr.py all -input enum.out -species els` makes of the directory, however it is written: it comes to its end, and changes no files but those of the POSCARs,
which have different names. In each of these one reads, with the numbers rounded, a POSCAR with the elements that occur, which shows a crystal of the kind asked for, and every such crystal
is, up to a symmetry of the parent crystal, shown by exactly one of them. -/
def Spec.MakesPoscars (P0 : Matrix (Fin 3) (Fin 3) ℚ) (b0 : List (Fin 3 → ℚ)) (hi k : ℕ) (ranges : List ConcRange) (els : List String) (d1 : Dir) : Prop :=
  ∀ ⦃argv : List Str⦄ ⦃given : List (Str × List Str)⦄ (out pre post : Str), MakeAllLine argv given →
    LastGiven given "-config".toList ["f".toList] ∨ "-config".toList ∉ given.map (·.1) → LastGiven given "-species".toList (els.map String.toList) →
    OutfileGiven given out → (∀ c ∈ pre, c ≠ '{' ∧ c ≠ '}') → (∀ c ∈ post, c ≠ '{' ∧ c ≠ '}') → out = pre ++ '{' :: '}' :: post ∨ out = pre →
    ∀ rnd : ReadStruct → ℕ → ℕ → ℝ, ∃ (d2 : Dir) (outs : List (Str × Poscar)), programMake argv rnd d1 = some (pure d2 : Run Dir) ∧ (outs.map (·.1)).Nodup ∧
      (∀ f, f ∉ outs.map (·.1) → dictGet d2 f = dictGet d1 f) ∧
      (∀ o ∈ outs, (∃ text R, dictGet d2 o.1 = some text ∧ readPoscarText text = .ok R ∧ PoscarMatches o.2 R) ∧
        ∃ ψ, AllowedCrystal (realMat P0) (realVecs b0) hi k ranges ψ ∧
          PoscarOf (realMat P0).transpose b0.length (CrystalSites (ColLattice (realMat P0).transpose) (realVecs b0)) els true o.2 ψ) ∧
      ∀ χ, AllowedCrystal (realMat P0) (realVecs b0) hi k ranges χ →
        ∃! o, o ∈ outs ∧ ∃ ψ, PoscarOf (realMat P0).transpose b0.length (CrystalSites (ColLattice (realMat P0).transpose) (realVecs b0)) els true o.2 ψ ∧
          SameDecoration (ColLattice (realMat P0).transpose) (realVecs b0) χ ψ

/-- The same for `-config t` with the species and the mapping given, or not. -/
def Spec.MakesConfig (P0 : Matrix (Fin 3) (Fin 3) ℚ) (b0 : List (Fin 3 → ℚ)) (hi k : ℕ) (ranges : List ConcRange) (d1 : Dir) : Prop :=
  ∀ ⦃argv : List Str⦄ ⦃given : List (Str × List Str)⦄ (out : Str) (species : Option (List String)) (mapping : Option (List ℕ)), MakeAllLine argv given →
    LastGiven given "-config".toList ["t".toList] →
    (match species with
      | some els => LastGiven given "-species".toList (els.map String.toList)
      | none => "-species".toList ∉ given.map (·.1)) →
    (match mapping with
      | some ns => ∃ l, LastGiven given "-species_mapping".toList l ∧ List.Forall₂ (fun s (n : ℕ) => parseInt (strip s) = .ok (n : ℤ)) l ns
      | none => "-species_mapping".toList ∉ given.map (·.1)) →
    SpeciesGiven k species mapping → (∃ s, LastGiven given "-displace".toList [s] ∧ parseFloat (strip s) = .ok 0) ∨ "-displace".toList ∉ given.map (·.1) →
    OutfileGiven given out →
    ∀ rnd : ReadStruct → ℕ → ℕ → ℝ, ∃ (d2 : Dir) (text : Str) (R : List ConfigRead) (cs : List ConfigFile), programMake argv rnd d1 = some (pure d2 : Run Dir) ∧
      (∀ f, f ≠ out → dictGet d2 f = dictGet d1 f) ∧ (cs ≠ [] → dictGet d2 out = some ((dictGet d1 out).getD [] ++ text)) ∧ readConfigText text = .ok R ∧
      List.Forall₂ (fun C r => ConfigMatches (r.name, C) r) cs R ∧ (∀ i (h : i < R.length), ∃ p, R[i].name = p ++ '_' :: natStr (i + 1)) ∧
      (∀ C ∈ cs, ∃ ψ, AllowedCrystal (realMat P0) (realVecs b0) hi k ranges ψ ∧
        ConfigOf (realMat P0).transpose b0.length (CrystalSites (ColLattice (realMat P0).transpose) (realVecs b0)) species mapping C ψ) ∧
      ∀ χ, AllowedCrystal (realMat P0) (realVecs b0) hi k ranges χ → ∃! i : ℕ, ∃ C, cs[i]? = some C ∧
        ∃ ψ, ConfigOf (realMat P0).transpose b0.length (CrystalSites (ColLattice (realMat P0).transpose) (realVecs b0)) species mapping C ψ ∧
          SameDecoration (ColLattice (realMat P0).transpose) (realVecs b0) χ ψ

theorem makesPoscars {d1 : Dir} (h : OnePoscarFileEach P0 b0 hi k ranges els d1) (hred : CanReduce (realMat P0).transpose hi true) : MakesPoscars P0 b0 hi k ranges els d1 := by
  intro argv given out pre post hm hcfg hsp hout hpre hpost hform rnd
  obtain ⟨v, o, h1, h2, h3, h4, h5, h6, h7, h8, h9, -⟩ := makeAll_line hm
  rw [programMake_all h1, h2]
  have hs := h9 _ hsp
  rw [List.map_map] at hs
  have hsp' : o.toArgs.species = some els := by
    rw [hs]
    congr 1
    refine (List.map_congr_left ?_).trans (List.map_id _)
    intro s _
    simp
  obtain ⟨d2, outs, q1, q2⟩ := h o.toArgs ⟨h3, hcfg.elim (fun hc => h7 _ hc) h8, hsp', pre, post, hpre, hpost, by rw [h6 _ hout]; exact hform⟩ (by rw [h4]; exact hred) rnd true
    (by rw [h5]; simp)
  exact ⟨d2, outs, by rw [q1], q2⟩

theorem makesConfig {d1 : Dir} (h : OneConfigEach P0 b0 hi k ranges d1) (hred : CanReduce (realMat P0).transpose hi true) : MakesConfig P0 b0 hi k ranges d1 := by
  intro argv given out species mapping hm hcfg hsp hmap hgiven hdis hout rnd
  obtain ⟨v, o, h1, h2, h3, h4, -, h6, h7, -, h9, h10, h11, h12, h13, h14⟩ := makeAll_line hm
  rw [programMake_all h1, h2]
  have e1 : o.toArgs.species = species := by
    cases species with
    | none => exact h10 hsp
    | some els =>
      rw [h9 _ hsp, List.map_map]
      congr 1
      refine (List.map_congr_left ?_).trans (List.map_id _)
      intro s _
      simp
  have e2 : o.toArgs.speciesMapping = mapping := by
    cases mapping with
    | none => exact h14 hmap
    | some ns =>
      obtain ⟨l, g1, g2⟩ := hmap
      exact h13 l ns g1 g2
  have e3 : o.toArgs.displace = 0 := by
    rcases hdis with ⟨s, g1, g2⟩ | g
    · rw [h11 s 0 g1 g2]
      norm_num
    · exact h12 g
  have e4 := h6 _ hout
  obtain ⟨d2, text, R, cs, q1, q2⟩ := h o.toArgs ⟨h3, h7 _ hcfg, e3, by rw [e1, e2]; exact hgiven⟩ (by rw [h4]; exact hred) rnd
  rw [e4, e1, e2] at q2
  exact ⟨d2, text, R, cs, by rw [q1], q2⟩

/-- The first command of the session: what holds for every call of the script with these options holds for the command line. -/
theorem session_run {argv : List Str} {given : List (Str × List Str)} {loose : List (List Str)} {lattice : Option Str} (hline : Line enumTable argv given loose)
    (hp : given.Perm (enumWords lattice false)) {w : World} {dir : Dir} {R : Dir → Prop}
    (hrun : ∀ a, PlainCall a (lattice.getD "lattice.in".toList) false → ∃ d1, scriptEnum w shippedTol a dir = (pure d1 : Run Dir) ∧ R d1) (st : MsgState) (t : HelpTexts) :
    ∃ (d1 : Dir) (shown : List Piece), programEnum st t w shippedTol argv dir = some ([], (pure (d1, shown) : Run (Dir × List Piece))) ∧ R d1 := by
  obtain ⟨a, ha, hprog⟩ := C92_program hline hp
  obtain ⟨d1, h1, h2⟩ := hrun a ha
  obtain ⟨r, h3, h4⟩ := hprog st t w shippedTol dir
  rw [h4] at h1
  obtain ⟨x, hx, h5⟩ := run_bind_ok h1
  have h6 := run_pure_inj h5
  subst h6
  exact ⟨x.1, x.2, by rw [h3, hx], h2⟩

/-- What the commands `enumeration.py -enum` (with `-lattice lattice`, if it isn't lattice.in) leave for the next one. -/
def Spec.SessionLeaves (text : Str) (R : Dir → Prop) : Prop :=
  ∀ ⦃argv : List Str⦄ ⦃given : List (Str × List Str)⦄ ⦃loose : List (List Str)⦄ ⦃lattice : Option Str⦄, Line enumTable argv given loose → given.Perm (enumWords lattice false) →
    ∀ (st : MsgState) (t : HelpTexts) (w : World) (dir : Dir), (∀ l, (w.listdir l).Perm l) → '\n' ∉ w.now → FreshDir (lattice.getD "lattice.in".toList) text dir →
      ∃ (d1 : Dir) (shown : List Piece), programEnum st t w shippedTol argv dir = some ([], (pure (d1, shown) : Run (Dir × List Piece))) ∧ R d1

/-- C97. From two command lines to POSCAR files: with ranges of concentrations. -/
theorem C97_poscars (h : CrystalInput text lat P0 b0 1 hi k) (hr : RangesInput lat k ranges d) (hk3 : k ≤ 3) (hna : lat.arrowFractions.sum = 0) (h7 : hi ≤ 7)
    (hsize : b0.length * hi ≤ 18) (hdec : ∀ i j, SevenDecimals (P0 i j)) (hdec' : ∀ v ∈ b0, ∀ i, SevenDecimals (v i))
    (hne : ∃ n c, 1 ≤ n ∧ n ≤ hi ∧ InConcRanges ranges (b0.length * n) c) (hd : d ≤ 10 ^ 8) (hel : KnownElements els) (hlk : els.length = k) (hred : CanReduce (realMat P0).transpose hi true)
    {K K' : ℝ} {g D : ℕ} (hc : Coarse (realMat P0) (realVecs b0) K K' g D (1 / 10 ^ 7)) : SessionLeaves text (MakesPoscars P0 b0 hi k ranges els) := by
  intro argv given loose lattice hline hp st t w dir hw hnow hdir
  refine session_run hline hp (fun a ha => ?_) st t
  obtain ⟨d1, r1, r2⟩ := C87_poscar_files h hr hk3 hna h7 hsize hdec hdec' hne hd hel hlk hc w a _ dir hw hnow ha hdir
  exact ⟨d1, r1, makesPoscars r2 hred⟩

/-- C97. The same without restrictions. -/
theorem C97_poscars_free (h : CrystalInput text lat P0 b0 1 hi k) (hfree : lat.restricted = false) (hk3 : k ≤ 3) (h7 : hi ≤ 7)
    (hsize : b0.length * hi ≤ 18) (hdec : ∀ i j, SevenDecimals (P0 i j)) (hdec' : ∀ v ∈ b0, ∀ i, SevenDecimals (v i)) (hel : KnownElements els) (hlk : els.length = k) (hred : CanReduce (realMat P0).transpose hi true)
    {K K' : ℝ} {g D : ℕ} (hc : Coarse (realMat P0) (realVecs b0) K K' g D (1 / 10 ^ 7)) : SessionLeaves text (MakesPoscars P0 b0 hi k [] els) := by
  intro argv given loose lattice hline hp st t w dir hw hnow hdir
  refine session_run hline hp (fun a ha => ?_) st t
  obtain ⟨d1, r1, r2⟩ := C87_poscar_files_free h hfree hk3 h7 hsize hdec hdec' hel hlk hc w a _ dir hw hnow ha hdir
  exact ⟨d1, r1, makesPoscars r2 hred⟩

/-- C97. From two command lines to one config file: with ranges of concentrations. -/
theorem C97_config (h : CrystalInput text lat P0 b0 1 hi k) (hr : RangesInput lat k ranges d) (hk3 : k ≤ 3) (hna : lat.arrowFractions.sum = 0) (h7 : hi ≤ 7)
    (hsize : b0.length * hi ≤ 18) (hdec : ∀ i j, SevenDecimals (P0 i j)) (hdec' : ∀ v ∈ b0, ∀ i, SevenDecimals (v i))
    (hne : ∃ n c, 1 ≤ n ∧ n ≤ hi ∧ InConcRanges ranges (b0.length * n) c) (hd : d ≤ 10 ^ 8) (hred : CanReduce (realMat P0).transpose hi true)
    {K K' : ℝ} {g D : ℕ} (hc : Coarse (realMat P0) (realVecs b0) K K' g D (1 / 10 ^ 7)) : SessionLeaves text (MakesConfig P0 b0 hi k ranges) := by
  intro argv given loose lattice hline hp st t w dir hw hnow hdir
  refine session_run hline hp (fun a ha => ?_) st t
  obtain ⟨d1, r1, r2⟩ := C88_one_config h hr hk3 hna h7 hsize hdec hdec' hne hd hc w a _ dir hw hnow ha hdir
  exact ⟨d1, r1, makesConfig r2 hred⟩

/-- C97. The same without restrictions. -/
theorem C97_config_free (h : CrystalInput text lat P0 b0 1 hi k) (hfree : lat.restricted = false) (hk3 : k ≤ 3) (h7 : hi ≤ 7)
    (hsize : b0.length * hi ≤ 18) (hdec : ∀ i j, SevenDecimals (P0 i j)) (hdec' : ∀ v ∈ b0, ∀ i, SevenDecimals (v i)) (hred : CanReduce (realMat P0).transpose hi true)
    {K K' : ℝ} {g D : ℕ} (hc : Coarse (realMat P0) (realVecs b0) K K' g D (1 / 10 ^ 7)) : SessionLeaves text (MakesConfig P0 b0 hi k []) := by
  intro argv given loose lattice hline hp st t w dir hw hnow hdir
  refine session_run hline hp (fun a ha => ?_) st t
  obtain ⟨d1, r1, r2⟩ := C88_one_config_free h hfree hk3 h7 hsize hdec hdec' hc w a _ dir hw hnow ha hdir
  exact ⟨d1, r1, makesConfig r2 hred⟩

end

/-! ## the session of the simple cubic lattice -/

/-- `makeStr.py all -input enum.out -outfile=POSCAR.{} -species Al Ni` -/
theorem all_line : Line makeTable (["All", "-input", "enum.out", "-outfile=POSCAR.{}", "-species", "Al", "Ni"].map String.toList)
    [("-input".toList, ["enum.out".toList]), ("-outfile".toList, ["POSCAR.{}".toList]), ("-species".toList, ["Al".toList, "Ni".toList])] [["All".toList]] := by
  refine line_plain (lead := ["All".toList]) (more := [[], [], []]) ?_ ?_
  · intro v hv
    rw [List.mem_singleton.mp hv]
    exact plain_of (by decide +kernel)
  have h : Reads makeTable ("-input".toList :: (["enum.out".toList] ++ []) ++ (("-outfile".toList ++ '=' :: "POSCAR.{}".toList) :: ([] : List Str) ++
      ("-species".toList :: (["Al", "Ni"].map String.toList ++ []) ++ [])))
      [("-input".toList, ["enum.out".toList]), ("-outfile".toList, ["POSCAR.{}".toList]), ("-species".toList, ["Al".toList, "Ni".toList])] [[], [], []] := by
    refine .apart (k := .one) (by decide +kernel) (.inl rfl) rfl ?_ (fun h => by cases h) ?_
    · intro v hv
      apply plain_of
      revert v
      decide +kernel
    refine .joined (k := .one) (by decide +kernel) (.inl rfl) (by decide +kernel) (by simp) ?_
    refine .apart (k := .many) (by decide +kernel) (.inl rfl) (by simp [Takes]) ?_ (fun _ => rfl) .nil
    intro v hv
    apply plain_of
    revert v
    decide +kernel
  exact h

theorem all_makes : MakeAllLine (["All", "-input", "enum.out", "-outfile=POSCAR.{}", "-species", "Al", "Ni"].map String.toList)
    [("-input".toList, ["enum.out".toList]), ("-outfile".toList, ["POSCAR.{}".toList]), ("-species".toList, ["Al".toList, "Ni".toList])] where
  line := ⟨"All".toList, [], [], all_line, by decide +kernel⟩
  values := by
    intro p hp
    rw [← wellFormed_iff]
    revert p
    decide +kernel
  examples := by decide +kernel
  input := lastGiven_of_mem (by decide +kernel) (by simp)

/-- C97 for the simple cubic lattice with one or two cells and between one and three quarters of each element: after `enumeration.py -enum` and
`makeStr.py All -input enum.out -outfile=POSCAR.{} -species Al Ni` there is exactly one POSCAR of alternating layers of Al and Ni on the disk. -/
example (st : MsgState) (t : HelpTexts) (w : World) (hw : ∀ l, (w.listdir l).Perm l) (hnow : '\n' ∉ w.now) (rnd : ReadStruct → ℕ → ℕ → ℝ) :
    ∃ (d1 d2 : Dir) (shown : List Piece) (outs : List (Str × Poscar)),
      programEnum st t w shippedTol ["-enum".toList] [("notes.txt".toList, []), ("lattice.in".toList, scrText)] = some ([], (pure (d1, shown) : Run (Dir × List Piece))) ∧
      programMake (["All", "-input", "enum.out", "-outfile=POSCAR.{}", "-species", "Al", "Ni"].map String.toList) rnd d1 = some (pure d2 : Run Dir) ∧
        (∀ o ∈ outs, ∃ text R, dictGet d2 o.1 = some text ∧ readPoscarText text = .ok R ∧ PoscarMatches o.2 R) ∧
        (∃! o, o ∈ outs ∧ ∃ ψ, PoscarOf (1 : M3 ℝ).transpose 1 (CrystalSites (ColLattice (1 : M3 ℝ).transpose) [0]) ["Al", "Ni"] true o.2 ψ ∧
          SameDecoration (ColLattice (1 : M3 ℝ).transpose) [0] layers ψ) := by
  have h0 : SevenDecimals 0 := ⟨0, by norm_num⟩
  have h1 : SevenDecimals 1 := ⟨10 ^ 7, by norm_num⟩
  have hleaves := C97_poscars scr_crystal scr_ranges (by norm_num) (by rw [scr_fractions]; simp) (by norm_num) (by simp)
    (by intro i j; fin_cases i <;> fin_cases j <;> first | exact h0 | exact h1)
    (by
      intro v hv i
      rw [List.mem_singleton] at hv
      subst hv
      fin_cases i <;> exact h0) ⟨2, [1, 1], by norm_num, le_refl _, scr_some⟩ (by norm_num) alNi_known rfl
    (cubic_canReduce (a := 1) (by norm_num) ⟨1, Or.inl fun i => by fin_cases i <;> rfl⟩ (by norm_num) true) (decimal_coarse sc_decimal)
  obtain ⟨d1, shown, r1, r2⟩ := hleaves (lattice := none) (line_plain (lead := []) (by simp) enum_single) (List.Perm.refl _) st t w
    [("notes.txt".toList, []), ("lattice.in".toList, scrText)] hw hnow (by
      refine ⟨by decide +kernel, ?_, by decide +kernel⟩
      have : ∀ f ∈ ["notes.txt".toList, "lattice.in".toList], ¬ f.head? = some 'p' := by decide +kernel
      exact fun f hf h => this f hf h.2)
  obtain ⟨d2, outs, q1, -, -, q3, q4⟩ := r2 "POSCAR.{}".toList "POSCAR.".toList [] all_makes (.inr (by decide +kernel)) (lastGiven_of_mem (by decide +kernel) (by simp))
    (.inl (lastGiven_of_mem (by decide +kernel) (by simp))) (by decide +kernel) (by simp) (.inl rfl) rnd
  rw [realVecs_zero, realMat_sc] at q4
  exact ⟨d1, d2, shown, outs, r1, q1, fun o ho => (q3 o ho).1, q4 layers scr_layers⟩

end Phenum
