import Verif.Proof.CommandLine
import Verif.Props.Screen
import Verif.Props.PoscarNames
/-
The command lines of the two programs (C91, C92, C93).
-/
namespace Phenum
open Spec

/-! ## C91: what a command line means -/

/-- C91. What a line of options means to argparse: exactly the options written, with their values, and the values that belong to no option. -/
theorem C91_reading {argv : List Str} {given : List (Str × List Str)} {loose : List (List Str)} :
    (Line baseTable argv given loose → knownArgs baseTable argv = some (given, loose)) ∧
    (Line enumTable argv given loose → knownArgs enumTable argv = some (given, loose)) ∧
    (Line makeTable argv given loose → knownArgs makeTable argv = some (given, loose)) :=
  ⟨line_ok baseTable_ok, line_ok enumTable_ok, line_ok makeTable_ok⟩

/-- C91. Two command lines of enumeration.py with the same options and values mean the same, in whatever order the options stand, whether they are abbreviated, whether the values are
written behind `=`, and whatever words that the program doesn't know stand between them. -/
theorem C91_same {argv argv' : List Str} {given given' : List (Str × List Str)} {loose loose' : List (List Str)} (h : Line enumTable argv given loose)
    (h' : Line enumTable argv' given' loose') (hp : given.Perm given') (hnd : (given.map (·.1)).Nodup) : enumLine argv = enumLine argv' := by
  unfold enumLine
  rw [exhandler_line enumTable_ok base_enum _ h, exhandler_line enumTable_ok base_enum _ h', all_perm (show (commonOf baseTable given).Perm (commonOf baseTable given') from hp.filter _),
    all_perm hp, hasOpt_perm hp, hasOpt_perm hp, enumOptions_perm hp hnd]

/-- C91. The same for makeStr, when the structure numbers - the first values that belong to no option - are the same. -/
theorem C91_same_make {argv argv' : List Str} {given given' : List (Str × List Str)} {loose loose' : List (List Str)} (h : Line makeTable argv given loose)
    (h' : Line makeTable argv' given' loose') (hp : given.Perm given') (hnd : (given.map (·.1)).Nodup) (hl : loose.head? = loose'.head?) : makeLine argv = makeLine argv' := by
  unfold makeLine
  rw [exhandler_line makeTable_ok base_make _ h, exhandler_line makeTable_ok base_make _ h', all_perm (show (commonOf baseTable given).Perm (commonOf baseTable given') from hp.filter _),
    all_perm hp, hasOpt_perm hp, hasOpt_perm hp, makeOptions_perm hp hnd hl]

/-- The values have the form that the option asks for: whole numbers, numbers, one of the choices. -/
def Spec.WellFormed (p : Str × List Str) : Prop :=
  (p.1 = "-action".toList → ∀ v ∈ p.2, v = "save".toList ∨ v = "print".toList) ∧
  (p.1 = "-sizes".toList ∨ p.1 = "-seed".toList ∨ p.1 = "-species_mapping".toList → ∀ v ∈ p.2, ∃ z, parseInt (strip v) = .ok z) ∧
  (p.1 = "-acceptrate".toList ∨ p.1 = "-displace".toList ∨ p.1 = "-rattle".toList → ∀ v ∈ p.2, ∃ q, parseFloat (strip v) = .ok q) ∧
  (p.1 = "-mink".toList ∨ p.1 = "-config".toList ∨ p.1 = "-remove_zeros".toList → ∀ v ∈ p.2, v = "t".toList ∨ v = "f".toList)

theorem toOption_isSome {α : Type} {x : Py α} : x.toOption.isSome = true ↔ ∃ a, x = .ok a := by
  cases x with
  | error e => simp [Except.toOption]
  | ok a => simp [Except.toOption]

theorem cases_iff {A B C D PA PB PC PD : Prop} [Decidable A] [Decidable B] [Decidable C] [Decidable D] {a b c d : Bool} (ha : a = true ↔ PA) (hb : b = true ↔ PB)
    (hc : c = true ↔ PC) (hd : d = true ↔ PD) (h1 : A → ¬ B ∧ ¬ C ∧ ¬ D) (h2 : B → ¬ C ∧ ¬ D) (h3 : C → ¬ D) :
    (if A then a else if B then b else if C then c else if D then d else true) = true ↔ (A → PA) ∧ (B → PB) ∧ (C → PC) ∧ (D → PD) := by
  by_cases hA : A
  · obtain ⟨n1, n2, n3⟩ := h1 hA
    simp only [hA, n1, n2, n3, if_true, ha, true_imp_iff, false_imp_iff, and_true]
  · by_cases hB : B
    · obtain ⟨n2, n3⟩ := h2 hB
      simp only [hA, hB, n2, n3, if_true, if_false, hb, true_imp_iff, false_imp_iff, and_true, true_and]
    · by_cases hC : C
      · have n3 := h3 hC
        simp only [hA, hB, hC, n3, if_true, if_false, hc, true_imp_iff, false_imp_iff, and_true, true_and]
      · by_cases hD : D
        · simp only [hA, hB, hC, hD, if_true, if_false, hd, true_imp_iff, false_imp_iff, true_and]
        · simp only [hA, hB, hC, hD, if_false, false_imp_iff, and_true]

theorem wellFormed_iff (p : Str × List Str) : valuesOk p = true ↔ WellFormed p := by
  obtain ⟨n, l⟩ := p
  unfold valuesOk WellFormed intOf floatOf
  have d1 : ∀ y ∈ ["-sizes".toList, "-seed".toList, "-species_mapping".toList, "-acceptrate".toList, "-displace".toList, "-rattle".toList, "-mink".toList, "-config".toList,
      "-remove_zeros".toList], "-action".toList ≠ y := by decide +kernel
  have d2 : ∀ x ∈ ["-sizes".toList, "-seed".toList, "-species_mapping".toList], ∀ y ∈ ["-acceptrate".toList, "-displace".toList, "-rattle".toList, "-mink".toList, "-config".toList,
      "-remove_zeros".toList], x ≠ y := by decide +kernel
  have d3 : ∀ x ∈ ["-acceptrate".toList, "-displace".toList, "-rattle".toList], ∀ y ∈ ["-mink".toList, "-config".toList, "-remove_zeros".toList], x ≠ y := by decide +kernel
  simp only [List.forall_mem_cons, List.not_mem_nil, false_imp_iff, implies_true, and_true] at d1 d2 d3
  generalize "-action".toList = x1 at *
  generalize "-sizes".toList = x2 at *
  generalize "-seed".toList = x3 at *
  generalize "-species_mapping".toList = x4 at *
  generalize "-acceptrate".toList = x5 at *
  generalize "-displace".toList = x6 at *
  generalize "-rattle".toList = x7 at *
  generalize "-mink".toList = x8 at *
  generalize "-config".toList = x9 at *
  generalize "-remove_zeros".toList = x10 at *
  refine cases_iff ?_ ?_ ?_ ?_ ?_ ?_ ?_
  · simp only [List.all_eq_true, Bool.or_eq_true, decide_eq_true_eq]
  · simp only [List.all_eq_true, toOption_isSome]
  · simp only [List.all_eq_true, toOption_isSome]
  · simp only [List.all_eq_true, Bool.or_eq_true, decide_eq_true_eq]
  · rintro rfl
    tauto
  · rintro (rfl | rfl | rfl) <;> tauto
  · rintro (rfl | rfl | rfl) <;> tauto

theorem all_wellFormed {given : List (Str × List Str)} (h : ∀ p ∈ given, WellFormed p) : given.all valuesOk = true := by
  rw [List.all_eq_true]
  exact fun p hp => (wellFormed_iff p).mpr (h p hp)

/-- The line is accepted. -/
theorem line_runs {α : Type} {T : OptTable} (hT : TableOk T) (hBT : SubTable baseTable T) (options : List (Str × List Str) → List (List Str) → Option α) {argv : List Str}
    {given : List (Str × List Str)} {loose : List (List Str)} (h : Line T argv given loose) (hok : ∀ p ∈ given, WellFormed p) (hex : "-examples".toList ∉ given.map (·.1)) :
    exhandlerLine T options argv = match options given loose with
      | none => .stop
      | some o => .run (hasOpt given "-verbose") o := by
  have h1 := all_wellFormed hok
  have h2 : (commonOf baseTable given).all valuesOk = true := all_wellFormed (fun p hp => hok p (List.mem_filter.mp hp).1)
  have h3 : hasOpt given "-examples" = false := by
    rw [Bool.eq_false_iff]
    exact fun hc => hex (hasOpt_iff.mp hc)
  rw [exhandler_line hT hBT _ h, h1, h2, h3]
  rfl

theorem lastOne_last {given : List (Str × List Str)} {name : String} {v : Str} (h : LastGiven given name.toList [v]) : lastOne given name = some v := by
  unfold lastOne
  rw [lastOpt_last h]
  rfl

theorem lastOne_none {given : List (Str × List Str)} {name : String} (h : name.toList ∉ given.map (·.1)) : lastOne given name = none := by
  unfold lastOne
  rw [lastOpt_none h]
  rfl

/-- C91. What the options of enumeration.py mean: a switch is on when it is given; an option with values has the values written (the last ones, if it is written more than
once), and its default otherwise. -/
theorem C91_enum {argv : List Str} {given : List (Str × List Str)} {loose : List (List Str)} (h : Line enumTable argv given loose) (hok : ∀ p ∈ given, WellFormed p) (hex : "-examples".toList ∉ given.map (·.1)) :
    ∃ v o, enumLine argv = .run v o ∧ (v = true ↔ "-verbose".toList ∈ given.map (·.1)) ∧
      (o.args.polya = true ↔ "-polya".toList ∈ given.map (·.1)) ∧ (o.args.enum = true ↔ "-enum".toList ∈ given.map (·.1)) ∧
      (o.args.super = true ↔ "-super".toList ∈ given.map (·.1)) ∧ (o.args.savedist = true ↔ "-savedist".toList ∈ given.map (·.1)) ∧
      (o.profile = true ↔ "-profile".toList ∈ given.map (·.1)) ∧ (o.visualize = true ↔ "-visualize".toList ∈ given.map (·.1)) ∧
      (o.shapes = true ↔ "-shapes".toList ∈ given.map (·.1)) ∧ (o.showShapes = true ↔ "-show".toList ∈ given.map (·.1)) ∧
      (∀ f, LastGiven given "-lattice".toList [f] → o.args.lattice = f) ∧ ("-lattice".toList ∉ given.map (·.1) → o.args.lattice = "lattice.in".toList) ∧
      (∀ f, LastGiven given "-input".toList [f] → o.args.input = some f) ∧ ("-input".toList ∉ given.map (·.1) → o.args.input = none) ∧
      (∀ f, LastGiven given "-outfile".toList [f] → o.args.outfile = some f) ∧ ("-outfile".toList ∉ given.map (·.1) → o.args.outfile = none) ∧
      (∀ l, LastGiven given "-distribution".toList l → o.args.distribution = some l) ∧ ("-distribution".toList ∉ given.map (·.1) → o.args.distribution = none) ∧
      (∀ s t lo hi, LastGiven given "-sizes".toList [s, t] → parseInt (strip s) = .ok lo → parseInt (strip t) = .ok hi → o.args.sizes = some (lo, hi)) ∧
      ("-sizes".toList ∉ given.map (·.1) → o.args.sizes = none) ∧
      (∀ s q, LastGiven given "-acceptrate".toList [s] → parseFloat (strip s) = .ok q → o.args.accept = some q) ∧ ("-acceptrate".toList ∉ given.map (·.1) → o.args.accept = none) ∧
      (∀ s z, LastGiven given "-seed".toList [s] → parseInt (strip s) = .ok z → o.seed = some z) ∧ ("-seed".toList ∉ given.map (·.1) → o.seed = none) ∧
      (∀ kind f, LastGiven given "-filter".toList [kind, f] → o.args.filter = some (kind, f)) ∧ ("-filter".toList ∉ given.map (·.1) → o.args.filter = none) := by
  refine ⟨_, _, line_runs enumTable_ok base_enum _ h hok hex, hasOpt_iff, hasOpt_iff, hasOpt_iff, hasOpt_iff, hasOpt_iff, hasOpt_iff, hasOpt_iff, hasOpt_iff, hasOpt_iff,
    ?_, ?_, ?_, ?_, ?_, ?_, ?_, ?_, ?_, ?_, ?_, ?_, ?_, ?_, ?_, ?_⟩
  · intro f hf; simp only [enumOptions, lastOne_last hf, Option.getD_some]
  · intro hf; simp only [enumOptions, lastOne_none hf, Option.getD_none]
  · intro f hf; simp only [enumOptions, lastOne_last hf]
  · intro hf; simp only [enumOptions, lastOne_none hf]
  · intro f hf; simp only [enumOptions, lastOne_last hf]
  · intro hf; simp only [enumOptions, lastOne_none hf]
  · intro f hf; simp only [enumOptions, lastOpt_last hf]
  · intro hf; simp only [enumOptions, lastOpt_none hf]
  · intro s t lo hi hf h1 h2
    simp only [enumOptions, lastOpt_last hf, Option.bind_some, List.head?_cons, List.tail_cons, intOf, h1, h2, Except.toOption, Option.map_some]
  · intro hf; simp only [enumOptions, lastOpt_none hf, Option.bind_none]
  · intro s q hf h1; simp only [enumOptions, lastOne_last hf, Option.bind_some, floatOf, h1, Except.toOption]
  · intro hf; simp only [enumOptions, lastOne_none hf, Option.bind_none]
  · intro s q hf h1; simp only [enumOptions, lastOne_last hf, Option.bind_some, intOf, h1, Except.toOption]
  · intro hf; simp only [enumOptions, lastOne_none hf, Option.bind_none]
  · intro kind f hf; simp only [enumOptions, lastOpt_last hf, Option.bind_some, List.head?_cons, List.tail_cons, Option.map_some]
  · intro hf; simp only [enumOptions, lastOpt_none hf, Option.bind_none]

/-- C91. What the options of makeStr mean, with the structure numbers `nums`. -/
theorem C91_make {argv : List Str} {given : List (Str × List Str)} {nums : List Str} {more : List (List Str)} (h : Line makeTable argv given (nums :: more))
    (hok : ∀ p ∈ given, WellFormed p) (hex : "-examples".toList ∉ given.map (·.1)) :
    ∃ v o, makeLine argv = .run v o ∧ (v = true ↔ "-verbose".toList ∈ given.map (·.1)) ∧ o.toArgs.structures = some nums ∧
      (∀ f, LastGiven given "-input".toList [f] → o.input = f) ∧ ("-input".toList ∉ given.map (·.1) → o.input = "struct_enum.out".toList) ∧
      (∀ f, LastGiven given "-outfile".toList [f] → o.toArgs.outfile = f) ∧ ("-outfile".toList ∉ given.map (·.1) → o.toArgs.outfile = "vasp.{}".toList) ∧
      (∀ f, LastGiven given "-mink".toList [f] → o.toArgs.mink = .str (f)) ∧ ("-mink".toList ∉ given.map (·.1) → o.toArgs.mink = .str ("t".toList)) ∧
      (∀ f, LastGiven given "-config".toList [f] → o.toArgs.config = .str (f)) ∧ ("-config".toList ∉ given.map (·.1) → o.toArgs.config = .str ("f".toList)) ∧
      (∀ f, LastGiven given "-remove_zeros".toList [f] → o.toArgs.removeZeros = .str (f)) ∧ ("-remove_zeros".toList ∉ given.map (·.1) → o.toArgs.removeZeros = .str ("f".toList)) ∧
      (∀ l, LastGiven given "-species".toList l → o.toArgs.species = some (l.map String.ofList)) ∧ ("-species".toList ∉ given.map (·.1) → o.toArgs.species = none) ∧
      (∀ s q, LastGiven given "-displace".toList [s] → parseFloat (strip s) = .ok q → o.toArgs.displace = (q : ℝ)) ∧ ("-displace".toList ∉ given.map (·.1) → o.toArgs.displace = 0) ∧
      (∀ s q, LastGiven given "-rattle".toList [s] → parseFloat (strip s) = .ok q → o.rattle = q) ∧ ("-rattle".toList ∉ given.map (·.1) → o.rattle = 0) ∧
      (∀ l ns, LastGiven given "-species_mapping".toList l → List.Forall₂ (fun s (n : ℕ) => parseInt (strip s) = .ok (n : ℤ)) l ns → o.toArgs.speciesMapping = some ns) ∧
      ("-species_mapping".toList ∉ given.map (·.1) → o.toArgs.speciesMapping = none) := by
  refine ⟨_, _, line_runs makeTable_ok base_make _ h hok hex, hasOpt_iff, rfl, ?_, ?_, ?_, ?_, ?_, ?_, ?_, ?_, ?_, ?_, ?_, ?_, ?_, ?_, ?_, ?_, ?_, ?_⟩
  · intro f hf; simp only [lastOne_last hf, Option.getD_some]
  · intro hf; simp only [lastOne_none hf, Option.getD_none]
  · intro f hf; simp only [MakeOptions.toArgs, lastOne_last hf, Option.getD_some]
  · intro hf; simp only [MakeOptions.toArgs, lastOne_none hf, Option.getD_none]
  · intro f hf; simp only [MakeOptions.toArgs, lastOne_last hf, Option.getD_some]
  · intro hf; simp only [MakeOptions.toArgs, lastOne_none hf, Option.getD_none]
  · intro f hf; simp only [MakeOptions.toArgs, lastOne_last hf, Option.getD_some]
  · intro hf; simp only [MakeOptions.toArgs, lastOne_none hf, Option.getD_none]
  · intro f hf; simp only [MakeOptions.toArgs, lastOne_last hf, Option.getD_some]
  · intro hf; simp only [MakeOptions.toArgs, lastOne_none hf, Option.getD_none]
  · intro f hf; simp only [MakeOptions.toArgs, lastOpt_last hf, Option.map_some]
  · intro hf; simp only [MakeOptions.toArgs, lastOpt_none hf, Option.map_none]
  · intro s q hf h1; simp only [MakeOptions.toArgs, lastOne_last hf, Option.bind_some, floatOf, h1, Except.toOption, Option.getD_some]
  · intro hf; simp only [MakeOptions.toArgs, lastOne_none hf, Option.bind_none, Option.getD_none, Rat.cast_zero]
  · intro s q hf h1; simp only [lastOne_last hf, Option.bind_some, floatOf, h1, Except.toOption, Option.getD_some]
  · intro hf; simp only [lastOne_none hf, Option.bind_none, Option.getD_none]
  · intro l ns hf hl
    simp only [MakeOptions.toArgs, lastOpt_last hf, Option.map_some, Option.some.injEq]
    clear hf
    induction hl with
    | nil => rfl
    | @cons s n l ns h1 _ ih =>
      have h2 : intOf s = some (n : ℤ) := by
        unfold intOf
        rw [h1]
        rfl
      rw [List.filterMap_cons_some h2, List.map_cons, ih]
      rfl
  · intro hf; simp only [MakeOptions.toArgs, lastOpt_none hf, Option.map_none]

/-- C93. A value that doesn't have the form that its option asks for stops both programs before they do anything. -/
theorem C93_bad_value {argv : List Str} {given : List (Str × List Str)} {loose : List (List Str)} {p : Str × List Str} (hp : p ∈ given) (hbad : ¬ WellFormed p) :
    (Line enumTable argv given loose → ∀ v o, enumLine argv ≠ .run v o) ∧ (Line makeTable argv given loose → ∀ v o, makeLine argv ≠ .run v o) := by
  have h1 : given.all valuesOk = false := by
    rw [Bool.eq_false_iff, ne_eq, List.all_eq_true]
    exact fun h => hbad ((wellFormed_iff p).mp (h p hp))
  constructor
  · intro h v o hc
    unfold enumLine at hc
    rw [exhandler_line enumTable_ok base_enum _ h, h1] at hc
    simp only [if_true] at hc
    split at hc
    · cases hc
    split at hc <;> cases hc
  · intro h v o hc
    unfold makeLine at hc
    rw [exhandler_line makeTable_ok base_make _ h, h1] at hc
    simp only [if_true] at hc
    split at hc
    · cases hc
    split at hc <;> cases hc

theorem lastOpt_eq {given given' : List (Str × List Str)} (h : ∀ n v, LastGiven given n v ↔ LastGiven given' n v) (name : String) : lastOpt given name = lastOpt given' name := by
  by_cases hn : name.toList ∈ given.map (·.1)
  · obtain ⟨v, hv⟩ := lastGiven_exists hn
    rw [lastOpt_last hv, lastOpt_last ((h _ _).mp hv)]
  · have hn' : name.toList ∉ given'.map (·.1) := by
      intro hc
      obtain ⟨v, hv⟩ := lastGiven_exists hc
      exact hn (List.mem_map_of_mem (f := (·.1)) (lastGiven_mem ((h _ _).mpr hv)))
    rw [lastOpt_none hn, lastOpt_none hn']

theorem hasOpt_eq {given given' : List (Str × List Str)} (h : ∀ n v, LastGiven given n v ↔ LastGiven given' n v) (name : String) : hasOpt given name = hasOpt given' name := by
  rw [Bool.eq_iff_iff, hasOpt_iff, hasOpt_iff]
  constructor <;> intro hc
  · obtain ⟨v, hv⟩ := lastGiven_exists hc
    exact List.mem_map_of_mem (f := (·.1)) (lastGiven_mem ((h _ _).mp hv))
  · obtain ⟨v, hv⟩ := lastGiven_exists hc
    exact List.mem_map_of_mem (f := (·.1)) (lastGiven_mem ((h _ _).mpr hv))

/-- C91. Options may be written more than once: two command lines in which the same options are given, the last time with the same values, mean the same. -/
theorem C91_last {argv argv' : List Str} {given given' : List (Str × List Str)} {loose loose' : List (List Str)} (hok : ∀ p ∈ given ++ given', WellFormed p)
    (hlast : ∀ n v, LastGiven given n v ↔ LastGiven given' n v) :
    (Line enumTable argv given loose → Line enumTable argv' given' loose' → enumLine argv = enumLine argv') ∧
    (Line makeTable argv given loose → Line makeTable argv' given' loose' → loose.head? = loose'.head? → makeLine argv = makeLine argv') := by
  have h1 := all_wellFormed (fun p hp => hok p (List.mem_append_left _ hp))
  have h2 := all_wellFormed (fun p hp => hok p (List.mem_append_right _ hp))
  have h3 : (commonOf baseTable given).all valuesOk = true := all_wellFormed (fun p hp => hok p (List.mem_append_left _ (List.mem_filter.mp hp).1))
  have h4 : (commonOf baseTable given').all valuesOk = true := all_wellFormed (fun p hp => hok p (List.mem_append_right _ (List.mem_filter.mp hp).1))
  constructor
  · intro h h'
    unfold enumLine
    rw [exhandler_line enumTable_ok base_enum _ h, exhandler_line enumTable_ok base_enum _ h', h1, h2, h3, h4]
    have : enumOptions given = enumOptions given' := by
      unfold enumOptions lastOne
      simp only [hasOpt_eq hlast, lastOpt_eq hlast]
    simp only [hasOpt_eq hlast, this]
  · intro h h' hl
    unfold makeLine
    rw [exhandler_line makeTable_ok base_make _ h, exhandler_line makeTable_ok base_make _ h', h1, h2, h3, h4]
    have : makeOptions given loose = makeOptions given' loose' := by
      unfold makeOptions lastOne
      simp only [lastOpt_eq hlast, hl]
    simp only [hasOpt_eq hlast, this]

/-! ## C92: from the command line to the list of structures -/

/-- The options of `enumeration.py -enum`, with or without `-lattice lattice` and `-super`. -/
def Spec.enumWords (lattice : Option Str) (supers : Bool) : List (Str × List Str) :=
  [("-enum".toList, [])] ++ (lattice.toList.map (fun f => ("-lattice".toList, [f]))) ++ if supers then [("-super".toList, [])] else []

theorem enumWords_names (lattice : Option Str) (supers : Bool) : ((enumWords lattice supers).map (·.1)).Sublist ["-enum".toList, "-lattice".toList, "-super".toList] := by
  unfold enumWords
  cases lattice <;> cases supers
  · exact (List.nil_sublist _).cons_cons _
  · exact ((List.Sublist.refl _).cons _).cons_cons _
  · exact ((List.nil_sublist _).cons_cons _).cons_cons _
  · exact List.Sublist.refl _

theorem enumWords_nodup (lattice : Option Str) (supers : Bool) : ((enumWords lattice supers).map (·.1)).Nodup :=
  (enumWords_names lattice supers).nodup (by decide +kernel)

theorem enumWords_wellFormed (lattice : Option Str) (supers : Bool) : ∀ p ∈ enumWords lattice supers, WellFormed p := by
  intro p hp
  rw [← wellFormed_iff]
  have : p.1 ∈ ["-enum".toList, "-lattice".toList, "-super".toList] := (enumWords_names lattice supers).subset (List.mem_map_of_mem hp)
  have hd : ∀ x ∈ ["-enum".toList, "-lattice".toList, "-super".toList], ∀ y ∈ ["-action".toList, "-sizes".toList, "-seed".toList, "-species_mapping".toList,
    "-acceptrate".toList, "-displace".toList, "-rattle".toList, "-mink".toList, "-config".toList, "-remove_zeros".toList], x ≠ y := by decide +kernel
  have hd' := hd _ this
  unfold valuesOk
  rw [if_neg (hd' _ (by simp)), if_neg (by
    rintro (h | h | h)
    · exact hd' _ (by simp) h
    · exact hd' _ (by simp) h
    · exact hd' _ (by simp) h), if_neg (by
    rintro (h | h | h)
    · exact hd' _ (by simp) h
    · exact hd' _ (by simp) h
    · exact hd' _ (by simp) h), if_neg (by
    rintro (h | h | h)
    · exact hd' _ (by simp) h
    · exact hd' _ (by simp) h
    · exact hd' _ (by simp) h)]

/-- C92. Every way of writing the options -enum and perhaps -lattice and -super is the call of the other properties. -/
theorem C92_call {argv : List Str} {given : List (Str × List Str)} {loose : List (List Str)} {lattice : Option Str} {supers : Bool} (h : Line enumTable argv given loose)
    (hp : given.Perm (enumWords lattice supers)) : ∃ o, enumLine argv = .run false o ∧ PlainCall o.args (lattice.getD "lattice.in".toList) supers ∧ o.profile = false ∧ o.visualize = false := by
  have hpm : (given.map (·.1)).Perm ((enumWords lattice supers).map (·.1)) := hp.map _
  have hnd : (given.map (·.1)).Nodup := hpm.nodup_iff.mpr (enumWords_nodup lattice supers)
  have hok : ∀ p ∈ given, WellFormed p := fun p hm => enumWords_wellFormed lattice supers p (hp.mem_iff.mp hm)
  have hnames : ∀ n : Str, n ∈ given.map (·.1) ↔ n = "-enum".toList ∨ (lattice.isSome = true ∧ n = "-lattice".toList) ∨ (supers = true ∧ n = "-super".toList) := by
    intro n
    rw [hpm.mem_iff]
    unfold enumWords
    cases supers <;> cases lattice <;> simp
  have no : ∀ s ∈ ["-examples".toList, "-verbose".toList, "-polya".toList, "-input".toList, "-outfile".toList, "-distribution".toList, "-sizes".toList, "-acceptrate".toList,
      "-filter".toList, "-profile".toList, "-visualize".toList], s ∉ given.map (·.1) := by
    intro s hs hc
    rw [hnames] at hc
    have hd : ∀ x ∈ ["-examples".toList, "-verbose".toList, "-polya".toList, "-input".toList, "-outfile".toList, "-distribution".toList, "-sizes".toList, "-acceptrate".toList,
      "-filter".toList, "-profile".toList, "-visualize".toList], x ≠ "-enum".toList ∧ x ≠ "-lattice".toList ∧ x ≠ "-super".toList := by decide +kernel
    obtain ⟨h1, h2, h3⟩ := hd s hs
    rcases hc with hc | ⟨-, hc⟩ | ⟨-, hc⟩
    exacts [h1 hc, h2 hc, h3 hc]
  obtain ⟨v, o, hrun, hv, h1, h2, h3, -, h4, h5, -, -, h6, h6', -, h7, -, h8, -, h9, -, h10, -, h11, -, -, -, h12⟩ := C91_enum h hok (no _ (by simp))
  have hf : ∀ {b : Bool} {s : Str}, (b = true ↔ s ∈ given.map (·.1)) → s ∉ given.map (·.1) → b = false := by
    intro b s hb hs
    rw [Bool.eq_false_iff]
    exact fun hc => hs (hb.mp hc)
  have hv' : v = false := hf hv (no _ (by simp))
  subst hv'
  refine ⟨o, hrun, ⟨hf h1 (no _ (by simp)), h2.mpr ((hnames _).mpr (.inl rfl)), ?_, h7 (no _ (by simp)), h8 (no _ (by simp)), h9 (no _ (by simp)), h10 (no _ (by simp)), ?_,
    h11 (no _ (by simp)), h12 (no _ (by simp))⟩, hf h4 (no _ (by simp)), hf h5 (no _ (by simp))⟩
  · cases lattice with
    | none =>
      refine h6' (fun hc => ?_)
      rw [hnames] at hc
      have e1 : "-lattice".toList ≠ "-enum".toList := by decide +kernel
      have e2 : "-lattice".toList ≠ "-super".toList := by decide +kernel
      rcases hc with hc | ⟨hc, -⟩ | ⟨-, hc⟩
      exacts [e1 hc, absurd hc (by simp), e2 hc]
    | some f => exact h6 f (lastGiven_of_mem hnd (hp.mem_iff.mpr (by unfold enumWords; simp)))
  · rw [Bool.eq_iff_iff, h3, hnames]
    have e1 : "-super".toList ≠ "-enum".toList := by decide +kernel
    have e2 : "-super".toList ≠ "-lattice".toList := by decide +kernel
    simp only [e1, e2, false_or, and_true, and_false]

/-- C92. The program on such a command line does what the other properties say, apart from what it shows. -/
theorem C92_program {argv : List Str} {given : List (Str × List Str)} {loose : List (List Str)} {lattice : Option Str} {supers : Bool} (h : Line enumTable argv given loose)
    (hp : given.Perm (enumWords lattice supers)) : ∃ a, PlainCall a (lattice.getD "lattice.in".toList) supers ∧ ∀ (st : MsgState) (t : HelpTexts) (w : World) (tol : Tol) (d : Dir),
      ∃ r, programEnum st t w tol argv d = some ([], r) ∧ scriptEnum w tol a d = (r >>= fun x => (pure x.1 : Run Dir)) := by
  obtain ⟨o, h1, h2, h3, h4⟩ := C92_call h hp
  refine ⟨o.args, h2, fun st t w tol d => ⟨scriptShown st w tol o.args d, ?_, C80_same_run st w tol o.args d⟩⟩
  unfold programEnum
  rw [h1]
  simp only [h3, h4, Bool.or_self, Bool.false_eq_true, if_false]
  rfl

/-- C92. From the words of the command line to the list of all crystals: however the options -enum and -lattice are written, the run ends with enum.out in which every row
describes a crystal of the kind asked for, and every such crystal is described by exactly one row. -/
theorem C92_crystals {argv : List Str} {given : List (Str × List Str)} {loose : List (List Str)} {lattice : Option Str} (hline : Line enumTable argv given loose)
    (hp : given.Perm (enumWords lattice false)) {text : Str} {lat : LatticeIn} {P0 : Matrix (Fin 3) (Fin 3) ℚ} {b0 : List (Fin 3 → ℚ)} {hi k : ℕ}
    (h : CrystalInput text lat P0 b0 1 hi k) (hfree : lat.restricted = false) (hk3 : k ≤ 3) (hsize : b0.length * hi ≤ 20)
    {K K' : ℝ} {g D : ℕ} (hc : Coarse (realMat P0) (realVecs b0) K K' g D (1 / 10 ^ 7)) :
    ∀ (st : MsgState) (t : HelpTexts) (w : World) (dir : Dir), (∀ l, (w.listdir l).Perm l) → FreshDir (lattice.getD "lattice.in".toList) text dir →
      ∃ (rows : List EnumEntry) (dir' : Dir) (shown : List Piece), programEnum st t w shippedTol argv dir = some ([], (pure (dir', shown) : Run (Dir × List Piece))) ∧
        dictGet dir' "enum.out".toList = some (enumOutFile (lat.enumParams (P0, b0)) w.now rows) ∧ rows.Nodup ∧
        (∀ row ∈ rows, ∃ ψ, RowDescribes (realMat P0) (realVecs b0) row ψ ∧ AllowedCrystal (realMat P0) (realVecs b0) hi k [] ψ) ∧
        ∀ χ, AllowedCrystal (realMat P0) (realVecs b0) hi k [] χ →
          ∃! row, row ∈ rows ∧ ∃ ψ, RowDescribes (realMat P0) (realVecs b0) row ψ ∧
            SameDecoration (ColLattice (realMat P0).transpose) (realVecs b0) χ ψ := by
  intro st t w dir hw hdir
  obtain ⟨a, ha, hprog⟩ := C92_program hline hp
  obtain ⟨rows, dir', h1, h2⟩ := C61_nothing_else h hfree hk3 hsize hc w a _ dir hw ha hdir
  obtain ⟨r, h3, h4⟩ := hprog st t w shippedTol dir
  rw [h4] at h1
  obtain ⟨x, hx, h5⟩ := run_bind_ok h1
  have h6 := run_pure_inj h5
  subst h6
  exact ⟨rows, x.1, x.2, by rw [h3, hx], h2⟩

/-! ## C93: words that are not understood -/

theorem reads_append {T : OptTable} {a b : List Str} {g g' : List (Str × List Str)} {l l' : List (List Str)} (h : Reads T a g l) (h' : Reads T b g' l') :
    Reads T (a ++ b) (g ++ g') (l ++ l') := by
  induction h with
  | nil => exact h'
  | apart hn hw hv hplain hmany hrest ih =>
    have := Reads.apart hn hw hv hplain hmany ih
    simpa only [List.append_assoc, List.cons_append] using this
  | joined hn hk hs hplain hrest ih =>
    have := Reads.joined hn hk hs hplain ih
    simpa only [List.append_assoc, List.cons_append] using this
  | ignored hw hplain hrest ih =>
    have := Reads.ignored hw hplain ih
    simpa only [List.append_assoc, List.cons_append] using this

/-- C93. A word that enumeration.py doesn't know, such as a misspelt option, is ignored with all the values behind it: the call means the same as without it. -/
theorem C93_unknown {a b : List Str} {g g' : List (Str × List Str)} {l l' : List (List Str)} (ha : Reads enumTable a g l) (hb : Reads enumTable b g' l') {w : Str} {vals : List Str}
    (hw : Unrecognised enumTable w) (hv : ∀ v ∈ vals, PlainWord v) : enumLine (a ++ w :: vals ++ b) = enumLine (a ++ b) := by
  have h1 : Reads enumTable (a ++ b) (g ++ g') (l ++ l') := reads_append ha hb
  have h2 : Reads enumTable (a ++ (w :: vals ++ b)) (g ++ g') (l ++ vals :: l') := reads_append ha (.ignored hw hv hb)
  have l1 : Line enumTable (a ++ b) (g ++ g') _ := line_plain (lead := []) (by simp) h1
  have l2 : Line enumTable (a ++ (w :: vals ++ b)) (g ++ g') _ := line_plain (lead := []) (by simp) h2
  unfold enumLine
  rw [List.append_assoc, exhandler_line enumTable_ok base_enum _ l1, exhandler_line enumTable_ok base_enum _ l2]

theorem plain_of {v : Str} (h : v.head? ≠ some '-') : PlainWord v := .inl h

/-- the word is not one of enumeration.py's -/
theorem unrecognised_of {T : OptTable} {w : Str} (h : (match w with | '-' :: ch :: _ => !ch.isDigit && ch ≠ '.' | _ => false) && ' ' ∉ w && w ≠ "--".toList &&
    (T.map (·.1)).all (fun m => !(w.takeWhile (fun ch => ch ≠ '=')).isPrefixOf m && !(m.length == 2 && m.isPrefixOf w)) = true) : Unrecognised T w := by
  simp only [Bool.and_eq_true, decide_eq_true_eq] at h
  obtain ⟨⟨⟨h1, h2⟩, h3⟩, h4⟩ := h
  refine ⟨?_, h2, h3, ?_⟩
  · split at h1
    · rename_i ch rest
      simp only [Bool.and_eq_true, Bool.not_eq_true', decide_eq_true_eq] at h1
      exact ⟨ch, rest, rfl, h1.1, h1.2⟩
    · exact absurd h1 (by simp)
  · intro m hm
    rw [List.all_eq_true] at h4
    have := h4 m hm
    simp only [Bool.and_eq_true, Bool.not_eq_true', Bool.and_eq_false_iff, beq_eq_false_iff_ne] at this
    refine ⟨fun hp => ?_, fun hp => ?_⟩
    · rw [List.isPrefixOf_iff_prefix.mpr hp] at this
      exact absurd this.1 (by simp)
    · rcases this.2 with h | h
      · exact h hp.1
      · rw [List.isPrefixOf_iff_prefix.mpr hp.2] at h
        exact absurd h (by simp)

theorem enum_single : Reads enumTable ["-enum".toList] [("-enum".toList, [])] [[]] := by
  have h : Reads enumTable ("-enum".toList :: ([] ++ []) ++ []) [("-enum".toList, [])] [[]] :=
    .apart (k := .flag) (by decide +kernel) (.inl rfl) rfl (by simp) (fun _ => rfl) .nil
  exact h

/-- C93. `enumeration.py -enum --super` is `enumeration.py -enum`: with two dashes, or misspelt, the option -super is ignored without a message, and the structures that have a
smaller period are left out. -/
theorem C93_super_ignored : ∀ w ∈ ["--super".toList, "-supper".toList, "-Super".toList, "-supercells".toList], enumLine ["-enum".toList, w] = enumLine ["-enum".toList] ∧
    ∃ o, enumLine ["-enum".toList, w] = .run false o ∧ PlainCall o.args "lattice.in".toList false := by
  intro w hw
  have hu : Unrecognised enumTable w := by
    apply unrecognised_of
    revert w
    decide +kernel
  have h1 : enumLine ["-enum".toList, w] = enumLine ["-enum".toList] := by
    have := C93_unknown enum_single .nil hu (vals := []) (by simp)
    simpa using this
  refine ⟨h1, ?_⟩
  rw [h1]
  obtain ⟨o, h2, h3, -⟩ := C92_call (lattice := none) (supers := false) (argv := ["-enum".toList]) (line_plain (lead := []) (by simp) enum_single) (List.Perm.refl _)
  exact ⟨o, h2, h3⟩

/-- The line is not accepted if the parser of the program stops. -/
theorem not_run {α : Type} {T : OptTable} {options : List (Str × List Str) → List (List Str) → Option α} {argv : List Str}
    (h : knownArgs T argv = none ∨ ∃ r, knownArgs T argv = some r ∧ options r.1 r.2 = none) (v : Bool) (o : α) : exhandlerLine T options argv ≠ .run v o := by
  unfold exhandlerLine
  intro hc
  split at hc
  · cases hc
  split at hc
  · cases hc
  split at hc
  · cases hc
  rcases h with h | ⟨r, h, h'⟩
  · rw [h] at hc
    cases hc
  · rw [h] at hc
    simp only [h'] at hc
    split at hc <;> cases hc

theorem classify_ambiguous {T : OptTable} (hT : TableOk T) {w n m : Str} (hw : w ∉ optNames T) (hl : 2 ≤ w.length) (hn : n ∈ optNames T) (hm : m ∈ optNames T) (hne : n ≠ m)
    (h1 : w <+: n) (h2 : w <+: m) : classify (optNames T) w = none := by
  obtain ⟨c, r, e, hc1, hc2, h3, h4, h5⟩ := name_shape hT hn
  have hwe : '=' ∉ w := fun h => h4 (h1.subset h)
  obtain ⟨rest, hshape⟩ : ∃ rest, w = '-' :: c :: rest := by
    match w, hl with
    | a :: b :: rest, _ =>
      rw [e, List.cons_prefix_cons, List.cons_prefix_cons] at h1
      exact ⟨rest, by rw [h1.1, h1.2.1]⟩
  have htup : ∀ x ∈ optNames T, w <+: x → ∃ v, (x, v) ∈ optionTuples (optNames T) w := by
    intro x hx hp
    unfold optionTuples
    split
    · rw [partitionEq_free hwe]
      exact ⟨none, List.mem_filterMap.mpr ⟨x, hx, by rw [if_pos hp]⟩⟩
    · by_cases hs : x = w.take 2
      · exact ⟨some (w.drop 2), List.mem_filterMap.mpr ⟨x, hx, by rw [if_pos hs]⟩⟩
      · exact ⟨none, List.mem_filterMap.mpr ⟨x, hx, by rw [if_neg hs, if_pos hp]⟩⟩
  obtain ⟨v1, t1⟩ := htup n hn h1
  obtain ⟨v2, t2⟩ := htup m hm h2
  have hrest : classify.classifyRest (optNames T) w (c :: rest) = none := by
    unfold classify.classifyRest
    revert t1 t2
    generalize optionTuples (optNames T) w = l
    intro t1 t2
    match l with
    | [] => exact absurd t1 (by simp)
    | [a] =>
      rw [← List.mem_singleton.mp t1] at t2
      have := List.mem_singleton.mp t2
      injection this with this _
      exact absurd this.symm hne
    | a :: b :: l => rfl
  rw [hshape] at hw hwe hrest ⊢
  unfold classify
  simp only [hw, if_false, List.cons_ne_nil, partitionEq_free hwe]
  exact hrest

theorem classifyAll_none {names : List Str} : ∀ {argv : List Str}, "--".toList ∉ argv → ∀ {w : Str}, w ∈ argv → classify names w = none → classifyAll names argv = none
  | [], _, w, h, _ => absurd h (by simp)
  | s :: rest, hd, w, h, hc => by
    simp only [List.mem_cons, not_or] at hd h
    unfold classifyAll
    rw [if_neg (show ¬ s = ['-', '-'] from fun e => hd.1 e.symm)]
    rcases h with rfl | h
    · rw [hc]; rfl
    · rw [classifyAll_none hd.2 h hc]
      cases classify names s <;> rfl

/-- C93. A word that abbreviates two options stops both programs before they do anything. -/
theorem C93_ambiguous {argv : List Str} (hd : "--".toList ∉ argv) {w : Str} (hw : w ∈ argv) (hl : 2 ≤ w.length) :
    (∀ n m, n ∈ optNames enumTable → m ∈ optNames enumTable → n ≠ m → w <+: n → w <+: m → w ∉ optNames enumTable → ∀ v o, enumLine argv ≠ .run v o) ∧
    (∀ n m, n ∈ optNames makeTable → m ∈ optNames makeTable → n ≠ m → w <+: n → w <+: m → w ∉ optNames makeTable → ∀ v o, makeLine argv ≠ .run v o) := by
  constructor
  · intro n m hn hm hne h1 h2 hwn
    refine not_run (.inl ?_)
    unfold knownArgs
    rw [classifyAll_none hd hw (classify_ambiguous enumTable_ok hwn hl hn hm hne h1 h2)]
    rfl
  · intro n m hn hm hne h1 h2 hwn
    refine not_run (.inl ?_)
    unfold knownArgs
    rw [classifyAll_none hd hw (classify_ambiguous makeTable_ok hwn hl hn hm hne h1 h2)]
    rfl

theorem reads_fail {T : OptTable} (hT : TableOk T) {a : List Str} {g : List (Str × List Str)} {l : List (List Str)} (h : Reads T a g l) {b : List Str} {ws : List Word}
    (h1 : classifyAll (optNames T) b = some ws) (h2 : (segment ws).1 = []) (h3 : collect T (segment ws).2 = none) :
    ∃ ws, classifyAll (optNames T) (a ++ b) = some ws ∧ (segment ws).1 = [] ∧ collect T (segment ws).2 = none := by
  induction h with
  | nil => exact ⟨ws, h1, h2, h3⟩
  | @apart w n k vals extra rest given loose hn hw hv hplain hmany hrest ih =>
    obtain ⟨ws', i1, i2, i3⟩ := ih
    have hn' : n ∈ optNames T := List.mem_map.mpr ⟨_, hn, rfl⟩
    have hk : k ≠ .help := by rintro rfl; exact hv
    obtain ⟨c1, c2⟩ : classify (optNames T) w = some (.option n none) ∧ w ≠ ['-', '-'] := by
      rcases hw with rfl | hw
      · exact classify_name hT hn'
      · exact classify_abbr hT hn hk hw
    refine ⟨.option n none :: ((vals ++ extra).map .value ++ ws'), ?_, rfl, ?_⟩
    · rw [List.cons_append, List.cons_append, List.append_assoc]
      unfold classifyAll
      rw [if_neg c2, c1, classifyAll_plain hT hplain, i1]
      rfl
    · simp only [segment, segment_values, i2, List.append_nil, collect, find_arity hT hn, takeValues_apart hv hmany, i3, Option.bind_eq_bind, Option.bind_some, Option.bind_none]
  | @joined n v k extra rest given loose hn hk hs hplain hrest ih =>
    obtain ⟨ws', i1, i2, i3⟩ := ih
    have hn' : n ∈ optNames T := List.mem_map.mpr ⟨_, hn, rfl⟩
    obtain ⟨c1, c2⟩ := classify_joined hT (v := v) hn'
    refine ⟨.option n (some v) :: (extra.map .value ++ ws'), ?_, rfl, ?_⟩
    · rw [List.cons_append, List.cons_append, List.append_assoc]
      unfold classifyAll
      rw [if_neg c2, c1, classifyAll_plain hT hplain, i1]
      rfl
    · simp only [segment, segment_values, i2, List.append_nil, collect, find_arity hT hn, takeValues_joined hk, i3, Option.bind_eq_bind, Option.bind_some, Option.bind_none]
  | @ignored w extra rest given loose hw hplain hrest ih =>
    obtain ⟨ws', i1, i2, i3⟩ := ih
    obtain ⟨c1, c2⟩ := classify_unknown hT hw
    refine ⟨.unknown w :: (extra.map .value ++ ws'), ?_, rfl, ?_⟩
    · rw [List.cons_append, List.cons_append, List.append_assoc]
      unfold classifyAll
      rw [if_neg c2, c1, classifyAll_plain hT hplain, i1]
      rfl
    · simp only [segment, segment_values, i2, List.append_nil, collect, i3, Option.bind_eq_bind, Option.bind_some, Option.bind_none]

theorem missing_fails {T : OptTable} (hT : TableOk T) {a b : List Str} {g g' : List (Str × List Str)} {l l' : List (List Str)} (ha : Reads T a g l) (hb : Reads T b g' l') {n : Str}
    {k : NArgs} (hn : (n, k) ∈ T) (hk : k ≠ .flag) (hk0 : k ≠ .exactly 0) : knownArgs T (a ++ n :: b) = none := by
  obtain ⟨ws, h1, h2, h3, h4⟩ := reads_ok hT hb
  have hn' : n ∈ optNames T := List.mem_map.mpr ⟨_, hn, rfl⟩
  obtain ⟨c1, c2⟩ := classify_name hT hn'
  obtain ⟨ws', i1, i2, i3⟩ := reads_fail hT ha (b := n :: b) (ws := .option n none :: ws) (by
    unfold classifyAll
    rw [if_neg c2, c1, h1]
    rfl) rfl (by
    have ht : takeValues k none [] = none := by
      cases k with
      | flag => exact absurd rfl hk
      | one => rfl
      | many => rfl
      | exactly j =>
        have : j ≠ 0 := by rintro rfl; exact hk0 rfl
        simp [takeValues, this]
      | help => rfl
    simp only [segment, h2, collect, find_arity hT hn, ht, Option.bind_eq_bind, Option.bind_some, Option.bind_none])
  unfold knownArgs
  rw [i1]
  simp only [Option.bind_eq_bind, Option.bind_some, i3, Option.bind_none]

/-- C93. An option that takes values, written without one - at the end of the line or before another option or an unknown word -, stops both programs before they do anything. -/
theorem C93_missing {a b : List Str} {g g' : List (Str × List Str)} {l l' : List (List Str)} {n : Str} {k : NArgs} (hk : k ≠ .flag) (hk0 : k ≠ .exactly 0) :
    (Reads enumTable a g l → Reads enumTable b g' l' → (n, k) ∈ enumTable → ∀ v o, enumLine (a ++ n :: b) ≠ .run v o) ∧
    (Reads makeTable a g l → Reads makeTable b g' l' → (n, k) ∈ makeTable → ∀ v o, makeLine (a ++ n :: b) ≠ .run v o) :=
  ⟨fun ha hb hn => not_run (.inl (missing_fails enumTable_ok ha hb hn hk hk0)), fun ha hb hn => not_run (.inl (missing_fails makeTable_ok ha hb hn hk hk0))⟩

/-- C93. makeStr doesn't run if all values belong to options: the numbers behind a list of elements, as in `makeStr.py -species Al Cu 10`, are taken for elements. -/
theorem C93_swallowed {argv : List Str} {given : List (Str × List Str)} (h : Line makeTable argv given []) : ∀ v o, makeLine argv ≠ .run v o :=
  not_run (.inr ⟨_, line_ok makeTable_ok h, rfl⟩)

theorem species_line : Line makeTable (["-species", "Al", "Cu", "10"].map String.toList) [("-species".toList, ["Al".toList, "Cu".toList, "10".toList])] [] := by
  refine line_plain (lead := []) (more := [[]]) (by simp) ?_
  have h : Reads makeTable ("-species".toList :: ((["Al", "Cu", "10"].map String.toList) ++ []) ++ []) [("-species".toList, ["Al", "Cu", "10"].map String.toList)] [[]] :=
    .apart (k := .many) (by decide +kernel) (.inl rfl) (by simp [Takes]) (by
      intro v hv
      apply plain_of
      revert v
      decide +kernel) (fun _ => rfl) .nil
  exact h

example : ∀ v o, makeLine (["-species", "Al", "Cu", "10"].map String.toList) ≠ .run v o := C93_swallowed species_line

/-- C93. makeStr reads struct_enum.out if it is not told otherwise; enumeration.py writes enum.out, so that the calls of the documentation, `enumeration.py -enum` and then
`makeStr.py 10`, end with an error (and leave the directory as it was), unless another program has written a struct_enum.out. -/
theorem C93_default_input {argv : List Str} {given : List (Str × List Str)} {nums : List Str} {more : List (List Str)} (h : Line makeTable argv given (nums :: more))
    (hok : ∀ p ∈ given, WellFormed p) (hex : "-examples".toList ∉ given.map (·.1)) (hin : "-input".toList ∉ given.map (·.1))
    {sel : Option (List ℤ)} (hsel : selectStructures (some nums) = .ok sel) {a : Args} (ha : EnumCall a) {w : World} {tol : Tol} {d d' : Dir}
    (hrun : scriptEnum w tol a d = (pure d' : Run Dir)) (hd : dictGet d "struct_enum.out".toList = none) (rnd : ReadStruct → ℕ → ℕ → ℝ) :
    programMake argv rnd d' = some (throw PyErr.ioError) := by
  have hsame : dictGet d' "struct_enum.out".toList = none := by
    rw [← hd]
    rw [scriptEnum_enum ha, enumOut_eq] at hrun
    obtain ⟨lat, h0, hrun⟩ := run_bind_ok hrun
    obtain ⟨d2, h1, hrun⟩ := run_bind_ok hrun
    unfold finish at hrun
    obtain ⟨systems, h2, hrun⟩ := run_bind_ok hrun
    unfold enumWrite at hrun
    obtain ⟨geo, h4, hrun⟩ := run_bind_ok hrun
    obtain ⟨rows, h5, hrun⟩ := run_bind_ok hrun
    by_cases hs : systems = []
    · rw [if_pos hs] at hrun; cases hrun
    rw [if_neg hs] at hrun
    have hd' := run_pure_inj hrun
    have n1 : "struct_enum.out".toList ≠ "enum.out".toList := by decide +kernel
    have n2 : "struct_enum.out".toList ≠ "enum.in".toList := by decide +kernel
    have n3 : ¬ "polya.out.".toList <+: "struct_enum.out".toList := by decide +kernel
    rw [← hd', dictGet_set, if_neg n1]
    by_cases hi : (dictGet d "enum.in".toList).isSome = true
    · rw [if_pos hi] at h1
      rw [run_pure_inj h1]
    · rw [if_neg hi] at h1
      unfold prepare at h1
      obtain ⟨d3, h3, h1⟩ := run_bind_ok h1
      rw [(enumIn_inv h1).1 _ n2 n3]
      by_cases hany : anyNumbered d "polya.out".toList = true
      · rw [if_pos hany] at h3
        rw [run_pure_inj h3]
      · rw [if_neg hany] at h3
        exact (polyaOut_inv h3).2.2 _ n3
  obtain ⟨v, o, hline, -, hnums, -, hinput, -⟩ := C91_make h hok hex
  unfold programMake
  rw [hline]
  have e := hnums
  simp only
  unfold makeStrDir
  rw [hinput hin, e, hsel]
  unfold readFile
  rw [hsame]
  rfl

end Phenum
