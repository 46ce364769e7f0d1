import Verif.Props.CommandLine
/-
Command lines that meet the hypotheses of C91, C92 and C93.
-/
namespace Phenum
open Spec

/-- `-lattice=crystals.in --verbosity 3 -su 7 -enum`: an abbreviation for -super with a value too many, an option that isn't known, the name of the file behind `=`. -/
theorem odd_line : Reads enumTable (["-lattice=crystals.in", "--verbosity", "3", "-su", "7", "-enum"].map String.toList)
    [("-lattice".toList, ["crystals.in".toList]), ("-super".toList, []), ("-enum".toList, [])] [[], ["3".toList], ["7".toList], []] := by
  have h : Reads enumTable (("-lattice".toList ++ '=' :: "crystals.in".toList) :: ([] : List Str) ++ ("--verbosity".toList :: ["3".toList] ++ ("-su".toList :: ([] ++ ["7".toList]) ++ ["-enum".toList])))
      [("-lattice".toList, ["crystals.in".toList]), ("-super".toList, []), ("-enum".toList, [])] [[], ["3".toList], ["7".toList], []] := by
    refine .joined (k := .one) (by decide +kernel) (.inl rfl) (by decide +kernel) (by simp) ?_
    refine .ignored (unrecognised_of (by decide +kernel)) ?_ ?_
    · intro v hv
      rw [List.mem_singleton.mp hv]
      exact plain_of (by decide +kernel)
    refine .apart (k := .flag) (by decide +kernel) (.inr ⟨by decide +kernel, by decide +kernel, by decide +kernel⟩) rfl ?_ (fun h => by cases h) enum_single
    intro v hv
    rw [List.mem_singleton.mp hv]
    exact plain_of (by decide +kernel)
  exact h

/-- C91, C92. That line is the call of the other properties. -/
example : ∃ o, enumLine (["-lattice=crystals.in", "--verbosity", "3", "-su", "7", "-enum"].map String.toList) = .run false o ∧ PlainCall o.args "crystals.in".toList true ∧
    o.profile = false ∧ o.visualize = false :=
  C92_call (lattice := some "crystals.in".toList) (supers := true) (line_plain (lead := []) (by simp) odd_line) (by
    unfold enumWords
    simp only [Option.toList_some, List.map_cons, List.map_nil, if_true, List.cons_append, List.nil_append]
    exact (List.perm_append_comm (l₁ := ["-lattice".toList, "-super".toList].zip [["crystals.in".toList], []]) (l₂ := [("-enum".toList, [])])))

/-- C93. `-s` may be -savedist, -sizes, -seed, -super, -shapes or -show. -/
example : ∀ v o, enumLine (["-enum", "-s"].map String.toList) ≠ .run v o :=
  (C93_ambiguous (by decide +kernel) (w := "-s".toList) (by decide +kernel) (by decide +kernel)).1 "-super".toList "-sizes".toList (by decide +kernel) (by decide +kernel)
    (by decide +kernel) (by decide +kernel) (by decide +kernel) (by decide +kernel)

/-- C93. `-lattice -enum`: the name of the file is missing. -/
example : ∀ v o, enumLine (["-lattice", "-enum"].map String.toList) ≠ .run v o :=
  (C93_missing (a := []) (n := "-lattice".toList) (k := .one) (by simp) (by simp)).1 .nil enum_single (by decide +kernel)

/-- C93. `makeStr.py 10` of the documentation. -/
theorem ten_line : Line makeTable ["10".toList] [] [["10".toList]] := by
  refine line_plain (lead := ["10".toList]) (rest := []) (more := []) ?_ .nil
  intro v hv
  rw [List.mem_singleton.mp hv]
  exact plain_of (by decide +kernel)

/-- C93. After `enumeration.py -enum` in a directory without struct_enum.out, `makeStr.py 10` ends with an error. -/
theorem C93_documented {a : Args} (ha : EnumCall a) {w : World} {tol : Tol} {d d' : Dir} (hrun : scriptEnum w tol a d = (pure d' : Run Dir))
    (hd : dictGet d "struct_enum.out".toList = none) (rnd : ReadStruct → ℕ → ℕ → ℝ) : programMake ["10".toList] rnd d' = some (throw PyErr.ioError) :=
  C93_default_input ten_line (by simp) (by simp) (by simp) (sel := some [10]) (by decide +kernel) ha hrun hd rnd

/-- C91. `makeStr.py -displace -5 -rattle=0.1 3 8 -input enum.out 4`: the numbers are the first values that belong to no option; the last one is ignored. -/
theorem numbers_line : Line makeTable (["-displace", "-5", "-rattle=0.1", "3", "8", "-input", "enum.out", "4"].map String.toList)
    [("-displace".toList, ["-5".toList]), ("-rattle".toList, ["0.1".toList]), ("-input".toList, ["enum.out".toList])] [["3".toList, "8".toList], ["4".toList]] := by
  refine line_plain (lead := []) (more := [[], ["3".toList, "8".toList], ["4".toList]]) (by simp) ?_
  have h : Reads makeTable ("-displace".toList :: (["-5".toList] ++ []) ++ (("-rattle".toList ++ '=' :: "0.1".toList) :: ["3".toList, "8".toList] ++
      ("-input".toList :: (["enum.out".toList] ++ ["4".toList]) ++ [])))
      [("-displace".toList, ["-5".toList]), ("-rattle".toList, ["0.1".toList]), ("-input".toList, ["enum.out".toList])] [[], ["3".toList, "8".toList], ["4".toList]] := by
    refine .apart (k := .one) (by decide +kernel) (.inl rfl) rfl ?_ (fun h => by cases h) ?_
    · intro v hv
      rw [List.append_nil, List.mem_singleton] at hv
      exact .inr ⟨"5".toList, by rw [hv]; decide +kernel, by decide +kernel, by decide +kernel⟩
    refine .joined (k := .one) (by decide +kernel) (.inl rfl) (by decide +kernel) ?_ ?_
    · intro v hv
      apply plain_of
      revert v
      decide +kernel
    refine .apart (k := .one) (by decide +kernel) (.inl rfl) rfl ?_ (fun h => by cases h) .nil
    intro v hv
    apply plain_of
    revert v
    decide +kernel
  exact h

example : ∃ v o, makeLine (["-displace", "-5", "-rattle=0.1", "3", "8", "-input", "enum.out", "4"].map String.toList) = .run v o ∧
    o.toArgs.structures = some ["3".toList, "8".toList] ∧ o.toArgs.displace = ((-5 : ℚ) : ℝ) ∧ o.input = "enum.out".toList := by
  have hnd : (([("-displace".toList, ["-5".toList]), ("-rattle".toList, ["0.1".toList]), ("-input".toList, ["enum.out".toList])] : List (Str × List Str)).map (·.1)).Nodup := by
    decide +kernel
  obtain ⟨v, o, h1, -, h2, h3, -, -, -, -, -, -, -, -, -, -, -, h4, -⟩ := C91_make numbers_line (by
    intro p hp
    rw [← wellFormed_iff]
    revert p
    decide +kernel) (by decide +kernel)
  exact ⟨v, o, h1, h2, h4 "-5".toList (-5) (lastGiven_of_mem hnd (by simp)) (by decide +kernel), h3 _ (lastGiven_of_mem hnd (by simp))⟩

/-- C91. `makeStr.py -species Al Cu -- 10 -x`: the words behind `--` are values, so that the numbers are not taken for elements. -/
theorem dashes_line : Line makeTable (["-species", "Al", "Cu", "--", "10", "-x"].map String.toList) [("-species".toList, ["Al".toList, "Cu".toList])] [["10".toList, "-x".toList]] := by
  have h : Reads makeTable ("-species".toList :: (["Al".toList, "Cu".toList] ++ []) ++ []) [("-species".toList, ["Al".toList, "Cu".toList])] [[]] :=
    .apart (k := .many) (by decide +kernel) (.inl rfl) (by simp [Takes]) (by
      intro v hv
      apply plain_of
      revert v
      decide +kernel) (fun _ => rfl) .nil
  exact ⟨[], _, _, ["--".toList, "10".toList, "-x".toList], ["10".toList, "-x".toList], .inr rfl, rfl, by simp, h, by decide +kernel⟩

/-- C91. `-mink f -mink t` is `-mink t`. -/
example : LastGiven [("-mink".toList, ["f".toList]), ("-mink".toList, ["t".toList])] "-mink".toList ["t".toList] := ⟨[("-mink".toList, ["f".toList])], [], rfl, by simp⟩

/-- C93. `-sizes 1 x` is not accepted. -/
example : ¬ WellFormed ("-sizes".toList, ["1".toList, "x".toList]) := by
  rw [← wellFormed_iff]
  decide +kernel

end Phenum
