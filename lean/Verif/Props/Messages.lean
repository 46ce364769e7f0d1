import Verif.Props.Screen
/-
The messages and the help (C81).
-/
namespace Phenum
open Spec

/-! ## specification -/

/-- Lines of text, each with a line break. -/
def Spec.linesText (l : List Str) : Str := l.flatMap (fun s => s ++ ['\n'])

/-- The lines of the help: heading, explanation, requirements, results, details and the examples, numbered from 1, each with its code and, if there is one, its command after
an empty line. -/
def Spec.helpLines (t : HelpTexts) : List Str :=
  [upperStr t.script, List.replicate 70 '=', [], "DETAILS".toList, t.explain, [], t.requirements, t.output] ++ (if t.details = [] then [] else [t.details]) ++
    ["OUTPUT FORMAT".toList, t.outputfmt, "EXAMPLES".toList] ++
    (t.contents.mapIdx (fun i c => [natStr (i + 1) ++ ") ".toList ++ c.1, "    ".toList ++ c.2.1] ++ if c.2.2 = [] then [] else [[], c.2.2])).flatten

/-- The settings without -verbose; quiet has not been switched on. -/
def Spec.DefaultMessages (st : MsgState) : Prop := st.verbosity = .unset ∧ st.quiet ≠ some true

/-! ## when messages are shown -/

theorem will_one {st : MsgState} (h : st.quiet ≠ some true) : willPrint st 1 = true := by
  unfold willPrint
  rcases st with ⟨v, q, n⟩
  rcases q with _ | _ | _
  · rfl
  · rfl
  · exact absurd rfl h

/-- C81. Without -verbose: errors, information and the output proper are shown, each on lines of its own; warnings (of every level except 1) and blank lines never. -/
theorem C81_default {st : MsgState} (h : DefaultMessages st) (m : Str) :
    screenText (msgErr st m) = "ERROR: ".toList ++ m ++ ['\n'] ∧ screenText (msgInfo st m) = m ++ ['\n'] ∧ screenText (msgOkay st m) = m ++ ['\n'] ∧
    screenText (msgGen st m) = m ++ ['\n'] ∧ screenText (msgStd st m) = m ++ ['\n'] ∧
    msgWarn st m = [] ∧ (∀ level pre, level ≠ 1 → msgWarn st m level pre = []) ∧ ∀ n, msgBlank st n = [] := by
  obtain ⟨h1, h2⟩ := h
  have h3 : ∀ level : ℤ, level ≠ 1 → willPrint st level = false := by
    intro level hl
    unfold willPrint
    rw [if_neg hl, h1]
  have h4 := will_one h2
  refine ⟨?_, ?_, ?_, ?_, ?_, ?_, ?_, ?_⟩
  · unfold msgErr; rw [h3 _ (by decide), h1]; exact printer_text _ _ _ _
  · unfold msgInfo; rw [h4]; exact printer_text _ _ _ _
  · unfold msgOkay; rw [h4]; exact printer_text _ _ _ _
  · unfold msgGen; rw [h4]; exact printer_text _ _ _ _
  · unfold msgStd; rw [h4]; simp [screenText]
  · unfold msgWarn; rw [h3 _ (by decide)]; rfl
  · intro level pre hl; unfold msgWarn; rw [h3 _ hl]; rfl
  · intro n; unfold msgBlank; rw [h3 _ (by decide)]; rfl

/-- C81. With -verbose every message is shown, whatever its level: warnings with their prefix too. -/
theorem C81_verbose {st : MsgState} (hv : st.verbosity = .flag true) (hq : st.quiet ≠ some true) (m : Str) (level : ℤ) :
    screenText (msgWarn st m level) = "WARNING: ".toList ++ m ++ ['\n'] ∧ screenText (msgErr st m level) = "ERROR: ".toList ++ m ++ ['\n'] ∧
    screenText (msgInfo st m level) = m ++ ['\n'] ∧ screenText (msgOkay st m level) = m ++ ['\n'] ∧ screenText (msgGen st m level) = m ++ ['\n'] ∧
    screenText (msgStd st m level) = m ++ ['\n'] ∧ ∀ n, screenText (msgBlank st n level) = List.replicate n '\n' := by
  have h : willPrint st level = true := by
    by_cases hl : level = 1
    · rw [hl]; exact will_one hq
    · unfold willPrint; rw [if_neg hl, hv]; simp
  refine ⟨?_, ?_, ?_, ?_, ?_, ?_, ?_⟩
  · unfold msgWarn; rw [h]; exact printer_text _ _ _ _
  · unfold msgErr; rw [h]; exact printer_text _ _ _ _
  · unfold msgInfo; rw [h]; exact printer_text _ _ _ _
  · unfold msgOkay; rw [h]; exact printer_text _ _ _ _
  · unfold msgGen; rw [h]; exact printer_text _ _ _ _
  · unfold msgStd; rw [h]; simp [screenText]
  · intro n
    unfold msgBlank; rw [h]
    induction n with
    | zero => rfl
    | succ n ih =>
      simp only [if_true] at ih ⊢
      rw [List.replicate_succ, List.replicate_succ, ← ih]; rfl

/-- C81. Quiet: messages of level 1 are not shown, whatever the verbosity, and it has no effect on messages of other levels. -/
theorem C81_quiet {st : MsgState} (hq : st.quiet = some true) (m : Str) :
    msgInfo st m = [] ∧ msgOkay st m = [] ∧ msgGen st m = [] ∧ msgStd st m = [] ∧
    ∀ (q : Option Bool) (level : ℤ) (pre : Bool), level ≠ 1 → msgWarn { st with quiet := q } m level pre = msgWarn st m level pre ∧
      msgErr { st with quiet := q } m level pre = msgErr st m level pre ∧ ∀ n, msgBlank { st with quiet := q } n level = msgBlank st n level := by
  have h : willPrint st 1 = false := by
    unfold willPrint
    rw [if_pos rfl, hq]; rfl
  refine ⟨?_, ?_, ?_, ?_, ?_⟩
  · unfold msgInfo; rw [h]; rfl
  · unfold msgOkay; rw [h]; rfl
  · unfold msgGen; rw [h]; rfl
  · unfold msgStd; rw [h]; rfl
  · intro q level pre hl
    have e : willPrint { st with quiet := q } level = willPrint st level := by
      unfold willPrint
      rw [if_neg hl, if_neg hl]
    refine ⟨?_, ?_, ?_⟩
    · unfold msgWarn printer; rw [e]
    · unfold msgErr printer; rw [e]
    · intro n; unfold msgBlank; rw [e]

/-- C81 (a defect). The description of quiet says that without a verbosity every message of level 0 or more is printed; none is, except with the function for errors. -/
theorem C81_quiet_doc {st : MsgState} (hv : st.verbosity = .unset) (hq : st.quiet = some true) (m : Str) (level : ℤ) (pre : Bool) :
    msgWarn st m level pre = [] ∧ msgInfo st m level = [] ∧ msgOkay st m level = [] ∧ msgGen st m level = [] ∧ msgStd st m level = [] ∧
    (∀ n, msgBlank st n level = []) ∧ screenText (msgErr st m level) = "ERROR: ".toList ++ m ++ ['\n'] := by
  have h : willPrint st level = false := by
    unfold willPrint
    split
    · rw [hq]; rfl
    · rw [hv]
  refine ⟨?_, ?_, ?_, ?_, ?_, ?_, ?_⟩
  · unfold msgWarn; rw [h]; rfl
  · unfold msgInfo; rw [h]; rfl
  · unfold msgOkay; rw [h]; rfl
  · unfold msgGen; rw [h]; rfl
  · unfold msgStd; rw [h]; rfl
  · intro n; unfold msgBlank; rw [h]; rfl
  · unfold msgErr; rw [hv]; simp only [decide_true, Bool.or_true, if_true]; exact printer_text _ _ _ _

/-- C81. A higher verbosity hides nothing: what is shown at a level is shown at every higher one and with -verbose, and any level from 0 shows what is shown without one. -/
theorem C81_monotone (st : MsgState) {n k : ℤ} (h : n ≤ k) (m : Str) (level : ℤ) (pre : Bool) :
    (∀ v, v = .level k ∨ v = .flag true → msgWarn { st with verbosity := .level n } m level pre ≠ [] →
      msgWarn { st with verbosity := v } m level pre = msgWarn { st with verbosity := .level n } m level pre) ∧
    (0 ≤ n → msgWarn { st with verbosity := .unset } m level pre ≠ [] → msgWarn { st with verbosity := .level n } m level pre = msgWarn { st with verbosity := .unset } m level pre) ∧
    (0 ≤ n → msgErr { st with verbosity := .level n } m = msgErr { st with verbosity := .unset } m) := by
  refine ⟨?_, ?_, ?_⟩
  · intro v hv h0
    have h1 : willPrint { st with verbosity := .level n } level = true := by
      by_contra hc
      apply h0
      unfold msgWarn
      rw [if_neg hc]
    have h2 : willPrint { st with verbosity := v } level = true := by
      unfold willPrint at h1 ⊢
      split
      · next hl => rw [if_pos hl] at h1; exact h1
      · next hl =>
        rw [if_neg hl] at h1
        rcases hv with rfl | rfl
        · simp only [decide_eq_true_eq] at h1 ⊢; omega
        · simp
    unfold msgWarn
    rw [if_pos h1, if_pos h2]; rfl
  · intro hn h0
    by_cases hl : level = 1
    · subst hl; rfl
    · exfalso
      apply h0
      unfold msgWarn willPrint
      rw [if_neg hl]; rfl
  · intro hn
    unfold msgErr willPrint
    simp only [show (-1 : ℤ) ≠ 1 by decide, if_false]
    have : (-1 : ℤ) ≤ n := by omega
    simp [this, printer]

/-- C81 (a defect). `set_verbosity(False)` switches warnings on: they are not shown without a setting. -/
theorem C81_false_shows (st : MsgState) (m : Str) :
    screenText (msgWarn { st with verbosity := .flag false } m) = "WARNING: ".toList ++ m ++ ['\n'] ∧ msgWarn { st with verbosity := .unset } m = [] :=
  ⟨printer_text _ _ _ _, rfl⟩

/-- C81. The colours: a warning that is shown is yellow, an error red, information cyan, success green, general remarks blue; the output proper and blank lines have
no colour; with colours switched off nothing has one, and the text on the screen is the same. -/
theorem C81_colour_of_kind (st : MsgState) (m : Str) (level : ℤ) (pre : Bool) (n : ℕ) :
    (∀ p ∈ msgWarn st m level pre, p.1 = if st.nocolor then none else some "yellow".toList) ∧
    (∀ p ∈ msgErr st m level pre, p.1 = if st.nocolor then none else some "red".toList) ∧
    (∀ p ∈ msgInfo st m level, p.1 = if st.nocolor then none else some "cyan".toList) ∧
    (∀ p ∈ msgOkay st m level, p.1 = if st.nocolor then none else some "green".toList) ∧
    (∀ p ∈ msgGen st m level, p.1 = if st.nocolor then none else some "blue".toList) ∧
    (∀ p ∈ msgStd st m level, p.1 = none) ∧ (∀ p ∈ msgBlank st n level, p.1 = none) ∧
    ∀ c, screenText (msgWarn { st with nocolor := c } m level pre) = screenText (msgWarn st m level pre) ∧
      screenText (msgErr { st with nocolor := c } m level pre) = screenText (msgErr st m level pre) ∧
      screenText (msgInfo { st with nocolor := c } m level) = screenText (msgInfo st m level) ∧
      screenText (msgOkay { st with nocolor := c } m level) = screenText (msgOkay st m level) ∧
      screenText (msgGen { st with nocolor := c } m level) = screenText (msgGen st m level) := by
  have key : ∀ (b : Bool) (t : Str) (col : Str), ∀ p ∈ (if b then printer st t (some col) ['\n'] else []), p.1 = if st.nocolor then none else some col := by
    intro b t col p hp
    cases b with
    | false => cases hp
    | true =>
      unfold printer at hp
      cases hc : st.nocolor with
      | true => simp [hc] at hp; rw [hp]; rfl
      | false => simp [hc] at hp; rw [hp]; rfl
  have key2 : ∀ (c : Bool) (b b' : Bool) (t : Str) (col : Str), b' = b → screenText (if b' then printer { st with nocolor := c } t (some col) ['\n'] else []) =
      screenText (if b then printer st t (some col) ['\n'] else []) := by
    intro c b b' t col e
    subst e
    cases b' with
    | false => rfl
    | true => exact (printer_text _ _ _ _).trans (printer_text _ _ _ _).symm
  refine ⟨fun p hp => key _ _ _ p hp, fun p hp => key _ _ _ p hp, fun p hp => key _ _ _ p hp, fun p hp => key _ _ _ p hp, fun p hp => key _ _ _ p hp, ?_, ?_, ?_⟩
  · intro p hp
    unfold msgStd at hp
    split at hp
    · rw [List.mem_singleton] at hp; rw [hp]
    · cases hp
  · intro p hp
    unfold msgBlank at hp
    split at hp
    · rw [List.eq_of_mem_replicate hp]
    · cases hp
  · intro c
    exact ⟨key2 c _ _ _ _ rfl, key2 c _ _ _ _ rfl, key2 c _ _ _ _ rfl, key2 c _ _ _ _ rfl, key2 c _ _ _ _ rfl⟩

example : msgErr {} "no such file".toList = [(some "red".toList, "ERROR: no such file\n".toList)] ∧
    msgErr { nocolor := true } "no such file".toList = [(none, "ERROR: no such file\n".toList)] := by decide +kernel

/-! ## lines in several colours -/

theorem arbLoop_spec (st : MsgState) (split : Char) (words : List Str) (cols : List ℕ) :
    (words.length ≤ cols.length ∧ (∀ c ∈ cols.take words.length, c < 6) →
      ∃ pieces, arbLoop st split cols words = .ok pieces ∧
        screenText pieces = words.flatMap (fun w => w ++ [split]) ++ (if words = [] then [] else ['\n']) ∧
        (st.nocolor = true → ∀ p ∈ pieces, p.1 = none) ∧
        (st.nocolor = false → pieces.filterMap (fun p => p.1.map (fun col => (col, p.2))) = List.zipWith (fun c w => (icols.getD c [], w)) cols words)) ∧
    (¬ (words.length ≤ cols.length ∧ ∀ c ∈ cols.take words.length, c < 6) → arbLoop st split cols words = .error .indexError) := by
  induction words generalizing cols with
  | nil =>
    refine ⟨fun _ => ⟨[], ?_, rfl, by simp, by simp⟩, fun h => absurd ⟨by simp, by simp⟩ h⟩
    cases cols <;> rfl
  | cons w ws ih =>
    cases cols with
    | nil => exact ⟨fun h => absurd h.1 (by simp), fun _ => rfl⟩
    | cons c cs =>
      obtain ⟨ih1, ih2⟩ := ih cs
      by_cases hc : c < 6
      · have hcol : pyGet icols c = .ok (icols.getD c []) := by
          interval_cases c <;> rfl
        constructor
        · rintro ⟨h1, h2⟩
          obtain ⟨pc, p1, p2, p3, p4⟩ := ih1 ⟨by simpa using h1, fun x hx => h2 x (by simp [hx])⟩
          refine ⟨printer st w (some (icols.getD c [])) [] ++ printer st [split] none (if ws = [] then ['\n'] else []) ++ pc, ?_, ?_, ?_, ?_⟩
          · unfold arbLoop
            rw [hcol, p1]
            rfl
          · rw [screenText_append, screenText_append, printer_text, printer_text, p2]
            by_cases hw : ws = []
            · subst hw; simp
            · simp [hw]
          · intro hn p hp
            rw [List.mem_append, List.mem_append] at hp
            unfold printer at hp
            rw [hn] at hp
            simp only [if_true, List.mem_singleton] at hp
            rcases hp with (rfl | rfl) | hp
            · rfl
            · rfl
            · exact p3 hn p hp
          · intro hn
            rw [List.filterMap_append, List.filterMap_append, p4 hn]
            unfold printer
            rw [hn]
            simp
        · intro h
          have : arbLoop st split cs ws = .error .indexError := by
            apply ih2
            rintro ⟨h1, h2⟩
            refine h ⟨by simpa using h1, fun x hx => ?_⟩
            simp only [List.length_cons, List.take_succ_cons, List.mem_cons] at hx
            rcases hx with rfl | hx
            · exact hc
            · exact h2 x hx
          unfold arbLoop
          rw [hcol, this]
          rfl
      · have hcol : pyGet icols c = .error .indexError := by
          obtain ⟨k, rfl⟩ := Nat.exists_eq_add_of_le (Nat.le_of_not_lt hc)
          unfold pyGet
          have : (icols : List Str)[6 + k]? = none := by simp [icols]
          first | rw [this] | simp [this]
        refine ⟨fun h => absurd (h.2 c (by simp)) hc, fun _ => ?_⟩
        unfold arbLoop
        rw [hcol]
        rfl

theorem splitOn_flatMap (sep : Char) (s : Str) : (splitOn sep s).flatMap (fun w => w ++ [sep]) = s ++ [sep] ∧ splitOn sep s ≠ [] := by
  induction s with
  | nil => exact ⟨rfl, by simp [splitOn]⟩
  | cons c s ih =>
    obtain ⟨h1, h2⟩ := ih
    unfold splitOn
    by_cases hc : c = sep
    · rw [if_pos hc]
      subst hc
      exact ⟨by rw [List.flatMap_cons, h1]; rfl, by simp⟩
    · rw [if_neg hc]
      cases hs : splitOn sep s with
      | nil => exact absurd hs h2
      | cons w ws =>
        rw [hs] at h1
        refine ⟨?_, by simp⟩
        simp only [List.flatMap_cons, List.cons_append] at h1 ⊢
        rw [h1]

/-- C81. A line in several colours, the text not ending with the separator: if there is a colour for each of its parts, the text is shown with a separator and a line break at the
end, each part in its colour; otherwise there is an IndexError. -/
theorem C81_colours (st : MsgState) (text : Str) (cols : List ℕ) (split : Char) (h : text ≠ []) (hend : text.getLast? ≠ some split) :
    ((splitOn split text).length ≤ cols.length ∧ (∀ c ∈ cols.take (splitOn split text).length, c < 6) →
      ∃ pieces, msgArb st text cols split = .ok pieces ∧ screenText pieces = text ++ [split, '\n'] ∧ (st.nocolor = true → ∀ p ∈ pieces, p.1 = none) ∧
        (st.nocolor = false → pieces.filterMap (fun p => p.1.map (fun col => (col, p.2))) = List.zipWith (fun c w => (icols.getD c [], w)) cols (splitOn split text))) ∧
    (¬ ((splitOn split text).length ≤ cols.length ∧ ∀ c ∈ cols.take (splitOn split text).length, c < 6) → msgArb st text cols split = .error .indexError) := by
  have e : msgArb st text cols split = arbLoop st split cols (splitOn split text) := by
    unfold msgArb
    cases hl : text.getLast? with
    | none => exact absurd (List.getLast?_eq_none_iff.mp hl) h
    | some c =>
      have : c ≠ split := fun hc => hend (hc ▸ hl)
      simp [this]
  obtain ⟨s1, s2⟩ := splitOn_flatMap split text
  obtain ⟨h1, h2⟩ := arbLoop_spec st split (splitOn split text) cols
  rw [e]
  refine ⟨fun hh => ?_, h2⟩
  obtain ⟨pc, p1, p2, p3, p4⟩ := h1 hh
  refine ⟨pc, p1, ?_, p3, p4⟩
  rw [p2, s1, if_neg s2]
  simp

/-- C81. If the text ends with the separator, it is not repeated. -/
theorem C81_colours_end (st : MsgState) (text : Str) (cols : List ℕ) (split : Char) (h : text ≠ []) (hend : text.getLast? ≠ some split) :
    msgArb st (text ++ [split]) cols split = msgArb st text cols split := by
  unfold msgArb
  rw [List.getLast?_append]
  cases hl : text.getLast? with
  | none => exact absurd (List.getLast?_eq_none_iff.mp hl) h
  | some c =>
    have : c ≠ split := fun hc => hend (hc ▸ hl)
    simp [this]

/-! ## the help -/

theorem linesText_append (a b : List Str) : linesText (a ++ b) = linesText a ++ linesText b := List.flatMap_append ..

theorem colored_text (t c : Str) : screenText (colored t c) = t ++ ['\n'] := by simp [screenText, colored]

theorem helpContents_text {st : MsgState} (h : DefaultMessages st) (l : List (Str × Str × Str)) (i : ℕ) :
    screenText (helpContents st i l) = linesText ((l.mapIdx (fun j c => [natStr (i + j + 1) ++ ") ".toList ++ c.1, "    ".toList ++ c.2.1] ++ if c.2.2 = [] then [] else [[], c.2.2])).flatten) := by
  obtain ⟨-, -, -, -, -, -, -, hb⟩ := C81_default h []
  have hs : ∀ m, screenText (msgStd st m) = m ++ ['\n'] := fun m => (C81_default h m).2.2.2.2.1
  induction l generalizing i with
  | nil => rfl
  | cons c l ih =>
    obtain ⟨pre, code, post⟩ := c
    rw [List.mapIdx_cons, List.flatten_cons, linesText_append]
    unfold helpContents
    rw [screenText_append, screenText_append, screenText_append, screenText_append, hb, hs, colored_text, ih]
    congr 1
    · by_cases hp : post = []
      · subst hp; simp [screenText, linesText]
      · simp only [hp, ne_eq, not_false_eq_true, if_true, if_false, hs]
        simp [screenText, linesText]
    · congr 3
      funext j c
      rw [show i + 1 + j + 1 = i + (j + 1) + 1 by omega]

/-- C81. The help: the lines in their order, nothing else. -/
theorem C81_help {st : MsgState} (h : DefaultMessages st) (t : HelpTexts) : screenText (msgExample st t) = linesText (helpLines t) := by
  obtain ⟨-, -, -, -, -, -, -, hb⟩ := C81_default h []
  have hs : ∀ m, screenText (msgStd st m) = m ++ ['\n'] := fun m => (C81_default h m).2.2.2.2.1
  unfold msgExample helpLines
  simp only [screenText_append, linesText_append, hb, hs, colored_text, helpContents_text h, Nat.zero_add]
  congr 1
  by_cases hd : t.details = []
  · simp [hd, screenText, linesText]
  · simp only [hd, ne_eq, not_false_eq_true, if_true, if_false, screenText_append, hs, hb]
    simp [screenText, linesText]

/-- C81 (a defect). `enumeration.py -examples` shows the help and then always stops with a TypeError; makeStr with a ValueError. Nothing is written, whatever the
other options are. -/
theorem C81_examples (t : HelpTexts) (w : World) (tol : Tol) (verbose : Bool) (a : Args) (d : Dir) (m : MakeArgs) (file : Str) (rnd : ReadStruct → ℕ → ℕ → ℝ) :
    (∃ pieces, mainEnum {} t w tol true verbose a d = (pieces, (throw .typeError : Run (Dir × List Piece))) ∧ screenText pieces = linesText (helpLines t)) ∧
    ∃ pieces, mainMake {} t true verbose m file rnd = (pieces, (throw .valueError : Run (List OutFile))) ∧ screenText pieces = linesText (helpLines t) :=
  ⟨⟨_, rfl, C81_help ⟨rfl, by decide⟩ t⟩, _, rfl, C81_help ⟨rfl, by decide⟩ t⟩

/-- C81. Without -examples no help is shown, and the files do not depend on -verbose. -/
theorem C81_run (st : MsgState) (t : HelpTexts) (w : World) (tol : Tol) (verbose : Bool) (a : Args) (d : Dir) (m : MakeArgs) (file : Str) (rnd : ReadStruct → ℕ → ℕ → ℝ) :
    ((mainEnum st t w tol false verbose a d).1 = [] ∧
      ((mainEnum st t w tol false verbose a d).2 >>= fun r => (pure r.1 : Run Dir)) = scriptEnum w tol a d) ∧
    mainMake st t false verbose m file rnd = ([], makeStr (some m) file rnd) :=
  ⟨⟨rfl, (C80_same_run _ w tol a d).symm⟩, rfl⟩

/-! ## examples -/

example : DefaultMessages {} ∧ DefaultMessages { nocolor := true } ∧ DefaultMessages { quiet := some false } := ⟨⟨rfl, by decide⟩, ⟨rfl, by decide⟩, ⟨rfl, by decide⟩⟩

/-- What the user sees without -verbose if enum.in is missing: nothing. -/
example : msgWarn {} "The input file enum.in does not exist. Assuming you want full enumeration.".toList = [] := rfl

example : screenText (msgWarn { verbosity := .flag true } "not there".toList) = "WARNING: not there\n".toList := by decide +kernel

/-- A line in three colours, and one for which a colour is missing. -/
example : (msgArb {} "a:b:c".toList [0, 2, 5] ':').map screenText = .ok "a:b:c:\n".toList ∧ (msgArb {} "a:b:c".toList [0, 2] ':').map screenText = .error .indexError :=
  ⟨by decide +kernel, by decide +kernel⟩

example : screenText (msgExample {} ⟨"abc".toList, "e".toList, [("p".toList, "c".toList, []), ("q".toList, "d".toList, "x".toList)], "r".toList, "o".toList, [], []⟩) =
    "ABC\n======================================================================\n\nDETAILS\ne\n\nr\no\nOUTPUT FORMAT\n\nEXAMPLES\n1) p\n    c\n2) q\n    d\n\nx\n".toList := by
  decide +kernel

end Phenum
