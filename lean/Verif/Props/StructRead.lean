import Mathlib.Data.List.TakeWhile
import Verif.Model.StructEnum
import Verif.Proof.EnumFile
import Verif.Proof.Drivers
/-
C95. The search for an executable.  C96. The counts read from struct_enum.out.
-/
namespace Phenum
open Spec

/-! ## C95: which -/

/-- The name of a file in a directory (the current one if it has no name). -/
def Spec.fileIn (dir name : Str) : Str := if dir = [] then name else if dir.getLast? = some '/' then dir ++ name else dir ++ '/' :: name

/-- A plain name of a program: not empty and without slashes. -/
def Spec.PlainName (s : Str) : Prop := s ≠ [] ∧ '/' ∉ s

/-- An entry of PATH, and the directory that it names: itself, or what is between the quotes. -/
def Spec.PathEntry (e dir : Str) : Prop := ':' ∉ dir ∧ '"' ∉ dir ∧ (e = dir ∨ e = '"' :: dir ++ ['"'])

theorem pathSplit_plain {s : Str} (h : PlainName s) : (pathSplit s).1 = [] := by
  have e : s.reverse.dropWhile (fun c => decide (c ≠ '/')) = [] := by
    rw [List.dropWhile_eq_nil_iff]
    intro c hc
    have : c ≠ '/' := by rintro rfl; exact h.2 (List.mem_reverse.mp hc)
    simpa using this
  unfold pathSplit
  simp only [e, List.reverse_nil, List.dropWhile_nil, if_true]

theorem stripQuotes_plain {s : Str} (h : '"' ∉ s) : stripQuotes s = s := by
  have e : ∀ l : Str, '"' ∉ l → l.dropWhile (fun c => decide (c = '"')) = l := by
    intro l hl
    cases l with
    | nil => rfl
    | cons c l =>
      rw [List.dropWhile_cons_of_neg]
      simp only [decide_eq_true_eq]
      rintro rfl
      exact hl List.mem_cons_self
  unfold stripQuotes
  have e0 := e s.reverse (by simpa using h)
  rw [e0, List.reverse_reverse, e _ h]

theorem stripQuotes_entry {e dir : Str} (h : PathEntry e dir) : stripQuotes e = dir := by
  obtain ⟨-, h2, rfl | rfl⟩ := h
  · exact stripQuotes_plain h2
  · have e1 := stripQuotes_plain h2
    have k : ∀ l : Str, '"' ∉ l → l.dropWhile (fun c => decide (c = '"')) = l := by
      intro l hl
      cases l with
      | nil => rfl
      | cons c l =>
        rw [List.dropWhile_cons_of_neg]
        simp only [decide_eq_true_eq]
        rintro rfl
        exact hl List.mem_cons_self
    unfold stripQuotes
    cases hr : dir.reverse with
    | nil =>
      rw [List.reverse_eq_nil_iff] at hr
      subst hr
      decide
    | cons c t =>
      have hc : '"' ∉ c :: t := by rw [← hr]; simpa using h2
      have e2 : ('"' :: dir ++ ['"']).reverse = '"' :: ((c :: t) ++ ['"']) := by simp [hr]
      have e3 : ((c :: t) ++ ['"']).dropWhile (fun c => decide (c = '"')) = (c :: t) ++ ['"'] := by
        rw [List.cons_append, List.dropWhile_cons_of_neg]
        simp only [decide_eq_true_eq]
        rintro rfl
        exact hc List.mem_cons_self
      have e4 : ((c :: t) ++ ['"']).reverse = '"' :: dir := by rw [← hr]; simp
      rw [e2, List.dropWhile_cons_of_pos (by decide), e3, e4, List.dropWhile_cons_of_pos (by decide), k _ h2]

theorem entry_no_colon {e dir : Str} (h : PathEntry e dir) : ':' ∉ e := by
  obtain ⟨h1, -, rfl | rfl⟩ := h
  · exact h1
  · intro hm
    rcases List.mem_append.mp hm with hm | hm
    · rcases List.mem_cons.mp hm with hm | hm
      · revert hm; decide
      · exact h1 hm
    · revert hm; decide

theorem pathJoin_plain {s : Str} (h : PlainName s) (dir : Str) : pathJoin dir s = fileIn dir s := by
  unfold pathJoin fileIn
  have : s.head? ≠ some '/' := fun e => h.2 (List.mem_of_mem_head? (by rw [e]; rfl))
  rw [if_neg this]
  by_cases hd : dir = []
  · rw [if_pos (Or.inl hd), if_pos hd, hd]; rfl
  · by_cases hl : dir.getLast? = some '/'
    · rw [if_pos (Or.inr hl), if_neg hd, if_pos hl]
    · rw [if_neg (by tauto), if_neg hd, if_neg hl]

theorem which_plain {isExe : Str → Bool} {entries : List (Str × Str)} {name : Str} (h0 : entries ≠ []) (hd : ∀ d ∈ entries, PathEntry d.1 d.2) (hn : PlainName name) :
    which isExe (joinStr [':'] (entries.map (·.1))) name = (entries.map (fun d => fileIn d.2 name)).find? isExe := by
  unfold which
  rw [if_neg (by rw [pathSplit_plain hn]; simp), splitOn_join ':' (by simpa using h0) (by
    intro t ht
    obtain ⟨d, hdm, rfl⟩ := List.mem_map.mp ht
    exact entry_no_colon (hd d hdm)), List.map_map]
  congr 1
  exact List.map_congr_left (fun d h => by rw [Function.comp, stripQuotes_entry (hd d h), pathJoin_plain hn])

/-- C95. For a plain name, `which` gives the file of that name in the first directory of PATH where it is an executable, ... -/
theorem C95_first {isExe : Str → Bool} {before after : List (Str × Str)} {dir : Str × Str} {name : Str} (hd : ∀ d ∈ before ++ dir :: after, PathEntry d.1 d.2) (hn : PlainName name)
    (hb : ∀ d ∈ before, isExe (fileIn d.2 name) = false) (he : isExe (fileIn dir.2 name) = true) :
    which isExe (joinStr [':'] ((before ++ dir :: after).map (·.1))) name = some (fileIn dir.2 name) := by
  rw [which_plain (by simp) hd hn, List.map_append, List.map_cons, List.find?_append, List.find?_cons_of_pos he, Option.or_eq_some_iff]
  right
  refine ⟨?_, rfl⟩
  rw [List.find?_eq_none]
  intro x hx
  obtain ⟨d, hd', rfl⟩ := List.mem_map.mp hx
  rw [hb d hd']
  simp

/-- ... and `None` if it is not an executable in any of them. -/
theorem C95_none {isExe : Str → Bool} {entries : List (Str × Str)} {name : Str} (h0 : entries ≠ []) (hd : ∀ d ∈ entries, PathEntry d.1 d.2) (hn : PlainName name) :
    which isExe (joinStr [':'] (entries.map (·.1))) name = none ↔ ∀ d ∈ entries, isExe (fileIn d.2 name) = false := by
  rw [which_plain h0 hd hn, List.find?_eq_none]
  constructor
  · intro h d hdm
    simpa using h _ (List.mem_map.mpr ⟨d, hdm, rfl⟩)
  · intro h x hx
    obtain ⟨d, hdm, rfl⟩ := List.mem_map.mp hx
    simp [h d hdm]

/-- C95. For a name that begins with a slash PATH doesn't matter. -/
theorem C95_absolute (isExe : Str → Bool) (env name : Str) : which isExe env ('/' :: name) = if isExe ('/' :: name) = true then some ('/' :: name) else none := by
  unfold which
  by_cases he : isExe ('/' :: name) = true
  · rw [if_pos he]
    split
    · rfl
    · have : ∀ l : List Str, l ≠ [] → (l.map (fun path => pathJoin (stripQuotes path) ('/' :: name))).find? isExe = some ('/' :: name) := by
        intro l hl
        cases l with
        | nil => exact absurd rfl hl
        | cons a l =>
          have : pathJoin (stripQuotes a) ('/' :: name) = '/' :: name := by exact if_pos rfl
          rw [List.map_cons, this, List.find?_cons_of_pos he]
      exact this _ (splitOn_ne_nil _ _)
  · rw [if_neg he, if_neg (by tauto), List.find?_eq_none]
    intro x hx
    obtain ⟨d, -, rfl⟩ := List.mem_map.mp hx
    have : pathJoin (stripQuotes d) ('/' :: name) = '/' :: name := by exact if_pos rfl
    rw [this]
    exact he

/-- C95. Whatever the name and PATH are, what `which` returns is an executable. -/
theorem C95_sound {isExe : Str → Bool} {env name r : Str} (h : which isExe env name = some r) : isExe r = true := by
  unfold which at h
  split at h
  · rename_i hc
    cases h
    exact hc.2
  · exact List.find?_some h

/-- C95. A name with a directory that is an executable is returned as it is, whatever PATH is. -/
theorem C95_path {isExe : Str → Bool} {dir file : Str} (env : Str) (h : isExe (dir ++ '/' :: file) = true) : which isExe env (dir ++ '/' :: file) = some (dir ++ '/' :: file) := by
  unfold which
  rw [if_pos]
  refine ⟨?_, h⟩
  have e : ((dir ++ '/' :: file).reverse.dropWhile (fun c => decide (c ≠ '/'))) ≠ [] := by
    intro hn
    rw [List.dropWhile_eq_nil_iff] at hn
    have := hn '/' (by simp)
    simp at this
  unfold pathSplit
  simp only
  split
  · intro hn; exact e (List.reverse_eq_nil_iff.mp hn)
  · assumption

/-- C95. A name with a directory that is not an executable is looked for below the directories of PATH (a shell does not): with /usr in PATH, `which("bin/enum.x")` finds /usr/bin/enum.x. -/
theorem C95_subdirectory : which (fun f => f = "/usr/bin/enum.x".toList) "/opt:/usr".toList "bin/enum.x".toList = some "/usr/bin/enum.x".toList := by decide +kernel

example : which (fun f => f = "/usr/bin/enum.x".toList) "/opt/bin:\"/usr/bin\":/home".toList "enum.x".toList = some "/usr/bin/enum.x".toList :=
  C95_first (before := [("/opt/bin".toList, "/opt/bin".toList)]) (dir := ("\"/usr/bin\"".toList, "/usr/bin".toList)) (after := [("/home".toList, "/home".toList)])
    (by unfold PathEntry; decide +kernel) (by unfold PlainName; decide +kernel) (by decide +kernel) (by decide +kernel)

/-! ## C96: _read_struct_enum -/

/-- A line of struct_enum.out: its words; the seventh is the size, the twelfth to seventeenth are the HNF, the last is the labeling. -/
def Spec.StructLine (line : Str) (n : ℤ) (hnf : List ℤ) (labeling : Str) : Prop :=
  ∃ front mid back, front.length = 6 ∧ mid.length = 4 ∧ hnf.length = 6 ∧ pySplit line = front ++ intStr n :: (mid ++ (hnf.map intStr ++ (back ++ [labeling])))

/-- The entry of the dictionary. -/
def Spec.structCount (d : StructCounts) (n : ℤ) (hnf : List ℤ) (concs : ℕ × ℕ) : Option ℕ :=
  (dictGet d n).bind (fun e => (dictGet e hnf).bind (fun g => dictGet g concs))

theorem structVals_line {line : Str} {n : ℤ} {hnf : List ℤ} {lab : Str} (h : StructLine line n hnf lab) :
    structVals line = .ok (n, hnf, (lab.count '0', lab.count '1')) := by
  obtain ⟨front, mid, back, h1, h2, h3, h4⟩ := h
  unfold structVals
  have e1 : pyGet (pySplit line) 6 = .ok (intStr n) := by
    rw [h4]
    unfold pyGet
    rw [List.getElem?_append_right (by omega), h1]
    rfl
  have e2 : ((pySplit line).drop 11).take 6 = hnf.map intStr := by
    rw [h4, show front ++ intStr n :: (mid ++ (hnf.map intStr ++ (back ++ [lab]))) = (front ++ intStr n :: mid) ++ (hnf.map intStr ++ (back ++ [lab])) by simp,
      List.drop_left' (by simp; omega), List.take_left' (by simp; omega)]
  have e3 : (pySplit line).getLastD [] = lab := by
    rw [h4, show front ++ intStr n :: (mid ++ (hnf.map intStr ++ (back ++ [lab]))) = (front ++ intStr n :: (mid ++ (hnf.map intStr ++ back))) ++ [lab] by simp,
      List.getLastD_eq_getLast?, List.getLast?_append]
    rfl
  simp only [e1, e2, e3]
  show (do
    let sn ← parseInt (intStr n)
    let g ← (hnf.map intStr).mapM parseInt
    (Except.ok (sn, g, (lab.count '0', lab.count '1')) : Py (ℤ × List ℤ × (ℕ × ℕ)))) = _
  rw [parseInt_intStr, mapM_parse parseInt intStr parseInt_intStr]
  rfl

theorem structBump_count (d : StructCounts) (n : ℤ) (hnf : List ℤ) (c : ℕ × ℕ) (n' : ℤ) (hnf' : List ℤ) (c' : ℕ × ℕ) :
    structCount (structBump d n hnf c) n' hnf' c' =
      if n' = n ∧ hnf' = hnf ∧ c' = c then some ((structCount d n hnf c).getD 0 + 1) else structCount d n' hnf' c' := by
  unfold structBump
  cases hd : dictGet d n with
  | none =>
    simp only [Option.isNone_none, if_true]
    have e : (dictGet (dictSet d n ([] : List (List ℤ × List ((ℕ × ℕ) × ℕ)))) n).getD [] = [] := by rw [dictGet_set, if_pos rfl]; rfl
    rw [e]
    show structCount (dictSet (dictSet d n []) n (dictSet [] hnf (dictSet [] c 1))) n' hnf' c' = _
    unfold structCount
    rw [dictGet_set, dictGet_set, hd]
    by_cases hn : n' = n
    · subst hn
      simp only [if_true, true_and, Option.bind_some, dictGet_set, hd, Option.bind_none, Option.getD_none]
      by_cases hh : hnf' = hnf
      · subst hh
        simp only [if_true, true_and, Option.bind_some, dictGet_set]
        by_cases hc : c' = c
        · simp [hc]
        · simp [hc, dictGet]
      · simp [hh, dictGet]
    · simp [hn]
  | some e =>
    simp only [Option.isNone_some, Bool.false_eq_true, if_false, Option.getD_some, hd]
    cases he : dictGet e hnf with
    | none =>
      simp only
      unfold structCount
      rw [dictGet_set, hd]
      by_cases hn : n' = n
      · subst hn
        simp only [if_true, true_and, Option.bind_some, dictGet_set, hd, he, Option.bind_none, Option.getD_none]
        by_cases hh : hnf' = hnf
        · subst hh
          simp only [if_true, true_and, Option.bind_some, dictGet_set, he, Option.bind_none]
          by_cases hc : c' = c
          · simp [hc]
          · simp [hc, dictGet]
        · simp [hh]
      · simp [hn]
    | some g =>
      simp only
      have fin : ∀ k, k = (dictGet g c).getD 0 + 1 → structCount (dictSet d n (dictSet e hnf (dictSet g c k))) n' hnf' c' =
          if n' = n ∧ hnf' = hnf ∧ c' = c then some ((structCount d n hnf c).getD 0 + 1) else structCount d n' hnf' c' := by
        intro k hk
        unfold structCount
        rw [dictGet_set, hd]
        by_cases hn : n' = n
        · subst hn
          simp only [if_true, true_and, Option.bind_some, dictGet_set, hd, he]
          by_cases hh : hnf' = hnf
          · subst hh
            simp only [if_true, true_and, Option.bind_some, dictGet_set, he, hk]
          · simp [hh]
        · simp [hn]
      cases hg : dictGet g c with
      | none => exact fin 1 (by rw [hg]; rfl)
      | some k => exact fin (k + 1) (by rw [hg]; rfl)

/-- C96. `_read_struct_enum` skips the first seventeen lines of struct_enum.out; of the lines behind them it gives, for every size, HNF and numbers of the two species, how many there are; there
is no entry for what doesn't occur. -/
theorem C96_struct_counts (head : List Str) (hh : head.length = 17) (body : List (Str × ℤ × List ℤ × Str)) (hb : ∀ x ∈ body, StructLine x.1 x.2.1 x.2.2.1 x.2.2.2)
    (hnl : ∀ l ∈ head ++ body.map (·.1), '\n' ∉ l) :
    ∃ d, readStructEnum ((head ++ body.map (·.1)).flatMap (fun l => l ++ ['\n'])) = .ok d ∧
      ∀ n hnf c0 c1, let k := body.countP (fun x => x.2.1 = n ∧ x.2.2.1 = hnf ∧ x.2.2.2.count '0' = c0 ∧ x.2.2.2.count '1' = c1)
        structCount d n hnf (c0, c1) = if k = 0 then none else some k := by
  have skip : ∀ (h : List Str) (i : ℕ) (rest : List Str) (d : StructCounts), i + h.length ≤ 17 → structLoop i (h ++ rest) d = structLoop (i + h.length) rest d := by
    intro h
    induction h with
    | nil => intros; rfl
    | cons l h ih =>
      intro i rest d hle
      rw [List.length_cons] at hle
      rw [List.cons_append, structLoop, if_neg (by omega), ih (i + 1) rest d (by omega), List.length_cons, Nat.add_right_comm, Nat.add_assoc]
  have loop : ∀ (b : List (Str × ℤ × List ℤ × Str)) (i : ℕ) (d : StructCounts), 17 ≤ i → (∀ x ∈ b, StructLine x.1 x.2.1 x.2.2.1 x.2.2.2) →
      ∃ d', structLoop i (b.map (·.1)) d = .ok d' ∧ ∀ n hnf c0 c1, let k := b.countP (fun x => x.2.1 = n ∧ x.2.2.1 = hnf ∧ x.2.2.2.count '0' = c0 ∧ x.2.2.2.count '1' = c1)
        structCount d' n hnf (c0, c1) = if k = 0 then structCount d n hnf (c0, c1) else some ((structCount d n hnf (c0, c1)).getD 0 + k) := by
    intro b
    induction b with
    | nil => exact fun i d _ _ => ⟨d, rfl, fun _ _ _ _ => rfl⟩
    | cons x b ih =>
      intro i d hi hx
      obtain ⟨d', e1, e2⟩ := ih (i + 1) (structBump d x.2.1 x.2.2.1 (x.2.2.2.count '0', x.2.2.2.count '1')) (by omega) (fun y hy => hx y (List.mem_cons_of_mem _ hy))
      refine ⟨d', ?_, ?_⟩
      · rw [List.map_cons, structLoop, if_pos (by omega), structVals_line (hx x List.mem_cons_self)]
        exact e1
      · intro n hnf c0 c1
        have e := e2 n hnf c0 c1
        simp only at e ⊢
        rw [e, structBump_count, List.countP_cons]
        by_cases hm : x.2.1 = n ∧ x.2.2.1 = hnf ∧ x.2.2.2.count '0' = c0 ∧ x.2.2.2.count '1' = c1
        · obtain ⟨rfl, rfl, rfl, rfl⟩ := hm
          simp only [decide_true, if_true, and_self, Option.getD_some, Nat.add_one_ne_zero, if_false]
          split
          · rename_i h0
            rw [h0]
          · congr 1; omega
        · have hm' : ¬ (n = x.2.1 ∧ hnf = x.2.2.1 ∧ (c0, c1) = (x.2.2.2.count '0', x.2.2.2.count '1')) := by
            rintro ⟨rfl, rfl, hp⟩
            rw [Prod.mk.injEq] at hp
            exact hm ⟨rfl, rfl, hp.1.symm, hp.2.symm⟩
          have hd0 : decide (x.2.1 = n ∧ x.2.2.1 = hnf ∧ x.2.2.2.count '0' = c0 ∧ x.2.2.2.count '1' = c1) = false := decide_eq_false hm
          rw [if_neg hm', hd0]
          rfl
  obtain ⟨d, e1, e2⟩ := loop body 17 [] le_rfl hb
  refine ⟨d, ?_, ?_⟩
  · unfold readStructEnum
    rw [fileLines_eq _ hnl, skip head 0 _ [] (by omega), hh]
    exact e1
  · intro n hnf c0 c1
    have e := e2 n hnf c0 c1
    simp only at e ⊢
    rw [e]
    have : structCount [] n hnf (c0, c1) = none := rfl
    rw [this]
    simp

/-- a line of struct_enum.out for a cell of two atoms -/
def exStructLine : Str := "   1  1  1  1  1  1  2  8  1  1  2  1  0  1  0  0  2  0  0  1  01".toList

theorem exStructLine_ok : StructLine exStructLine 2 [1, 0, 1, 0, 0, 2] "01".toList :=
  ⟨["1".toList, "1".toList, "1".toList, "1".toList, "1".toList, "1".toList], ["8".toList, "1".toList, "1".toList, "2".toList], ["0".toList, "0".toList, "1".toList], rfl, rfl, rfl, by decide +kernel⟩

/-- two such lines behind seventeen others -/
example : ∃ d, readStructEnum ((List.replicate 17 "#".toList ++ [exStructLine, exStructLine]).flatMap (fun l => l ++ ['\n'])) = .ok d ∧
    structCount d 2 [1, 0, 1, 0, 0, 2] (1, 1) = some 2 ∧ structCount d 2 [1, 0, 1, 0, 0, 2] (2, 0) = none := by
  obtain ⟨d, h1, h2⟩ := C96_struct_counts (List.replicate 17 "#".toList) rfl
    [(exStructLine, 2, [1, 0, 1, 0, 0, 2], "01".toList), (exStructLine, 2, [1, 0, 1, 0, 0, 2], "01".toList)]
    (by
      intro x hx
      simp only [List.mem_cons, List.not_mem_nil, or_false, or_self] at hx
      subst hx
      exact exStructLine_ok)
    (by decide +kernel)
  refine ⟨d, h1, ?_, ?_⟩
  · rw [h2]; decide +kernel
  · rw [h2]; decide +kernel

end Phenum
