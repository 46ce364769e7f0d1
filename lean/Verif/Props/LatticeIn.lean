import Mathlib.Data.List.TakeWhile
import Verif.Model.LatticeIn
import Verif.Proof.MakeStr
import Verif.Proof.EnumFile
/-
C59: the file lattice.in.
-/
namespace Phenum
open Spec

/-! ## Comments and blank lines -/

/-- A line whose first character that is not blank is `#`. -/
def Spec.IsComment (l : Str) : Prop := ∃ t, strip l = '#' :: t

/-- A line without any character that is not blank. -/
def Spec.IsBlankLine (l : Str) : Prop := ∀ c ∈ l, isWs c = true

/-- The text with the given lines. -/
def Spec.textOf (ls : List Str) : Str := ls.flatMap (fun l => l ++ ['\n'])

theorem dataLines_cons (l : Str) (ls : List Str) : dataLines (l :: ls) = (match strip l with
    | [] => .error .indexError
    | ch :: _ => do
      let r ← dataLines ls
      .ok (if ch = '#' then r else l :: r)) := rfl

theorem dataLines_append (A B : List Str) : dataLines (A ++ B) = (do let a ← dataLines A; let b ← dataLines B; pure (a ++ b)) := by
  induction A with
  | nil =>
    show dataLines B = _
    cases dataLines B <;> rfl
  | cons l A ih =>
    rw [List.cons_append, dataLines_cons, dataLines_cons]
    cases hs : strip l with
    | nil => rfl
    | cons c t =>
      simp only [ih]
      cases dataLines A with
      | error e => rfl
      | ok a =>
        cases dataLines B with
        | error e => rfl
        | ok b =>
          by_cases hc : c = '#'
          · simp [hc, bind, Except.bind, pure, Except.pure]
          · simp [hc, bind, Except.bind, pure, Except.pure]

/-- C59. Comment lines are ignored wherever they stand. -/
theorem C59_comments (A B : List Str) (c : Str) (hA : ∀ l ∈ A ++ B, '\n' ∉ l) (hc : IsComment c) (hn : '\n' ∉ c) :
    readLattice (textOf (A ++ c :: B)) = readLattice (textOf (A ++ B)) := by
  unfold textOf readLattice
  rw [fileLines_eq _ (by
    intro l hl
    rcases List.mem_append.mp hl with h | h
    · exact hA l (by simp [h])
    · rcases List.mem_cons.mp h with rfl | h
      · exact hn
      · exact hA l (by simp [h])), fileLines_eq _ hA]
  have : dataLines (A ++ c :: B) = dataLines (A ++ B) := by
    rw [dataLines_append, dataLines_append]
    congr 1
    funext a
    have : dataLines (c :: B) = dataLines B := by
      obtain ⟨t, ht⟩ := hc
      conv_lhs => unfold dataLines
      rw [ht]
      simp only [if_true]
      cases dataLines B <;> rfl
    rw [this]
  rw [this]

theorem strip_blank {l : Str} (h : IsBlankLine l) : strip l = [] := by
  unfold strip rstrip
  have : l.reverse.dropWhile isWs = [] := by
    rw [List.dropWhile_eq_nil_iff]
    intro c hc
    exact h c (List.mem_reverse.mp hc)
  rw [this]
  rfl

theorem dataLines_err {ls : List Str} {e : PyErr} (h : dataLines ls = .error e) : e = .indexError := by
  induction ls with
  | nil => cases h
  | cons l ls ih =>
    unfold dataLines at h
    cases hs : strip l with
    | nil => rw [hs] at h; injection h with h; exact h.symm
    | cons c t =>
      rw [hs] at h
      cases hd : dataLines ls with
      | error e' =>
        rw [hd] at h
        injection h with h
        subst h
        exact ih hd
      | ok r => rw [hd] at h; cases h

/-- C59. A blank line anywhere, for instance at the end, makes the reading fail with IndexError. -/
theorem C59_blank_line (A B : List Str) (c : Str) (hA : ∀ l ∈ A ++ B, '\n' ∉ l) (hc : IsBlankLine c) (hn : '\n' ∉ c) :
    readLattice (textOf (A ++ c :: B)) = .error .indexError := by
  unfold textOf readLattice
  rw [fileLines_eq _ (by
    intro l hl
    rcases List.mem_append.mp hl with h | h
    · exact hA l (by simp [h])
    · rcases List.mem_cons.mp h with rfl | h
      · exact hn
      · exact hA l (by simp [h]))]
  have : dataLines (A ++ c :: B) = .error .indexError := by
    rw [dataLines_append]
    cases hd : dataLines A with
    | error e => rw [dataLines_err hd]; rfl
    | ok a =>
      have : dataLines (c :: B) = .error .indexError := by
        unfold dataLines
        rw [strip_blank hc]
      rw [this]
      rfl
  rw [this]
  rfl

/-! ## A file that is written in the usual way -/

/-- A line of numbers. -/
def Spec.numberLine (v : List ℚ) : Str := joinStr [' '] (v.map fmt7)

/-- The text of a file lattice.in with the given contents: numbers with seven decimals, separated by blanks. -/
def Spec.latticeText (lat : LatticeIn) : Str := textOf (
  [joinStr [' '] (lat.sizes.map intStr), (if lat.bulk then "bulk".toList else "surface".toList)] ++ lat.latVecs.map numberLine ++
  [intStr lat.nspecies, natStr lat.basisVecs.length] ++ lat.basisVecs.map numberLine ++
  (if lat.restricted then ["T".toList, (if lat.arrows then "T".toList else "F".toList)] ++ lat.concs.map numberLine else ["F".toList]))

/-- Contents that can be written: three lattice vectors, at least one size, no vectors or restrictions without numbers, and nothing about arrows unless
there are restrictions. -/
structure Spec.Writable (lat : LatticeIn) : Prop where
  sizes : lat.sizes ≠ []
  vecs : lat.latVecs.length = 3
  rows : ∀ v ∈ lat.latVecs ++ lat.basisVecs ++ lat.concs, v ≠ []
  free : lat.restricted = false → lat.arrows = false ∧ lat.concs = []

/-- The contents with all numbers rounded to seven decimals. -/
def Spec.rounded (lat : LatticeIn) : LatticeIn :=
  { lat with latVecs := lat.latVecs.map (fun v => v.map read7), basisVecs := lat.basisVecs.map (fun v => v.map read7), concs := lat.concs.map (fun v => v.map read7) }

theorem strip_head {c : Char} {t : Str} (h : isWs c = false) : ∃ t', strip (c :: t) = c :: t' := by
  have h1 : ∃ t', rstrip (c :: t) = c :: t' := by
    unfold rstrip
    rw [List.reverse_cons, List.dropWhile_append]
    split
    · exact ⟨[], by simp [h]⟩
    · exact ⟨(t.reverse.dropWhile isWs).reverse, by simp⟩
  obtain ⟨t', ht⟩ := h1
  unfold strip
  rw [ht, List.dropWhile_cons_of_neg (by simp [h])]
  exact ⟨t', rfl⟩

theorem join_head {w : Str} {c : Char} {t : Str} (h : w = c :: t) (ws : List Str) : ∃ t', joinStr [' '] (w :: ws) = c :: t' := by
  subst h
  cases ws with
  | nil => exact ⟨t, rfl⟩
  | cons a l => exact ⟨_, rfl⟩

theorem dataLines_ok {ls : List Str} (h : ∀ l ∈ ls, ∃ c t, l = c :: t ∧ isWs c = false ∧ c ≠ '#') : dataLines ls = .ok ls := by
  induction ls with
  | nil => rfl
  | cons l ls ih =>
    obtain ⟨c, t, rfl, hc, hh⟩ := h l (by simp)
    obtain ⟨t', ht⟩ := strip_head (t := t) hc
    unfold dataLines
    rw [ht, ih (fun l hl => h l (by simp [hl]))]
    simp [hh, bind, Except.bind]

theorem fmt7_head (x : ℚ) : ∃ c t, fmt7 x = c :: t ∧ isWs c = false ∧ c ≠ '#' := by
  have hw := fmt7_word x
  cases hx : fmt7 x with
  | nil => exact absurd hx hw.1
  | cons c t =>
    have hc := fmt7_chars x c (by rw [hx]; simp)
    refine ⟨c, t, rfl, hw.2 c (by rw [hx]; simp), ?_⟩
    rcases hc with h | h | h
    · exact (isDigit_not_minus h).2.2.1
    · rw [h]; decide
    · rw [h]; decide

theorem intStr_head (z : ℤ) : ∃ c t, intStr z = c :: t ∧ isWs c = false ∧ c ≠ '#' := by
  have hw := intStr_word z
  cases hx : intStr z with
  | nil => exact absurd hx hw.1
  | cons c t =>
    have hc := intStr_chars z c (by rw [hx]; simp)
    refine ⟨c, t, rfl, hw.2 c (by rw [hx]; simp), ?_⟩
    rcases hc with h | h
    · exact (isDigit_not_minus h).2.2.1
    · rw [h]; decide

theorem numberLine_head {v : List ℚ} (hv : v ≠ []) : ∃ c t, numberLine v = c :: t ∧ isWs c = false ∧ c ≠ '#' := by
  cases v with
  | nil => exact absurd rfl hv
  | cons x v =>
    obtain ⟨c, t, h1, h2, h3⟩ := fmt7_head x
    obtain ⟨t', h4⟩ := join_head h1 (v.map fmt7)
    exact ⟨c, t', h4, h2, h3⟩

theorem floatsOf_numberLine (v : List ℚ) : floatsOf (numberLine v) = .ok (v.map read7) := by
  unfold floatsOf numberLine
  rw [split_join (by intro t ht; obtain ⟨x, -, rfl⟩ := List.mem_map.mp ht; exact fmt7_word x)]
  induction v with
  | nil => rfl
  | cons x v ih =>
    rw [List.map_cons, List.mapM_cons, parseFloat_fmt7, ih]
    rfl

theorem mapM_numberLine (l : List (List ℚ)) : (l.map numberLine).mapM floatsOf = .ok (l.map (fun v => v.map read7)) := by
  induction l with
  | nil => rfl
  | cons v l ih =>
    rw [List.map_cons, List.mapM_cons, floatsOf_numberLine, ih]
    rfl

theorem numberLine_newline (v : List ℚ) : '\n' ∉ numberLine v := by
  intro h
  rcases join_mem h with h | ⟨t, ht, h⟩
  · revert h; decide
  · obtain ⟨x, -, rfl⟩ := List.mem_map.mp ht
    have := (fmt7_word x).2 _ h
    revert this; decide

theorem readSizes_join {l : List ℤ} (h : l ≠ []) : readSizes (joinStr [' '] (l.map intStr)) = .ok l := by
  unfold readSizes
  rw [splitOn_join ' ' (by simpa using h) (by
    intro t ht hm
    obtain ⟨x, -, rfl⟩ := List.mem_map.mp ht
    have := (intStr_word x).2 _ hm
    revert this; decide)]
  clear h
  induction l with
  | nil => rfl
  | cons x l ih =>
    rw [List.map_cons, List.mapM_cons, strip_word (intStr_word x), parseInt_intStr, ih]
    rfl

/-- C59. Every file that is written in the usual way is read correctly: `read_lattice` returns what was written, the numbers rounded to
the seven decimals written. -/
theorem C59_round_trip (lat : LatticeIn) (h : Writable lat) : readLattice (latticeText lat) = .ok (rounded lat) := by
  obtain ⟨v0, v1, v2, hv⟩ := List.length_eq_three.mp h.vecs
  set tail : List Str := (if lat.restricted then ["T".toList, (if lat.arrows then "T".toList else "F".toList)] ++ lat.concs.map numberLine else ["F".toList]) with htail
  set lines : List Str := [joinStr [' '] (lat.sizes.map intStr), (if lat.bulk then "bulk".toList else "surface".toList)] ++ lat.latVecs.map numberLine ++
    [intStr lat.nspecies, natStr lat.basisVecs.length] ++ lat.basisVecs.map numberLine ++ tail with hlines
  have hshape : lines = joinStr [' '] (lat.sizes.map intStr) :: (if lat.bulk then "bulk".toList else "surface".toList) :: numberLine v0 :: numberLine v1 :: numberLine v2 ::
      intStr lat.nspecies :: natStr lat.basisVecs.length :: (lat.basisVecs.map numberLine ++ tail) := by
    rw [hlines, hv]; simp
  have htl : ∀ l ∈ tail, '\n' ∉ l ∧ ∃ c t, l = c :: t ∧ isWs c = false ∧ c ≠ '#' := by
    intro l hl
    rw [htail] at hl
    by_cases hr : lat.restricted = true
    · rw [if_pos hr] at hl
      rcases List.mem_append.mp hl with hl | hl
      · rcases List.mem_cons.mp hl with rfl | hl
        · exact ⟨by decide, 'T', [], rfl, by decide, by decide⟩
        · rw [List.mem_singleton] at hl
          subst hl
          by_cases ha : lat.arrows = true
          · rw [if_pos ha]; exact ⟨by decide, 'T', [], rfl, by decide, by decide⟩
          · rw [if_neg ha]; exact ⟨by decide, 'F', [], rfl, by decide, by decide⟩
      · obtain ⟨v, hv, rfl⟩ := List.mem_map.mp hl
        exact ⟨numberLine_newline v, numberLine_head (h.rows v (by simp [hv]))⟩
    · rw [if_neg hr, List.mem_singleton] at hl
      subst hl
      exact ⟨by decide, 'F', [], rfl, by decide, by decide⟩
  have hall : ∀ l ∈ lines, '\n' ∉ l ∧ ∃ c t, l = c :: t ∧ isWs c = false ∧ c ≠ '#' := by
    intro l hl
    rw [hshape] at hl
    have hnw : ∀ {t : Str}, IsWord t → '\n' ∉ t := by
      intro t ht hm
      have := ht.2 _ hm
      revert this; decide
    rcases List.mem_cons.mp hl with rfl | hl
    · refine ⟨?_, ?_⟩
      · intro hm
        rcases join_mem hm with hm | ⟨t, ht, hm⟩
        · revert hm; decide
        · obtain ⟨x, -, rfl⟩ := List.mem_map.mp ht
          exact hnw (intStr_word x) hm
      · cases hs : lat.sizes with
        | nil => exact absurd hs h.sizes
        | cons x l =>
          obtain ⟨c, t, h1, h2, h3⟩ := intStr_head x
          obtain ⟨t', h4⟩ := join_head h1 (l.map intStr)
          exact ⟨c, t', h4, h2, h3⟩
    rcases List.mem_cons.mp hl with rfl | hl
    · by_cases hb : lat.bulk = true
      · rw [if_pos hb]; exact ⟨by decide, 'b', "ulk".toList, by decide, by decide, by decide⟩
      · rw [if_neg hb]; exact ⟨by decide, 's', "urface".toList, by decide, by decide, by decide⟩
    rcases List.mem_cons.mp hl with rfl | hl
    · exact ⟨numberLine_newline _, numberLine_head (h.rows _ (by simp [hv]))⟩
    rcases List.mem_cons.mp hl with rfl | hl
    · exact ⟨numberLine_newline _, numberLine_head (h.rows _ (by simp [hv]))⟩
    rcases List.mem_cons.mp hl with rfl | hl
    · exact ⟨numberLine_newline _, numberLine_head (h.rows _ (by simp [hv]))⟩
    rcases List.mem_cons.mp hl with rfl | hl
    · exact ⟨hnw (intStr_word _), intStr_head _⟩
    rcases List.mem_cons.mp hl with rfl | hl
    · exact ⟨hnw (natStr_word _), intStr_head (lat.basisVecs.length : ℤ)⟩
    rcases List.mem_append.mp hl with hl | hl
    · obtain ⟨v, hv, rfl⟩ := List.mem_map.mp hl
      exact ⟨numberLine_newline v, numberLine_head (h.rows v (by simp [hv]))⟩
    · exact htl l hl
  have hdrop : (lat.basisVecs.map numberLine ++ tail).drop lat.basisVecs.length = tail := by
    rw [List.drop_append_of_le_length (by simp), List.drop_eq_nil_of_le (by simp), List.nil_append]
  have htake : (lat.basisVecs.map numberLine ++ tail).take lat.basisVecs.length = lat.basisVecs.map numberLine := by
    rw [List.take_append_of_le_length (by simp), List.take_of_length_le (by simp)]
  have htail7 : lines.drop (7 + lat.basisVecs.length) = tail := by
    rw [hshape, add_comm]
    exact hdrop
  have hget : ∀ i, pyGet lines (7 + lat.basisVecs.length + i) = pyGet tail i := by
    intro i
    rw [← htail7]
    unfold pyGet
    rw [List.getElem?_drop]
  have hrest : readRestrictions lines lat.basisVecs.length = .ok (lat.restricted, lat.arrows, lat.concs.map (fun v => v.map read7)) := by
    unfold readRestrictions
    have hd : lines.drop (7 + lat.basisVecs.length + 2) = tail.drop 2 := by rw [← htail7, List.drop_drop]
    have h0 := hget 0
    rw [add_zero] at h0
    rw [h0, hget 1, hd, htail]
    cases hr : lat.restricted with
    | false =>
      obtain ⟨a1, a2⟩ := h.free hr
      rw [a1, a2]
      rfl
    | true =>
      cases ha : lat.arrows with
      | false =>
        show (do let concs ← (lat.concs.map numberLine).mapM floatsOf; (.ok (true, false, concs) : Py _)) = _
        rw [mapM_numberLine]
        rfl
      | true =>
        show (do let concs ← (lat.concs.map numberLine).mapM floatsOf; (.ok (true, true, concs) : Py _)) = _
        rw [mapM_numberLine]
        rfl
  have hbulk : isBulk (if lat.bulk then "bulk".toList else "surface".toList) = lat.bulk := by
    cases lat.bulk <;> decide
  unfold readLattice latticeText textOf
  rw [← htail, ← hlines, fileLines_eq _ (fun l hl => (hall l hl).1), dataLines_ok (fun l hl => (hall l hl).2)]
  simp only [bind, Except.bind]
  rw [hshape] at hrest ⊢
  simp only [pyGet, List.getElem?_cons_zero, List.getElem?_cons_succ, List.drop_succ_cons, List.drop_zero, List.take_succ_cons, List.take_zero]
  rw [readSizes_join h.sizes]
  simp only
  rw [show [numberLine v0, numberLine v1, numberLine v2].mapM floatsOf = .ok ([v0, v1, v2].map (fun v => v.map read7)) from mapM_numberLine [v0, v1, v2]]
  simp only
  rw [strip_word (intStr_word _), parseInt_intStr]
  simp only
  rw [strip_word (natStr_word _), parseInt_natStr]
  simp only [Int.toNat_natCast]
  rw [htake, mapM_numberLine]
  simp only
  rw [hrest]
  simp only [hbulk, ← hv]
  rfl

/-! ## Examples -/

/-- The contents of a file for the face-centred cubic lattice with two species, restricted concentrations and arrows. -/
def exLat : LatticeIn where
  bulk := true
  sizes := [1, 4]
  latVecs := [[0, 1/2, 1/2], [1/2, 0, 1/2], [1/2, 1/2, 0]]
  nspecies := 2
  basisVecs := [[0, 0, 0]]
  restricted := true
  arrows := true
  concs := [[0, 4, 4, 1/2], [0, 4, 4, 0]]

/-- It can be written, and all of it is read back. -/
example : Writable exLat ∧ readLattice (latticeText exLat) = .ok exLat := by
  have h : Writable exLat := ⟨by decide, rfl, by decide, by decide⟩
  refine ⟨h, ?_⟩
  rw [C59_round_trip exLat h]
  decide +kernel

/-- A comment and a line of blanks. -/
example : IsComment "  # sizes".toList ∧ IsBlankLine "  ".toList := ⟨⟨" sizes".toList, by decide +kernel⟩, by unfold IsBlankLine; decide +kernel⟩

theorem blank_of_strip {l : Str} (h : strip l = []) : IsBlankLine l := by
  unfold strip rstrip at h
  rw [List.dropWhile_eq_nil_iff] at h
  intro c hc
  by_contra hb
  have hne : l.reverse.dropWhile isWs ≠ [] := by
    rw [Ne, List.dropWhile_eq_nil_iff]
    exact fun hx => hb (hx c (List.mem_reverse.mpr hc))
  have h1 := List.head_dropWhile_not isWs hne
  have h2 := h _ (List.mem_reverse.mpr (List.head_mem hne))
  rw [h1] at h2
  cases h2

theorem splitOn_sizes {ns : List ℤ} (h : ns ≠ []) (b : Str) :
    splitOn ' ' (joinStr [' '] (ns.map intStr) ++ ' ' :: ' ' :: b) = ns.map intStr ++ [] :: splitOn ' ' b := by
  have hw : ∀ z : ℤ, ' ' ∉ intStr z := by
    intro z hm
    have := (intStr_word z).2 _ hm
    revert this; decide
  induction ns with
  | nil => exact absurd rfl h
  | cons z ns ih =>
    cases ns with
    | nil =>
      show splitOn ' ' (intStr z ++ ' ' :: ' ' :: b) = _
      rw [splitOn_line _ _ (hw z)]
      rfl
    | cons y ns =>
      have e : joinStr [' '] ((z :: y :: ns).map intStr) ++ ' ' :: ' ' :: b = intStr z ++ ' ' :: (joinStr [' '] ((y :: ns).map intStr) ++ ' ' :: ' ' :: b) := by
        simp [joinStr]
      rw [e, splitOn_line _ _ (hw z), ih (by simp)]
      rfl

/-- C59. The sizes must be separated by single blanks: if the first line has two blanks in a row, ValueError is raised, whatever
follows (as long as there is no blank line). -/
theorem C59_double_blank (ns : List ℤ) (b : Str) (ls : List Str) (hs : ns ≠ []) (hb : '\n' ∉ b) (hl : ∀ l ∈ ls, '\n' ∉ l ∧ ¬ IsBlankLine l) :
    readLattice (textOf ((joinStr [' '] (ns.map intStr) ++ ' ' :: ' ' :: b) :: ls)) = .error .valueError := by
  have hdl : ∃ r, dataLines ls = .ok r := by
    induction ls with
    | nil => exact ⟨[], rfl⟩
    | cons l ls ih =>
      obtain ⟨r, hr⟩ := ih (fun l h => hl l (by simp [h]))
      rw [dataLines_cons, hr]
      cases hx : strip l with
      | nil => exact absurd (blank_of_strip hx) (hl l (by simp)).2
      | cons c t => exact ⟨_, rfl⟩
  obtain ⟨r, hr⟩ := hdl
  have hnl : '\n' ∉ joinStr [' '] (ns.map intStr) := by
    intro hm
    rcases join_mem hm with hm | ⟨t, ht, hm⟩
    · revert hm; decide
    · obtain ⟨x, -, rfl⟩ := List.mem_map.mp ht
      have := (intStr_word x).2 _ hm
      revert this; decide
  have hh : ∃ c t, joinStr [' '] (ns.map intStr) ++ ' ' :: ' ' :: b = c :: t ∧ isWs c = false ∧ c ≠ '#' := by
    cases ns with
    | nil => exact absurd rfl hs
    | cons x l =>
      obtain ⟨c, t, h1, h2, h3⟩ := intStr_head x
      obtain ⟨t', h4⟩ := join_head h1 (l.map intStr)
      refine ⟨c, t' ++ ' ' :: ' ' :: b, ?_, h2, h3⟩
      rw [List.map_cons, h4]
      rfl
  have hr0 : readSizes (joinStr [' '] (ns.map intStr) ++ ' ' :: ' ' :: b) = .error .valueError := by
    unfold readSizes
    rw [splitOn_sizes hs]
    clear hh hnl hs hr hl
    induction ns with
    | nil => rfl
    | cons z ns ih =>
      rw [List.map_cons, List.cons_append, List.mapM_cons, strip_word (intStr_word z), parseInt_intStr, ih]
      rfl
  obtain ⟨c, t, h1, h2, h3⟩ := hh
  unfold readLattice textOf
  rw [fileLines_eq _ (by
    intro l h
    rcases List.mem_cons.mp h with rfl | h
    · simp [hnl, hb]
    · exact (hl l h).1), dataLines_cons, hr]
  obtain ⟨t', ht⟩ := strip_head (t := t) h2
  rw [h1] at hr0 ⊢
  rw [ht]
  simp only [bind, Except.bind, h3, if_false, pyGet, List.getElem?_cons_zero, hr0]

/-- For instance if the first line is `1  4`. -/
example (ls : List Str) (hl : ∀ l ∈ ls, '\n' ∉ l ∧ ¬ IsBlankLine l) : readLattice (textOf ("1  4".toList :: ls)) = .error .valueError := by
  have e : "1  4".toList = joinStr [' '] ([1].map intStr) ++ ' ' :: ' ' :: ['4'] := by decide +kernel
  rw [e]
  exact C59_double_blank [1] ['4'] ls (by simp) (by decide) hl

end Phenum
