import Verif.Model.Text
import Mathlib.Tactic.IntervalCases
import Mathlib.Tactic.Ring
import Mathlib.Tactic.Linarith
/-
Proofs about numbers written as text and words separated by white space.
-/
namespace Phenum

/-! ## Numbers -/

theorem digitChar_facts {d : ℕ} (h : d < 10) : (digitChar d).isDigit = true ∧ (digitChar d).toNat - 48 = d := by
  interval_cases d <;> decide

theorem natStr_lt {n : ℕ} (h : n < 10) : natStr n = [digitChar n] := by rw [natStr, dif_pos h]

theorem natStr_ge {n : ℕ} (h : ¬ n < 10) : natStr n = natStr (n / 10) ++ [digitChar (n % 10)] := by
  rw [natStr, dif_neg h]

theorem natStr_digits (n : ℕ) : ∀ ch ∈ natStr n, ch.isDigit = true := by
  induction n using Nat.strong_induction_on with
  | _ n ih =>
    by_cases h : n < 10
    · rw [natStr_lt h]; simpa using (digitChar_facts h).1
    · rw [natStr_ge h]
      intro ch hch
      rw [List.mem_append, List.mem_singleton] at hch
      rcases hch with hch | rfl
      · exact ih _ (by omega) ch hch
      · exact (digitChar_facts (Nat.mod_lt _ (by norm_num))).1

theorem natStr_ne_nil (n : ℕ) : natStr n ≠ [] := by
  by_cases h : n < 10
  · rw [natStr_lt h]; simp
  · rw [natStr_ge h]; simp

theorem digitsVal_append (a : Str) (ch : Char) : digitsVal (a ++ [ch]) = 10 * digitsVal a + (ch.toNat - 48) := by
  simp [digitsVal, List.foldl_append]

theorem digitsVal_natStr (n : ℕ) : digitsVal (natStr n) = n := by
  induction n using Nat.strong_induction_on with
  | _ n ih =>
    by_cases h : n < 10
    · rw [natStr_lt h]
      have := (digitChar_facts h).2
      simp [digitsVal, this]
    · rw [natStr_ge h, digitsVal_append, ih _ (by omega), (digitChar_facts (Nat.mod_lt n (by norm_num : 0 < 10))).2]
      omega

theorem parseNat_natStr (n : ℕ) : parseNat (natStr n) = .ok n := by
  rw [parseNat, if_pos ⟨natStr_ne_nil n, List.all_eq_true.mpr (natStr_digits n)⟩, digitsVal_natStr]

theorem natStr_inj {m n : ℕ} (h : natStr m = natStr n) : m = n := by
  rw [← digitsVal_natStr m, h, digitsVal_natStr]

theorem isDigit_not_minus {ch : Char} (h : ch.isDigit = true) : ch ≠ '-' ∧ ch ≠ '+' ∧ ch ≠ '#' ∧ ch ≠ ':' ∧ isWs ch = false
    ∧ ch ≠ '\n' ∧ ch ≠ '.' ∧ ch ≠ 'e' := by
  refine ⟨?_, ?_, ?_, ?_, ?_, ?_, ?_, ?_⟩
  any_goals (rintro rfl; revert h; decide)
  unfold isWs
  by_contra hc
  rw [Bool.not_eq_false] at hc
  simp only [Bool.or_eq_true, decide_eq_true_eq] at hc
  rcases hc with ((rfl | rfl) | rfl) | rfl <;> revert h <;> decide

theorem parseInt_digits {l : Str} (hl : l ≠ []) (h : ∀ ch ∈ l, ch.isDigit = true) :
    parseInt l = .ok (digitsVal l : ℤ) := by
  cases l with
  | nil => exact absurd rfl hl
  | cons ch l =>
    have h0 := isDigit_not_minus (h ch List.mem_cons_self)
    have : parseInt (ch :: l) = (parseNat (ch :: l)).map (fun n : ℕ => (n : ℤ)) := by
      unfold parseInt
      split
      · rename_i heq; exact absurd (List.cons.inj heq).1 h0.1
      · rename_i heq; exact absurd (List.cons.inj heq).1 h0.2.1
      · rfl
    rw [this, parseNat, if_pos ⟨hl, List.all_eq_true.mpr h⟩]
    rfl

theorem parseInt_natStr (n : ℕ) : parseInt (natStr n) = .ok (n : ℤ) := by
  rw [parseInt_digits (natStr_ne_nil n) (natStr_digits n), digitsVal_natStr]

theorem parseInt_intStr (z : ℤ) : parseInt (intStr z) = .ok z := by
  cases z with
  | ofNat n => exact parseInt_natStr n
  | negSucc n =>
    show parseInt ('-' :: natStr (n + 1)) = _
    rw [show parseInt ('-' :: natStr (n + 1)) = (parseNat (natStr (n + 1))).map (fun n : ℕ => -(n : ℤ)) from rfl,
      parseNat_natStr]
    show Except.ok (-((n + 1 : ℕ) : ℤ)) = _
    congr 1

theorem intStr_natCast (n : ℕ) : intStr (n : ℤ) = natStr n := rfl

/-- the length of a number -/
theorem natStr_length_le {n k : ℕ} (hk : 0 < k) (h : n < 10 ^ k) : (natStr n).length ≤ k := by
  induction k generalizing n with
  | zero => omega
  | succ k ih =>
    by_cases hn : n < 10
    · rw [natStr_lt hn]; simp
    · rw [natStr_ge hn, List.length_append, List.length_singleton]
      have hk0 : 0 < k := by
        by_contra hk0
        have : k = 0 := by omega
        subst this
        simp at h; omega
      have := ih hk0 (n := n / 10) (by rw [pow_succ] at h; omega)
      omega

theorem pow_le_of_natStr {n : ℕ} (hn : 0 < n) : 10 ^ ((natStr n).length - 1) ≤ n := by
  induction n using Nat.strong_induction_on with
  | _ n ih =>
    by_cases h : n < 10
    · rw [natStr_lt h]; simpa using Nat.succ_le_of_lt hn
    · rw [natStr_ge h, List.length_append, List.length_singleton, Nat.add_sub_cancel]
      have := ih (n / 10) (by omega) (by omega)
      have hpos : 0 < (natStr (n / 10)).length := List.length_pos_of_ne_nil (natStr_ne_nil _)
      obtain ⟨m, hm⟩ : ∃ m, (natStr (n / 10)).length = m + 1 := ⟨_, (Nat.succ_pred_eq_of_pos hpos).symm⟩
      rw [hm] at this ⊢
      rw [Nat.add_sub_cancel] at this
      rw [pow_succ]
      omega

/-! ## Words -/

theorem splitAux_append_ws (x : Str) {w : Char} (hw : isWs w = true) (y cur : Str) :
    splitAux (x ++ w :: y) cur = splitAux x cur ++ splitAux y [] := by
  induction x generalizing cur with
  | nil =>
    simp only [List.nil_append, splitAux, hw, if_true]
    split <;> simp
  | cons ch x ih =>
    simp only [List.cons_append, splitAux]
    split
    · split
      · exact ih []
      · rw [ih []]; rfl
    · exact ih _

theorem split_append_ws (x : Str) {w : Char} (hw : isWs w = true) (y : Str) :
    pySplit (x ++ w :: y) = pySplit x ++ pySplit y := splitAux_append_ws x hw y []

theorem split_nil : pySplit [] = [] := rfl

theorem split_cons_ws {w : Char} (hw : isWs w = true) (y : Str) : pySplit (w :: y) = pySplit y :=
  split_append_ws [] hw y

/-- a word -/
def IsWord (t : Str) : Prop := t ≠ [] ∧ ∀ ch ∈ t, isWs ch = false

theorem splitAux_word (t cur : Str) (h : ∀ ch ∈ t, isWs ch = false) (hne : t ++ cur ≠ []) :
    splitAux t cur = [cur.reverse ++ t] := by
  induction t generalizing cur with
  | nil =>
    simp only [List.nil_append] at hne
    simp [splitAux, hne]
  | cons ch t ih =>
    simp only [splitAux, h ch List.mem_cons_self, Bool.false_eq_true, if_false]
    rw [ih (ch :: cur) (fun c hc => h c (List.mem_cons_of_mem _ hc)) (by simp)]
    simp

theorem split_word {t : Str} (h : IsWord t) : pySplit t = [t] := by
  have := splitAux_word t [] h.2 (by simpa using h.1)
  simpa [pySplit] using this

theorem ws_space : isWs ' ' = true := by decide

theorem split_spaces_append (k : ℕ) (y : Str) : pySplit (List.replicate k ' ' ++ y) = pySplit y := by
  induction k with
  | zero => rfl
  | succ k ih => rw [List.replicate_succ, List.cons_append, split_cons_ws ws_space, ih]

theorem split_append_spaces (x : Str) (k : ℕ) (y : Str) (hk : 0 < k) :
    pySplit (x ++ (List.replicate k ' ' ++ y)) = pySplit x ++ pySplit y := by
  obtain ⟨k, rfl⟩ : ∃ j, k = j + 1 := ⟨k - 1, by omega⟩
  rw [List.replicate_succ, List.cons_append, split_append_ws x ws_space, split_spaces_append]

theorem split_spaces_end (x : Str) (k : ℕ) : pySplit (x ++ List.replicate k ' ') = pySplit x := by
  cases k with
  | zero => simp
  | succ k =>
    have := split_append_spaces x (k + 1) [] (by omega)
    rw [List.append_nil, split_nil, List.append_nil] at this
    exact this

theorem split_padRight (w : ℕ) (s y : Str) (h : s.length < w) : pySplit (padRight w s ++ y) = pySplit s ++ pySplit y := by
  unfold padRight
  rw [List.append_assoc, split_append_spaces _ _ _ (by omega)]

theorem split_padRight_ws (w : ℕ) (s y : Str) {c : Char} (hc : isWs c = true) :
    pySplit (padRight w s ++ c :: y) = pySplit s ++ pySplit y := by
  rw [split_append_ws _ hc, padRight, split_spaces_end]

theorem split_padLeft (w : ℕ) (x s : Str) (h : s.length < w) : pySplit (x ++ padLeft w s) = pySplit x ++ pySplit s := by
  unfold padLeft
  exact split_append_spaces _ _ _ (by omega)

theorem split_padLeft_head (w : ℕ) (s : Str) : pySplit (padLeft w s) = pySplit s := split_spaces_append _ _

theorem split_join {toks : List Str} (h : ∀ t ∈ toks, IsWord t) : pySplit (joinStr [' '] toks) = toks := by
  induction toks with
  | nil => rfl
  | cons t ts ih =>
    cases ts with
    | nil => exact split_word (h t List.mem_cons_self)
    | cons u us =>
      have e : joinStr [' '] (t :: u :: us) = t ++ ' ' :: joinStr [' '] (u :: us) := by
        simp [joinStr]
      rw [e, split_append_ws t ws_space, split_word (h t List.mem_cons_self), ih (fun x hx => h x (List.mem_cons_of_mem _ hx))]
      rfl

theorem natStr_word (n : ℕ) : IsWord (natStr n) :=
  ⟨natStr_ne_nil n, fun ch hch => (isDigit_not_minus (natStr_digits n ch hch)).2.2.2.2.1⟩

/-- the characters of a number -/
theorem intStr_chars (z : ℤ) : ∀ ch ∈ intStr z, ch.isDigit = true ∨ ch = '-' := by
  cases z with
  | ofNat n => intro ch hch; exact Or.inl (natStr_digits n ch hch)
  | negSucc n =>
    intro ch hch
    rcases List.mem_cons.mp hch with h | h
    · exact Or.inr h
    · exact Or.inl (natStr_digits _ ch h)

theorem intStr_word (z : ℤ) : IsWord (intStr z) := by
  constructor
  · cases z with
    | ofNat n => exact natStr_ne_nil n
    | negSucc n => simp [intStr]
  · intro ch hch
    rcases intStr_chars z ch hch with h | rfl
    · exact (isDigit_not_minus h).2.2.2.2.1
    · decide

theorem split_intStr (z : ℤ) : pySplit (intStr z) = [intStr z] := split_word (intStr_word z)
theorem split_natStr (n : ℕ) : pySplit (natStr n) = [natStr n] := split_word (natStr_word n)

/-! ## Lines -/

theorem splitOn_ne_nil (sep : Char) (s : Str) : splitOn sep s ≠ [] := by
  cases s with
  | nil => simp [splitOn]
  | cons ch s =>
    simp only [splitOn]
    split
    · simp
    · split <;> simp

theorem splitOn_line (sep : Char) (l : Str) (h : sep ∉ l) (rest : Str) :
    splitOn sep (l ++ sep :: rest) = l :: splitOn sep rest := by
  induction l with
  | nil => simp [splitOn]
  | cons ch l ih =>
    have hne : ch ≠ sep := fun e => h (e ▸ List.mem_cons_self)
    rw [List.cons_append, splitOn, if_neg hne, ih (fun hh => h (List.mem_cons_of_mem _ hh))]

theorem splitOn_single (sep : Char) (l : Str) (h : sep ∉ l) : splitOn sep l = [l] := by
  induction l with
  | nil => rfl
  | cons ch l ih =>
    have hne : ch ≠ sep := fun e => h (e ▸ List.mem_cons_self)
    rw [splitOn, if_neg hne, ih (fun hh => h (List.mem_cons_of_mem _ hh))]

theorem splitOn_lines (ls : List Str) (h : ∀ l ∈ ls, '\n' ∉ l) :
    splitOn '\n' (ls.flatMap (fun l => l ++ ['\n'])) = ls ++ [[]] := by
  induction ls with
  | nil => rfl
  | cons l ls ih =>
    rw [List.flatMap_cons, List.append_assoc]
    show splitOn '\n' (l ++ '\n' :: (ls.flatMap (fun l => l ++ ['\n']))) = _
    rw [splitOn_line _ _ (h l List.mem_cons_self), ih (fun x hx => h x (List.mem_cons_of_mem _ hx))]
    rfl

theorem fileLines_eq (ls : List Str) (h : ∀ l ∈ ls, '\n' ∉ l) : fileLines (ls.flatMap (fun l => l ++ ['\n'])) = ls := by
  unfold fileLines
  rw [splitOn_lines ls h]
  simp

theorem splitOn_join (sep : Char) {toks : List Str} (hne : toks ≠ []) (h : ∀ t ∈ toks, sep ∉ t) :
    splitOn sep (joinStr [sep] toks) = toks := by
  induction toks with
  | nil => exact absurd rfl hne
  | cons t ts ih =>
    cases ts with
    | nil => exact splitOn_single _ _ (h t List.mem_cons_self)
    | cons u us =>
      have e : joinStr [sep] (t :: u :: us) = t ++ sep :: joinStr [sep] (u :: us) := by simp [joinStr]
      rw [e, splitOn_line _ _ (h t List.mem_cons_self), ih (by simp) (fun x hx => h x (List.mem_cons_of_mem _ hx))]

theorem mapM_parse {α β : Type} (f : β → Py α) (g : α → β) (h : ∀ a, f (g a) = .ok a) (l : List α) :
    (l.map g).mapM f = .ok l := by
  induction l with
  | nil => rfl
  | cons a l ih => rw [List.map_cons, List.mapM_cons, h, ih]; rfl

theorem join_mem {sep : Str} {toks : List Str} {ch : Char} (h : ch ∈ joinStr sep toks) : ch ∈ sep ∨ ∃ t ∈ toks, ch ∈ t := by
  induction toks with
  | nil => simp [joinStr] at h
  | cons t ts ih =>
    cases ts with
    | nil => exact Or.inr ⟨t, List.mem_cons_self, h⟩
    | cons u us =>
      have e : joinStr sep (t :: u :: us) = t ++ sep ++ joinStr sep (u :: us) := by simp [joinStr]
      rw [e, List.mem_append, List.mem_append] at h
      rcases h with (h | h) | h
      · exact Or.inr ⟨t, List.mem_cons_self, h⟩
      · exact Or.inl h
      · rcases ih h with h' | ⟨x, hx, hxc⟩
        · exact Or.inl h'
        · exact Or.inr ⟨x, List.mem_cons_of_mem _ hx, hxc⟩

/-- a line of numbers and spaces -/
def NumLine (l : Str) : Prop := ∀ ch ∈ l, ch.isDigit = true ∨ ch = '-' ∨ ch = ' '

theorem NumLine.append {a b : Str} (ha : NumLine a) (hb : NumLine b) : NumLine (a ++ b) := by
  intro ch h
  rcases List.mem_append.mp h with h | h
  · exact ha ch h
  · exact hb ch h

theorem NumLine.spaces (k : ℕ) : NumLine (List.replicate k ' ') := by
  intro ch h; exact Or.inr (Or.inr (List.eq_of_mem_replicate h))

theorem NumLine.int (z : ℤ) : NumLine (intStr z) := fun ch h => (intStr_chars z ch h).imp id Or.inl
theorem NumLine.nat (n : ℕ) : NumLine (natStr n) := fun ch h => Or.inl (natStr_digits n ch h)

theorem NumLine.padLeft {s : Str} (w : ℕ) (h : NumLine s) : NumLine (padLeft w s) := (NumLine.spaces _).append h
theorem NumLine.padRight {s : Str} (w : ℕ) (h : NumLine s) : NumLine (padRight w s) := h.append (NumLine.spaces _)

theorem NumLine.join {toks : List Str} (h : ∀ t ∈ toks, NumLine t) : NumLine (joinStr [' '] toks) := by
  intro ch hch
  rcases join_mem hch with h' | ⟨t, ht, h'⟩
  · exact Or.inr (Or.inr (List.mem_singleton.mp h'))
  · exact h t ht ch h'

theorem NumLine.flatMap {α : Type} {l : List α} {g : α → Str} (h : ∀ a ∈ l, NumLine (g a)) : NumLine (l.flatMap g) := by
  intro ch hch
  obtain ⟨a, ha, hc⟩ := List.mem_flatMap.mp hch
  exact h a ha ch hc

theorem NumLine.no_newline {l : Str} (h : NumLine l) : '\n' ∉ l := by
  intro hm
  rcases h _ hm with h | h | h <;> revert h <;> decide

theorem NumLine.no_hash {l : Str} (h : NumLine l) : l.takeWhile (· ≠ '#') = l := by
  have hne : ∀ ch ∈ l, decide (ch ≠ '#') = true := by
    intro ch hch
    have : ch ≠ '#' := by
      rintro rfl
      rcases h _ hch with h | h | h <;> revert h <;> decide
    simpa using this
  clear h
  induction l with
  | nil => rfl
  | cons c l ih =>
    rw [List.takeWhile_cons, hne c List.mem_cons_self, if_pos rfl, ih (fun ch hch => hne ch (List.mem_cons_of_mem _ hch))]

theorem checkRows_ok {rows : List (List ℤ)} {m : ℕ} (hlen : ∀ r ∈ rows, r.length = m) : checkRows rows = .ok rows := by
  cases rows with
  | nil => rfl
  | cons r rest =>
    have : (rest.all fun r' => decide (r'.length = r.length)) = true := by
      rw [List.all_eq_true]
      intro r' hr'
      rw [hlen r' (List.mem_cons_of_mem _ hr'), hlen r List.mem_cons_self]
      simp
    rw [checkRows, if_pos this]

/-- what `loadtxt` returns for a file whose lines contain the given rows (comments and blank lines have none) -/
theorem loadtxt_rows {α : Type} (xs : List α) (lineOf : α → Str) (rowOf : α → List ℤ) (h : ∀ x ∈ xs, '\n' ∉ lineOf x)
    (hrow : ∀ x ∈ xs, pySplit ((lineOf x).takeWhile (· ≠ '#')) = (rowOf x).map intStr) :
    loadtxt (xs.flatMap (fun x => lineOf x ++ ['\n'])) =
      checkRows ((xs.map rowOf).filter (fun r => r ≠ [])) := by
  unfold loadtxt
  have hfl : xs.flatMap (fun x => lineOf x ++ ['\n']) = (xs.map lineOf).flatMap (fun l => l ++ ['\n']) := by
    rw [List.flatMap_map]
  rw [hfl, fileLines_eq _ (by intro l hl; obtain ⟨x, hx, rfl⟩ := List.mem_map.mp hl; exact h x hx)]
  have e1 : ((xs.map lineOf).map (fun l => pySplit (l.takeWhile (· ≠ '#')))).filter (fun l => l ≠ []) =
      ((xs.map rowOf).filter (fun r => r ≠ [])).map (fun r => r.map intStr) := by
    rw [List.map_map]
    show (xs.map (fun x => pySplit ((lineOf x).takeWhile (· ≠ '#')))).filter _ = _
    rw [List.map_congr_left hrow, List.filter_map, List.filter_map, List.map_map]
    congr 1
    apply List.filter_congr
    intro l _
    simp
  have e2 : (((xs.map rowOf).filter (fun r => r ≠ [])).map (fun r => r.map intStr)).mapM (fun l => l.mapM parseInt) =
      .ok ((xs.map rowOf).filter (fun r => r ≠ [])) :=
    mapM_parse (fun l : List Str => l.mapM parseInt) (fun r : List ℤ => r.map intStr) (fun r => mapM_parse parseInt intStr parseInt_intStr r) _
  simp only [e1]
  rw [e2]
  rfl

theorem loadtxt_spec {α : Type} (xs : List α) (lineOf : α → Str) (rowOf : α → List ℤ) (m : ℕ) (h : ∀ x ∈ xs, '\n' ∉ lineOf x)
    (hrow : ∀ x ∈ xs, pySplit ((lineOf x).takeWhile (· ≠ '#')) = (rowOf x).map intStr)
    (hm : ∀ x ∈ xs, rowOf x ≠ [] → (rowOf x).length = m) :
    loadtxt (xs.flatMap (fun x => lineOf x ++ ['\n'])) = .ok ((xs.map rowOf).filter (fun r => r ≠ [])) := by
  rw [loadtxt_rows xs lineOf rowOf h hrow]
  have hlen : ∀ r ∈ (xs.map rowOf).filter (fun r => r ≠ []), r.length = m := by
    intro r hr
    rw [List.mem_filter, List.mem_map] at hr
    obtain ⟨⟨l, hl, rfl⟩, hne⟩ := hr
    exact hm l hl (by simpa using hne)
  exact checkRows_ok hlen

end Phenum
