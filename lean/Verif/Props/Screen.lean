import Verif.Model.Screen
import Verif.Props.ProgramSome
/-
What the user sees: the table of a distribution (C80).
-/
namespace Phenum
open Spec

/-! ## specification -/

/-- The cells of the lines of a table, without the blanks around them: the text is cut into lines and the lines at the bars. -/
def Spec.shownCells (text : Str) : List (List Str) :=
  ((splitOn '\n' text).dropLast).map (fun line => (splitOn '|' line).map strip)

/-- The cells for a type of structures with its number: the size, the numbers of the shape, the composition and the number; the line ends with a bar. -/
def Spec.rowCells (p : DKey × ℕ) : List Str :=
  [natStr p.1.1, joinStr [' '] ((p.1.2.1.getD []).map intStr), joinStr [':'] ((p.1.2.2.getD []).map natStr), natStr p.2, []]

/-- The order of the lines: by size, then by number, then by shape. -/
def Spec.ShownBefore (p q : DKey × ℕ) : Prop :=
  p.1.1 < q.1.1 ∨ (p.1.1 = q.1.1 ∧ (p.2 < q.2 ∨ (p.2 = q.2 ∧ ∀ x y, p.1.2.1 = some x → q.1.2.1 = some y → x ≤ y)))

/-- The type of a distribution: by shape, by composition, by both or by neither. -/
def Spec.KeyOfKind (ft : Ftype) (k : DKey) : Prop :=
  (k.2.1.isSome = true ↔ ft = .all ∨ ft = .shape) ∧ (k.2.2.isSome = true ↔ ft = .all ∨ ft = .conc)

/-- The word of the command line for a kind of distribution. -/
def Spec.kindWord : Ftype → Str
  | .all => "all".toList
  | .shape => "shape".toList
  | .conc => "conc".toList
  | .size => "size".toList

/-- The number of structures of the type `key` among supercells `K` with compositions, `cnt` being the number for each. -/
def Spec.structuresOf (ft : Ftype) (K : List (ℕ × M3 ℤ × Conc)) (cnt : ℕ × M3 ℤ × Conc → ℕ) (key : DKey) : ℕ :=
  ((K.filter (fun x => decide (typeOf ft (x.1, hnfNumbers x.2.1, x.2.2, 0) = key))).map cnt).sum

/-- `enumeration.py -distribution KIND NUMBER -lattice lattice`, with or without `-savedist`; the number is a number or `all`. -/
structure DistCall (a : Args) (lattice : Str) (ft : Ftype) (number : Option ℕ) : Prop where
  polya : a.polya = false
  enum : a.enum = false
  lattice : a.lattice = lattice
  input : a.input = none
  outfile : a.outfile = none
  distribution : a.distribution = some [kindWord ft, (number.map natStr).getD "all".toList]
  sizes : a.sizes = none
  accept : a.accept = none
  filter : a.filter = none

/-- What is shown if the numbers of structures of the types are `avail`, `total` in all: for `all`, or a number of at least `total`, each type that has
structures once with its number. For a smaller number: types that have structures, each once, with a positive number that is at most four times the share rounded up; in
total the numbers miss the number wanted by less than the number of types and exceed it by less than the largest share rounded up; if all shares are whole numbers,
each type with its share. -/
structure Spec.NumbersShown (avail : DKey → ℕ) (total : ℕ) (number : Option ℕ) (rows : List (DKey × ℕ)) : Prop where
  once : (rows.map (·.1)).Nodup
  full : (∀ n, number = some n → total ≤ n) → (∀ key v, (key, v) ∈ rows ↔ v = avail key ∧ 0 < v) ∧ (rows.map (·.2)).sum = total
  part : ∀ n, number = some n → n < total → (∀ p ∈ rows, 0 < p.2 ∧ 0 < avail p.1 ∧ p.2 ≤ 4 * ⌈(n : ℚ) * avail p.1 / total⌉₊) ∧
    (∀ types : List DKey, (∀ k, 0 < avail k → k ∈ types) → n ≤ (rows.map (·.2)).sum + (types.length - 1)) ∧
    (∀ M : ℕ, (∀ k, avail k ≤ M) → (rows.map (·.2)).sum ≤ (n - 1) + ⌈(n : ℚ) * M / total⌉₊)
  whole : ∀ n, number = some n → 0 < n → n ≤ total → (∀ key, total ∣ n * avail key) →
    (∀ key v, (key, v) ∈ rows ↔ v * total = n * avail key ∧ 0 < v) ∧ (rows.map (·.2)).sum = n

/-- The call in a directory with the file lattice.in and no results of earlier runs, whatever the order of the directory listing and the random numbers: the program
finishes; it shows the message about the restrictions in lattice.in and then the table with the numbers of structures of the types; the polya.out files are written, enum.in
only with `-savedist`, and nothing else is changed. -/
def Spec.RunShows (tol : Tol) (text : Str) (lat : LatticeIn) (lo hi : ℕ) (C : ℕ → List Conc) (U : ℕ → List (M3 ℤ)) (cnt : ℕ → M3 ℤ → Conc → ℕ) : Prop :=
  ∀ (w : World) (a : Args) (lattice : Str) (d : Dir) (ft : Ftype) (number : Option ℕ), (∀ l, (w.listdir l).Perm l) → (∀ i, 0 ≤ w.draws i) → ft ≠ .all →
      DistCall a lattice ft number → FreshDir lattice text d →
    ∃ (K : List (ℕ × M3 ℤ × Conc)) (d' : Dir) (pieces : List Piece) (table : Str) (rows : List (DKey × ℕ)),
      K.Nodup ∧ (∀ n u c, (n, u, c) ∈ K ↔ lo ≤ n ∧ n ≤ hi ∧ u ∈ U n ∧ c ∈ C n) ∧
      scriptShown {} w tol a d = (pure (d', pieces) : Run _) ∧
      screenText pieces = (if lat.restricted = false then "No concentration restrictions given.\n".toList else
        "Concentrations are being restricted.\n".toList ++ if lat.arrows = false then "No displacement directions are included\n".toList else []) ++ table ∧
      shownCells table = rows.map rowCells ∧ rows.Pairwise ShownBefore ∧ (∀ p ∈ rows, KeyOfKind ft p.1) ∧
      NumbersShown (structuresOf ft K (fun x => cnt x.1 x.2.1 x.2.2)) ((K.map (fun x => cnt x.1 x.2.1 x.2.2)).sum) number rows ∧
      (∀ n, lo ≤ n → n ≤ hi → dictGet d' ("polya.out.".toList ++ natStr n) = some (writePolya (countTable n (U n) (C n) (cnt n)))) ∧
      ∀ f, (a.savedist = true → f ≠ "enum.in".toList) → (∀ n, lo ≤ n → n ≤ hi → f ≠ "polya.out.".toList ++ natStr n) → dictGet d' f = dictGet d f

/-! ## one line -/

theorem strip_pad {s : Str} (h : s = [] ∨ (∃ c, s.head? = some c ∧ isWs c = false) ∧ ∃ c, s.getLast? = some c ∧ isWs c = false) (k : ℕ) :
    strip (' ' :: (s ++ List.replicate k ' ')) = s := by
  have hrep : ∀ n, (List.replicate n ' ').dropWhile isWs = [] := by
    intro n
    induction n with
    | zero => rfl
    | succ n ih => rw [List.replicate_succ, List.dropWhile_cons_of_pos (by decide), ih]
  have hr : ∀ t : Str, rstrip (t ++ List.replicate k ' ') = rstrip t := by
    intro t
    unfold rstrip
    rw [List.reverse_append, List.reverse_replicate]
    congr 1
    induction k with
    | zero => rfl
    | succ n ih => rw [List.replicate_succ, List.cons_append, List.dropWhile_cons_of_pos (by decide), ih]
  unfold strip
  rw [← List.cons_append, hr]
  rcases h with rfl | ⟨⟨c, h1, h2⟩, c', h3, h4⟩
  · decide
  · rw [rstrip_of_last (c := c') (by rw [List.getLast?_cons, h3]; rfl) h4, List.dropWhile_cons_of_pos (by decide)]
    cases s with
    | nil => cases h1
    | cons x l =>
      simp only [List.head?_cons, Option.some.injEq] at h1
      subst h1
      rw [List.dropWhile_cons_of_neg (by simp [h2])]

theorem join_ends {sep : Str} {l : List Str} (hl : l ≠ []) (h : ∀ t ∈ l, IsWord t) :
    (∃ c, (joinStr sep l).head? = some c ∧ isWs c = false) ∧ ∃ c, (joinStr sep l).getLast? = some c ∧ isWs c = false := by
  induction l with
  | nil => exact absurd rfl hl
  | cons w ws ih =>
    obtain ⟨w1, w2⟩ := h w List.mem_cons_self
    have hh : ∃ c, w.head? = some c ∧ isWs c = false := by
      obtain ⟨c, t, rfl⟩ := List.exists_cons_of_ne_nil w1
      exact ⟨c, rfl, w2 c List.mem_cons_self⟩
    cases ws with
    | nil =>
      refine ⟨hh, w.getLast w1, List.getLast?_eq_some_getLast w1, w2 _ (List.getLast_mem w1)⟩
    | cons v vs =>
      obtain ⟨-, c, h1, h2⟩ := ih (by simp) (fun t ht => h t (List.mem_cons_of_mem _ ht))
      have e : joinStr sep (w :: v :: vs) = w ++ sep ++ joinStr sep (v :: vs) := rfl
      refine ⟨?_, c, ?_, h2⟩
      · obtain ⟨c, h1, h2⟩ := hh
        refine ⟨c, ?_, h2⟩
        rw [e, List.append_assoc, List.head?_append, h1]; rfl
      · rw [e, List.getLast?_append, h1]; rfl

theorem join_strip_ok {sep : Str} {l : List Str} (h : ∀ t ∈ l, IsWord t) :
    joinStr sep l = [] ∨ (∃ c, (joinStr sep l).head? = some c ∧ isWs c = false) ∧ ∃ c, (joinStr sep l).getLast? = some c ∧ isWs c = false := by
  cases l with
  | nil => exact Or.inl rfl
  | cons w ws => exact Or.inr (join_ends (by simp) h)

/-- the fields of a line, with the blanks -/
def lineFields (p : DKey × ℕ) : List Str :=
  [' ' :: (natStr p.1.1 ++ List.replicate (5 - (natStr p.1.1).length + 1) ' '),
   ' ' :: (joinStr [' '] ((p.1.2.1.getD []).map intStr) ++ List.replicate (15 - (joinStr [' '] ((p.1.2.1.getD []).map intStr)).length + 1) ' '),
   ' ' :: (joinStr [':'] ((p.1.2.2.getD []).map natStr) ++ List.replicate (5 - (joinStr [':'] ((p.1.2.2.getD []).map natStr)).length + 1) ' '),
   ' ' :: (natStr p.2 ++ List.replicate (5 - (natStr p.2).length + 1) ' ')]

theorem distLine_eq (p : DKey × ℕ) : distLine p.1 p.2 = joinStr ['|'] (lineFields p) := by
  unfold distLine lineFields padRight
  simp [joinStr, List.replicate_succ', List.append_assoc]

theorem plain_char {s : Str} (h : ∀ ch ∈ s, ch.isDigit = true ∨ ch = '-' ∨ ch = ' ' ∨ ch = ':') : '|' ∉ s ∧ '\n' ∉ s := by
  constructor <;> intro hc <;> rcases h _ hc with h | h | h | h <;> revert h <;> decide

theorem lineFields_chars (p : DKey × ℕ) : ∀ t ∈ lineFields p, ∀ ch ∈ t, ch.isDigit = true ∨ ch = '-' ∨ ch = ' ' ∨ ch = ':' := by
  have hn : ∀ n : ℕ, ∀ ch ∈ natStr n, ch.isDigit = true ∨ ch = '-' ∨ ch = ' ' ∨ ch = ':' := fun n ch h => Or.inl (natStr_digits n ch h)
  have key : ∀ (s : Str) (k : ℕ), (∀ ch ∈ s, ch.isDigit = true ∨ ch = '-' ∨ ch = ' ' ∨ ch = ':') →
      ∀ ch ∈ ' ' :: (s ++ List.replicate k ' '), ch.isDigit = true ∨ ch = '-' ∨ ch = ' ' ∨ ch = ':' := by
    intro s k h ch hc
    rw [List.mem_cons, List.mem_append] at hc
    rcases hc with hc | hc | hc
    · exact Or.inr (Or.inr (Or.inl hc))
    · exact h ch hc
    · exact Or.inr (Or.inr (Or.inl (List.eq_of_mem_replicate hc)))
  intro t ht
  unfold lineFields at ht
  simp only [List.mem_cons, List.not_mem_nil, or_false] at ht
  rcases ht with rfl | rfl | rfl | rfl
  · exact key _ _ (hn _)
  · apply key
    intro ch hc
    rcases join_mem hc with h | ⟨t, ht, hc⟩
    · exact Or.inr (Or.inr (Or.inl (by simpa using h)))
    · obtain ⟨z, -, rfl⟩ := List.mem_map.mp ht
      rcases intStr_chars z ch hc with h | h
      · exact Or.inl h
      · exact Or.inr (Or.inl h)
  · apply key
    intro ch hc
    rcases join_mem hc with h | ⟨t, ht, hc⟩
    · exact Or.inr (Or.inr (Or.inr (by simpa using h)))
    · obtain ⟨z, -, rfl⟩ := List.mem_map.mp ht
      exact hn _ _ hc
  · exact key _ _ (hn _)

theorem lineFields_cells (p : DKey × ℕ) : (lineFields p).map strip ++ [[]] = rowCells p := by
  have hw : ∀ n : ℕ, natStr n = [] ∨ (∃ c, (natStr n).head? = some c ∧ isWs c = false) ∧ ∃ c, (natStr n).getLast? = some c ∧ isWs c = false :=
    fun n => join_strip_ok (sep := []) (l := [natStr n]) (by simp [natStr_word])
  unfold lineFields rowCells
  simp only [List.map_cons, List.map_nil, List.cons_append, List.nil_append]
  rw [strip_pad (hw _), strip_pad (hw _), strip_pad (join_strip_ok (by simp only [List.mem_map]; rintro t ⟨z, -, rfl⟩; exact intStr_word z)),
    strip_pad (join_strip_ok (by simp only [List.mem_map]; rintro t ⟨z, -, rfl⟩; exact natStr_word z))]

theorem distLine_split (p : DKey × ℕ) : splitOn '|' (distLine p.1 p.2) = lineFields p := by
  rw [distLine_eq]
  exact splitOn_join '|' (by simp [lineFields]) (fun t ht => (plain_char (lineFields_chars p t ht)).1)

theorem distLine_bar_split (p : DKey × ℕ) : splitOn '|' (distLine p.1 p.2 ++ ['|']) = lineFields p ++ [[]] := by
  have e : distLine p.1 p.2 ++ ['|'] = joinStr ['|'] (lineFields p ++ [[]]) := by
    rw [distLine_eq]
    simp [lineFields, joinStr]
  rw [e]
  refine splitOn_join '|' (by simp) (fun t ht => ?_)
  rcases List.mem_append.mp ht with h | h
  · exact (plain_char (lineFields_chars p t h)).1
  · simp only [List.mem_singleton] at h; subst h; simp

theorem distLine_no_break (p : DKey × ℕ) : '\n' ∉ distLine p.1 p.2 ++ ['|'] := by
  rw [distLine_eq]
  intro hc
  rcases List.mem_append.mp hc with hc | hc
  · rcases join_mem hc with h | ⟨t, ht, h⟩
    · revert h; decide
    · exact (plain_char (lineFields_chars p t ht)).2 h
  · revert hc; decide

theorem screenText_append (a b : List Piece) : screenText (a ++ b) = screenText a ++ screenText b := List.flatMap_append ..

theorem printer_text (st : MsgState) (text : Str) (c : Option Str) (e : Str) : screenText (printer st text c e) = text ++ e := by
  unfold printer screenText
  split <;> simp

/-- A line is written with its four fields, in the colours of the columns. -/
theorem distLine_arb (st : MsgState) (p : DKey × ℕ) : ∃ pieces, msgArb st (distLine p.1 p.2) distCols '|' = .ok pieces ∧
    screenText pieces = distLine p.1 p.2 ++ ['|', '\n'] := by
  have hlast : (distLine p.1 p.2).getLast? = some ' ' := by
    unfold distLine
    rw [List.getLast?_append]; rfl
  unfold msgArb
  rw [hlast]
  simp only [show (' ' : Char) ≠ '|' by decide, if_false]
  rw [distLine_split, distLine_eq]
  unfold lineFields distCols
  generalize ' ' :: (natStr p.1.1 ++ List.replicate (5 - (natStr p.1.1).length + 1) ' ') = f1
  generalize ' ' :: (joinStr [' '] ((p.1.2.1.getD []).map intStr) ++ List.replicate (15 - (joinStr [' '] ((p.1.2.1.getD []).map intStr)).length + 1) ' ') = f2
  generalize ' ' :: (joinStr [':'] ((p.1.2.2.getD []).map natStr) ++ List.replicate (5 - (joinStr [':'] ((p.1.2.2.getD []).map natStr)).length + 1) ' ') = f3
  generalize ' ' :: (natStr p.2 ++ List.replicate (5 - (natStr p.2).length + 1) ' ') = f4
  refine ⟨_, rfl, ?_⟩
  simp only [screenText_append, printer_text]
  simp [joinStr, screenText]

/-! ## the groups -/

section
variable (distr : List (DKey × ℕ))

theorem dictSet_nodup {α β : Type} [DecidableEq α] {d : List (α × β)} {k : α} (v : β) (h : (d.map (·.1)).Nodup) : ((dictSet d k v).map (·.1)).Nodup := by
  by_cases hk : k ∈ d.map (·.1)
  · rw [dictSet_map_keys v hk]; exact h
  · rw [dictSet_new hk, List.map_append]
    exact h.append (List.nodup_singleton _) (by
      rw [List.disjoint_left]
      intro x hx hx'
      have : x = k := by simpa using hx'
      exact hk (this ▸ hx))

theorem bySize_snoc (l : List (DKey × ℕ)) (p : DKey × ℕ) : bySize (l ++ [p]) = dictSet (bySize l) (p.1.1, p.2)
    (((dictGet (bySize l) (p.1.1, p.2)).getD []) ++ [(distLine p.1 p.2, p.1.2.1)]) := by
  unfold bySize
  rw [List.foldl_append]
  rfl

theorem bySize_facts : ((bySize distr).map (·.1)).Nodup ∧ (∀ k, k ∈ (bySize distr).map (·.1) ↔ ∃ p ∈ distr, (p.1.1, p.2) = k) ∧
    ∀ k, (dictGet (bySize distr) k).getD [] = (distr.filter (fun p => decide ((p.1.1, p.2) = k))).map (fun p => (distLine p.1 p.2, p.1.2.1)) := by
  induction distr using List.reverseRecOn with
  | nil => exact ⟨by simp [bySize], by simp [bySize], by simp [bySize, dictGet]⟩
  | append_singleton l p ih =>
    obtain ⟨h1, h2, h3⟩ := ih
    rw [bySize_snoc]
    refine ⟨dictSet_nodup _ h1, ?_, ?_⟩
    · intro k
      rw [dictSet_keys, h2]
      constructor
      · rintro (rfl | ⟨q, hq, rfl⟩)
        · exact ⟨p, by simp, rfl⟩
        · exact ⟨q, by simp [hq], rfl⟩
      · rintro ⟨q, hq, rfl⟩
        rcases List.mem_append.mp hq with hq | hq
        · exact Or.inr ⟨q, hq, rfl⟩
        · simp only [List.mem_singleton] at hq; subst hq; exact Or.inl rfl
    · intro k
      rw [dictGet_set, List.filter_append]
      by_cases hk : k = (p.1.1, p.2)
      · subst hk
        rw [if_pos rfl, Option.getD_some, h3]
        simp
      · rw [if_neg hk, h3]
        have : ¬ (p.1.1, p.2) = k := fun e => hk e.symm
        simp [this]

end

/-- the order of the shapes of two types -/
def rowLe (p q : DKey × ℕ) : Bool := shapeLe (distLine p.1 p.2, p.1.2.1) (distLine q.1 q.2, q.1.2.1)

/-- the rows in the order of the table -/
def shownRows (distr : List (DKey × ℕ)) : List (DKey × ℕ) :=
  (((bySize distr).map (·.1)).mergeSort pairLe).flatMap (fun k => (distr.filter (fun p => decide ((p.1.1, p.2) = k))).mergeSort rowLe)

theorem mapM_ok_of {α β : Type} {f : α → Py β} {l : List α} {g : α → β} (h : ∀ a ∈ l, f a = .ok (g a)) : l.mapM f = .ok (l.map g) := by
  induction l with
  | nil => rfl
  | cons a l ih =>
    rw [List.mapM_cons, h a List.mem_cons_self, ih (fun x hx => h x (List.mem_cons_of_mem _ hx))]
    rfl

theorem sortLines_ok {ft : Ftype} {distr : List (DKey × ℕ)} (hform : ∀ p ∈ distr, KeyOfKind ft p.1) (k : ℕ × ℕ) :
    sortLines ((distr.filter (fun p => decide ((p.1.1, p.2) = k))).map (fun p => (distLine p.1 p.2, p.1.2.1))) =
      .ok (((distr.filter (fun p => decide ((p.1.1, p.2) = k))).mergeSort rowLe).map (fun p => (distLine p.1 p.2, p.1.2.1))) := by
  unfold sortLines
  rw [if_pos, List.map_mergeSort (s := shapeLe) (by intro a _ b _; rfl)]
  by_cases hf : ft = .all ∨ ft = .shape
  · left
    rw [List.all_eq_true]
    rintro x hx
    obtain ⟨p, hp, rfl⟩ := List.mem_map.mp hx
    exact (hform p (List.mem_filter.mp hp).1).1.mpr hf
  · right
    rw [List.all_eq_true]
    rintro x hx
    obtain ⟨p, hp, rfl⟩ := List.mem_map.mp hx
    have := (hform p (List.mem_filter.mp hp).1).1
    simp only
    rw [Option.isNone_iff_eq_none]
    cases hh : p.1.2.1 with
    | none => rfl
    | some x => rw [hh] at this; exact absurd (this.mp rfl) hf

theorem showDist_ok (st : MsgState) {ft : Ftype} {distr : List (DKey × ℕ)} (hform : ∀ p ∈ distr, KeyOfKind ft p.1) :
    ∃ pieces, showDist st distr = .ok pieces ∧ screenText pieces = (shownRows distr).flatMap (fun p => distLine p.1 p.2 ++ ['|', '\n']) := by
  choose pc hpc htx using distLine_arb st
  have hsub : ∀ k, (dictGet (bySize distr) k).getD [] = (distr.filter (fun p => decide ((p.1.1, p.2) = k))).map (fun p => (distLine p.1 p.2, p.1.2.1)) :=
    (bySize_facts distr).2.2
  have hpart : ∀ k, (do
      let lines ← sortLines ((dictGet (bySize distr) k).getD [])
      let pieces ← lines.mapM (fun p => msgArb st p.1 distCols '|')
      .ok pieces.flatten : Py (List Piece)) = .ok (((distr.filter (fun p => decide ((p.1.1, p.2) = k))).mergeSort rowLe).map pc).flatten := by
    intro k
    rw [hsub, sortLines_ok hform]
    show (do
      let pieces ← (((distr.filter (fun p => decide ((p.1.1, p.2) = k))).mergeSort rowLe).map (fun p => (distLine p.1 p.2, p.1.2.1))).mapM (fun p => msgArb st p.1 distCols '|')
      .ok pieces.flatten : Py (List Piece)) = _
    have : (((distr.filter (fun p => decide ((p.1.1, p.2) = k))).mergeSort rowLe).map (fun p => (distLine p.1 p.2, p.1.2.1))).mapM (fun p => msgArb st p.1 distCols '|') =
        .ok (((distr.filter (fun p => decide ((p.1.1, p.2) = k))).mergeSort rowLe).map pc) := by
      generalize (distr.filter (fun p => decide ((p.1.1, p.2) = k))).mergeSort rowLe = l
      induction l with
      | nil => rfl
      | cons a l ih => rw [List.map_cons, List.mapM_cons, ih]; simp only; rw [hpc]; rfl
    rw [this]
    rfl
  refine ⟨((shownRows distr).map pc).flatten, ?_, ?_⟩
  · unfold showDist shownRows
    simp only
    rw [mapM_ok_of (fun k _ => hpart k)]
    show (.ok (List.flatten _) : Py (List Piece)) = _
    congr 1
    generalize ((bySize distr).map (·.1)).mergeSort pairLe = ks
    induction ks with
    | nil => rfl
    | cons k ks ih => rw [List.map_cons, List.flatten_cons, ih, List.flatMap_cons, List.map_append, List.flatten_append]
  · generalize shownRows distr = l
    induction l with
    | nil => rfl
    | cons a l ih => rw [List.map_cons, List.flatten_cons, screenText_append, ih, htx, List.flatMap_cons]

theorem shownRows_perm {distr : List (DKey × ℕ)} (hnd : distr.Nodup) : (shownRows distr).Perm distr := by
  obtain ⟨h1, h2, -⟩ := bySize_facts distr
  have hmem : ∀ p, p ∈ shownRows distr ↔ p ∈ distr := by
    intro p
    unfold shownRows
    rw [List.mem_flatMap]
    constructor
    · rintro ⟨k, -, hp⟩
      exact (List.mem_filter.mp (List.mem_mergeSort.mp hp)).1
    · intro hp
      exact ⟨(p.1.1, p.2), List.mem_mergeSort.mpr ((h2 _).mpr ⟨p, hp, rfl⟩), List.mem_mergeSort.mpr (List.mem_filter.mpr ⟨hp, by simp⟩)⟩
  refine (List.perm_ext_iff_of_nodup ?_ hnd).mpr hmem
  unfold shownRows
  rw [List.nodup_flatMap]
  refine ⟨fun k _ => (List.mergeSort_perm _ _).nodup_iff.mpr (hnd.filter _), ?_⟩
  refine List.Pairwise.imp ?_ ((List.mergeSort_perm _ pairLe).nodup_iff.mpr h1)
  intro k k' hne
  rw [Function.onFun, List.disjoint_left]
  intro p hp hp'
  have e1 := (List.mem_filter.mp (List.mem_mergeSort.mp hp)).2
  have e2 := (List.mem_filter.mp (List.mem_mergeSort.mp hp')).2
  simp only [decide_eq_true_eq] at e1 e2
  exact hne (e1.symm.trans e2)

theorem shownRows_sorted {ft : Ftype} {distr : List (DKey × ℕ)} (hform : ∀ p ∈ distr, KeyOfKind ft p.1) : (shownRows distr).Pairwise ShownBefore := by
  obtain ⟨h1, -, -⟩ := bySize_facts distr
  unfold shownRows
  rw [List.pairwise_flatMap]
  constructor
  · intro k _
    have hs : ∀ p ∈ (distr.filter (fun p => decide ((p.1.1, p.2) = k))), KeyOfKind ft p.1 ∧ (p.1.1, p.2) = k := by
      intro p hp
      obtain ⟨a, b⟩ := List.mem_filter.mp hp
      exact ⟨hform p a, by simpa using b⟩
    by_cases hf : ft = .all ∨ ft = .shape
    · -- with shapes: compare by a total order
      set L := distr.filter (fun p => decide ((p.1.1, p.2) = k)) with hL
      have hle : ∀ a ∈ L, ∀ b ∈ L, rowLe a b = decide (a.1.2.1.getD [] ≤ b.1.2.1.getD []) := by
        intro a ha b hb
        obtain ⟨x, hx⟩ := Option.isSome_iff_exists.mp ((hs a ha).1.1.mpr hf)
        obtain ⟨y, hy⟩ := Option.isSome_iff_exists.mp ((hs b hb).1.1.mpr hf)
        unfold rowLe shapeLe
        simp [hx, hy]
      have e : L.mergeSort rowLe = L.mergeSort (fun a b => decide (a.1.2.1.getD [] ≤ b.1.2.1.getD [])) := by
        have := List.map_mergeSort (r := rowLe) (s := fun a b : DKey × ℕ => decide (a.1.2.1.getD [] ≤ b.1.2.1.getD [])) (f := id) (l := L) hle
        simpa using this
      rw [e]
      have hp := List.pairwise_mergeSort (le := fun a b : DKey × ℕ => decide (a.1.2.1.getD [] ≤ b.1.2.1.getD [])) (by
          intro a b c hab hbc
          simp only [decide_eq_true_eq] at hab hbc ⊢
          exact le_trans hab hbc) (by
          intro a b
          simp only [Bool.or_eq_true, decide_eq_true_eq]
          exact le_total _ _) L
      refine List.Pairwise.imp_of_mem ?_ hp
      intro a b ha hb hab
      have e1 := (hs a (List.mem_mergeSort.mp ha)).2
      have e2 := (hs b (List.mem_mergeSort.mp hb)).2
      rw [← e2] at e1
      obtain ⟨e3, e4⟩ := Prod.mk.inj e1
      refine Or.inr ⟨e3, Or.inr ⟨e4, ?_⟩⟩
      intro x y hx hy
      simpa [hx, hy] using hab
    · -- without
      refine List.Pairwise.imp_of_mem (R := fun _ _ => True) ?_ (List.pairwise_of_forall (fun _ _ => trivial))
      intro a b ha hb _
      have ha' := hs a (List.mem_mergeSort.mp ha)
      have hb' := hs b (List.mem_mergeSort.mp hb)
      have e1 := ha'.2
      rw [← hb'.2] at e1
      obtain ⟨e3, e4⟩ := Prod.mk.inj e1
      refine Or.inr ⟨e3, Or.inr ⟨e4, ?_⟩⟩
      intro x y hx hy
      exact absurd (ha'.1.1.mp (by rw [hx]; rfl)) hf
  · have hp := List.pairwise_mergeSort (le := pairLe) (by
        intro a b c hab hbc
        unfold pairLe at *
        simp only [decide_eq_true_eq] at hab hbc ⊢
        omega) (by
        intro a b
        unfold pairLe
        simp only [Bool.or_eq_true, decide_eq_true_eq]
        omega) ((bySize distr).map (·.1))
    refine List.Pairwise.imp ?_ (hp.and ((List.mergeSort_perm _ pairLe).nodup_iff.mpr h1))
    rintro k k' ⟨hle, hne⟩ p hp q hq
    have e1 := (List.mem_filter.mp (List.mem_mergeSort.mp hp)).2
    have e2 := (List.mem_filter.mp (List.mem_mergeSort.mp hq)).2
    simp only [decide_eq_true_eq] at e1 e2
    unfold pairLe at hle
    simp only [decide_eq_true_eq] at hle
    rw [← e1, ← e2] at hle hne
    simp only at hle
    rcases hle with h | ⟨h, h'⟩
    · exact Or.inl h
    · refine Or.inr ⟨h, Or.inl (lt_of_le_of_ne h' (fun e => hne (Prod.ext h e)))⟩

theorem shownCells_lines (l : List (DKey × ℕ)) : shownCells (l.flatMap (fun p => distLine p.1 p.2 ++ ['|', '\n'])) = l.map rowCells := by
  unfold shownCells
  have e : l.flatMap (fun p => distLine p.1 p.2 ++ ['|', '\n']) = (l.map (fun p => distLine p.1 p.2 ++ ['|'])).flatMap (fun s => s ++ ['\n']) := by
    rw [List.flatMap_map]
    congr 1
    funext p
    simp
  rw [e, splitOn_lines _ (by
    intro s hs
    obtain ⟨p, -, rfl⟩ := List.mem_map.mp hs
    exact distLine_no_break p), List.dropLast_concat, List.map_map]
  apply List.map_congr_left
  intro p _
  simp only [Function.comp]
  rw [distLine_bar_split, List.map_append, ← lineFields_cells]
  rfl

/-- C80. The table of a distribution, whatever the messages that are switched on: it is always written without an error, it has one line for each type
of the distribution, from whose cells the type and its number can be read, and the lines are ordered by size, then by number, then by shape. -/
theorem C80_table (st : MsgState) (ft : Ftype) (distr : List (DKey × ℕ)) (hform : ∀ p ∈ distr, KeyOfKind ft p.1) (hnd : (distr.map (·.1)).Nodup) :
    ∃ (pieces : List Piece) (rows : List (DKey × ℕ)), showDist st distr = .ok pieces ∧ rows.Perm distr ∧ rows.Pairwise ShownBefore ∧
      shownCells (screenText pieces) = rows.map rowCells := by
  obtain ⟨pieces, h1, h2⟩ := showDist_ok st hform
  refine ⟨pieces, shownRows distr, h1, shownRows_perm hnd.of_map, shownRows_sorted hform, ?_⟩
  rw [h2, shownCells_lines]

theorem join_int_inj {l l' : List ℤ} (h : joinStr [' '] (l.map intStr) = joinStr [' '] (l'.map intStr)) : l = l' := by
  have h1 := congrArg (splitOn ' ') h
  have key : ∀ l : List ℤ, l ≠ [] → splitOn ' ' (joinStr [' '] (l.map intStr)) = l.map intStr := fun l hl =>
    splitOn_join ' ' (by simpa using hl) (by
      intro t ht
      obtain ⟨z, -, rfl⟩ := List.mem_map.mp ht
      intro hc
      have := (intStr_word z).2 _ hc
      revert this; decide)
  have hne : ∀ l : List ℤ, l ≠ [] → joinStr [' '] (l.map intStr) ≠ [] := by
    intro l hl e
    obtain ⟨⟨c, hc, -⟩, -⟩ := join_ends (sep := [' ']) (l := l.map intStr) (by simpa using hl) (by
      intro t ht
      obtain ⟨z, -, rfl⟩ := List.mem_map.mp ht
      exact intStr_word z)
    rw [e] at hc; cases hc
  by_cases a : l = [] <;> by_cases b : l' = []
  · rw [a, b]
  · exact absurd (h.symm.trans (by rw [a]; rfl)) (hne l' b)
  · exact absurd (h.trans (by rw [b]; rfl)) (hne l a)
  · rw [key l a, key l' b] at h1
    exact List.map_injective_iff.mpr (fun x y => intStr_inj) h1

theorem join_nat_inj {l l' : List ℕ} (h : joinStr [':'] (l.map natStr) = joinStr [':'] (l'.map natStr)) : l = l' := by
  have h1 := congrArg (splitOn ':') h
  have key : ∀ l : List ℕ, l ≠ [] → splitOn ':' (joinStr [':'] (l.map natStr)) = l.map natStr := fun l hl =>
    splitOn_join ':' (by simpa using hl) (by
      intro t ht
      obtain ⟨z, -, rfl⟩ := List.mem_map.mp ht
      intro hc
      have := natStr_digits z _ hc
      revert this; decide)
  have hne : ∀ l : List ℕ, l ≠ [] → joinStr [':'] (l.map natStr) ≠ [] := by
    intro l hl e
    obtain ⟨⟨c, hc, -⟩, -⟩ := join_ends (sep := [':']) (l := l.map natStr) (by simpa using hl) (by
      intro t ht
      obtain ⟨z, -, rfl⟩ := List.mem_map.mp ht
      exact natStr_word z)
    rw [e] at hc; cases hc
  by_cases a : l = [] <;> by_cases b : l' = []
  · rw [a, b]
  · exact absurd (h.symm.trans (by rw [a]; rfl)) (hne l' b)
  · exact absurd (h.trans (by rw [b]; rfl)) (hne l a)
  · rw [key l a, key l' b] at h1
    exact List.map_injective_iff.mpr (fun x y => natStr_inj) h1

/-- C80. Two lines of a table are the same only if the types and the numbers are the same. -/
theorem C80_readable (ft : Ftype) {p q : DKey × ℕ} (hp : KeyOfKind ft p.1) (hq : KeyOfKind ft q.1) (h : rowCells p = rowCells q) : p = q := by
  unfold rowCells at h
  simp only [List.cons.injEq, and_true] at h
  obtain ⟨h1, h2, h3, h4⟩ := h
  obtain ⟨⟨n, x, y⟩, v⟩ := p
  obtain ⟨⟨n', x', y'⟩, v'⟩ := q
  have e2 := join_int_inj h2
  have e3 := join_nat_inj h3
  have a1 : x.isSome = x'.isSome := by
    have := hp.1.trans hq.1.symm
    exact Bool.eq_iff_iff.mpr this
  have a2 : y.isSome = y'.isSome := by
    have := hp.2.trans hq.2.symm
    exact Bool.eq_iff_iff.mpr this
  simp only at h1 h4 e2 e3 
  rw [natStr_inj h1, natStr_inj h4]
  have b1 : x = x' := by
    cases x <;> cases x' <;> simp_all
  have b2 : y = y' := by
    cases y <;> cases y' <;> simp_all
  rw [b1, b2]

/-! ## the run -/

theorem dictBump_keys_sub {d : List (DKey × ℕ)} {k : DKey} {v : ℕ} {P : DKey → Prop} (h : ∀ p ∈ d, P p.1) (hk : P k) : ∀ p ∈ dictBump d k v, P p.1 := by
  intro p hp
  rcases dictBump_mem hp with h1 | ⟨w, h1, rfl⟩ | rfl
  · exact h p h1
  · exact hk
  · exact hk

theorem vinsert_keys {P : DKey → Prop} {k : DKey} {v n : ℕ} {st st' : ℕ × List (DKey × ℕ)} (h : ∀ p ∈ st.2, P p.1) (hk : P k) (hv : vinsert k v n st = some st') :
    ∀ p ∈ st'.2, P p.1 := by
  unfold vinsert at hv
  split at hv
  · split at hv
    · obtain rfl := Option.some.inj hv
      exact dictBump_keys_sub h hk
    · obtain rfl := Option.some.inj hv
      exact h
  · cases hv

theorem vinsert_nodup {k : DKey} {v n : ℕ} {st st' : ℕ × List (DKey × ℕ)} (h : (st.2.map (·.1)).Nodup) (hv : vinsert k v n st = some st') :
    (st'.2.map (·.1)).Nodup := by
  unfold vinsert at hv
  split at hv
  · split at hv
    · obtain rfl := Option.some.inj hv
      simp only
      rw [dictBump_keys]
      split
      · exact h
      · next hk =>
        exact h.append (List.nodup_singleton _) (by
          rw [List.disjoint_left]
          intro x hx hx'
          have : x = k := by simpa using hx'
          exact hk (this ▸ hx))
    · obtain rfl := Option.some.inj hv
      exact h
  · cases hv

/-- The keys of a distribution are different types of the tables. -/
theorem distribute_keys {P : DKey → Prop} (tables : List PolyaTable) (res : Restrict) (ft : Ftype) (n : Option ℕ) (draws : ℕ → ℚ)
    (h : ∀ p ∈ relKeys (distSummary tables res).1 ft, P p.1) :
    (∀ p ∈ distribute tables res ft n draws, P p.1) ∧ ((distribute tables res ft n draws).map (·.1)).Nodup := by
  have hA : ∀ (m : ℕ) (rel : List (DKey × ℕ)) (st : ℕ × List (DKey × ℕ)), (∀ p ∈ rel, P p.1) → (∀ p ∈ st.2, P p.1) → (st.2.map (·.1)).Nodup →
      (∀ p ∈ (assignAll m rel st).2, P p.1) ∧ ((assignAll m rel st).2.map (·.1)).Nodup := by
    intro m rel
    induction rel with
    | nil => intro st _ h1 h2; exact ⟨h1, h2⟩
    | cons p rel ih =>
      intro st h0 h1 h2
      obtain ⟨k, l⟩ := p
      rw [assignAll]
      cases hv : vinsert k l m st with
      | none => exact ih _ (fun q hq => h0 q (List.mem_cons_of_mem _ hq)) h1 h2
      | some st' => exact ih _ (fun q hq => h0 q (List.mem_cons_of_mem _ hq)) (vinsert_keys h1 (h0 _ List.mem_cons_self) hv) (vinsert_nodup h2 hv)
  have hL : ∀ (m n g : ℕ) (rel : List (DKey × ℕ)) (dr : ℕ → ℚ) (st : ℕ × List (DKey × ℕ)), (∀ p ∈ rel, P p.1) → (∀ p ∈ st.2, P p.1) →
      (st.2.map (·.1)).Nodup → (∀ p ∈ (passLoop m n g rel dr st).1.2, P p.1) ∧ ((passLoop m n g rel dr st).1.2.map (·.1)).Nodup := by
    intro m n g rel
    induction rel with
    | nil => intro dr st _ h1 h2; exact ⟨h1, h2⟩
    | cons p rel ih =>
      intro dr st h0 h1 h2
      obtain ⟨k, l⟩ := p
      rw [passLoop]
      cases hv : vinsert k (drawCount (share m g l) (dr 0)) n st with
      | none => exact ⟨h1, h2⟩
      | some st' => exact ih _ _ (fun q hq => h0 q (List.mem_cons_of_mem _ hq)) (vinsert_keys h1 (h0 _ List.mem_cons_self) hv) (vinsert_nodup h2 hv)
  have hR : ∀ (n g : ℕ) (rel : List (DKey × ℕ)) (k : ℕ) (dr : ℕ → ℚ) (st : ℕ × List (DKey × ℕ)), (∀ p ∈ rel, P p.1) → (∀ p ∈ st.2, P p.1) →
      (st.2.map (·.1)).Nodup → (∀ p ∈ (recountLoop n g rel k dr st).2, P p.1) ∧ ((recountLoop n g rel k dr st).2.map (·.1)).Nodup := by
    intro n g rel k
    induction k with
    | zero => intro dr st _ h1 h2; exact ⟨h1, h2⟩
    | succ k ih =>
      intro dr st h0 h1 h2
      rw [recountLoop]
      split
      · exact ih _ _ h0 (hL _ _ _ _ _ _ h0 h1 h2).1 (hL _ _ _ _ _ _ h0 h1 h2).2
      · exact ⟨h1, h2⟩
  unfold distribute
  simp only
  have key : ∀ m : ℕ, (∀ p ∈ (if m = (distSummary tables res).2 then (assignAll m (relKeys (distSummary tables res).1 ft) (0, [])).2
        else (recountLoop m (distSummary tables res).2 (sortShares m (distSummary tables res).2 (relKeys (distSummary tables res).1 ft)) 4 draws (0, [])).2), P p.1) ∧
      ((if m = (distSummary tables res).2 then (assignAll m (relKeys (distSummary tables res).1 ft) (0, [])).2
        else (recountLoop m (distSummary tables res).2 (sortShares m (distSummary tables res).2 (relKeys (distSummary tables res).1 ft)) 4 draws (0, [])).2).map (·.1)).Nodup := by
    intro m
    by_cases hm : m = (distSummary tables res).2
    · rw [if_pos hm]
      exact hA _ _ (0, []) h (fun p hp => by cases hp) List.nodup_nil
    · rw [if_neg hm]
      exact hR _ _ _ _ _ (0, []) (fun p hp => h p ((sortShares_perm _ _ _).mem_iff.mp hp)) (fun p hp => by cases hp) List.nodup_nil
  exact key _

theorem relKeys_kind (ds : List (ℕ × SizeData)) (ft : Ftype) : ∀ p ∈ relKeys ds ft, KeyOfKind ft p.1 := by
  intro p hp
  cases ft with
  | all =>
    obtain ⟨a, -, hp⟩ := List.mem_flatMap.mp hp
    obtain ⟨b, -, hp⟩ := List.mem_flatMap.mp hp
    obtain ⟨c, -, rfl⟩ := List.mem_map.mp hp
    exact ⟨by simp, by simp⟩
  | shape =>
    obtain ⟨a, -, hp⟩ := List.mem_flatMap.mp hp
    obtain ⟨c, -, rfl⟩ := List.mem_map.mp hp
    exact ⟨by simp, by simp⟩
  | conc =>
    obtain ⟨a, -, hp⟩ := List.mem_flatMap.mp hp
    obtain ⟨c, -, rfl⟩ := List.mem_map.mp hp
    exact ⟨by simp, by simp⟩
  | size =>
    obtain ⟨c, -, rfl⟩ := List.mem_map.mp hp
    exact ⟨by simp, by simp⟩

theorem distribute_kind (tables : List PolyaTable) (res : Restrict) (ft : Ftype) (n : Option ℕ) (draws : ℕ → ℚ) :
    (∀ p ∈ distribute tables res ft n draws, KeyOfKind ft p.1) ∧ ((distribute tables res ft n draws).map (·.1)).Nodup :=
  distribute_keys tables res ft n draws (relKeys_kind _ ft)

/-- C80. Every table that the program shows is shown without an error, whatever the tables of counts, the restriction, the kind of the distribution, the number
of structures and the random numbers. -/
theorem C80_no_failure (st : MsgState) (tables : List PolyaTable) (res : Restrict) (ft : Ftype) (n : Option ℕ) (draws : ℕ → ℚ) :
    ∃ (pieces : List Piece) (rows : List (DKey × ℕ)), showDist st (distribute tables res ft n draws) = .ok pieces ∧
      rows.Perm (distribute tables res ft n draws) ∧ rows.Pairwise ShownBefore ∧ shownCells (screenText pieces) = rows.map rowCells :=
  C80_table st ft _ (distribute_kind tables res ft n draws).1 (distribute_kind tables res ft n draws).2

theorem missing_none (st : MsgState) (d : Dir) (infile : Str) {l : List ℤ} {ts : List PolyaTable} (h : readTables d infile l = .ok ts) :
    ts.length ≤ l.length ∧ (l.length ≤ ts.length → missingShown st d infile l = []) := by
  induction l generalizing ts with
  | nil => exact ⟨by cases h; simp, fun _ => rfl⟩
  | cons s l ih =>
    unfold readTables at h
    cases hs : dictGet d (infile ++ '.' :: intStr s) with
    | none =>
      rw [hs] at h
      have := (ih h).1
      exact ⟨by simp; omega, fun hl => by simp at hl; omega⟩
    | some text =>
      rw [hs] at h
      cases hp : readPolya s.toNat text with
      | error e => simp only [hp] at h; cases h
      | ok t =>
        cases hr : readTables d infile l with
        | error e => simp only [hp, hr] at h; cases h
        | ok r =>
          simp only [hp, hr] at h
          cases h
          obtain ⟨h1, h2⟩ := ih hr
          refine ⟨by simpa using h1, fun hl => ?_⟩
          have h3 := h2 (by simpa using hl)
          unfold missingShown at h3 ⊢
          rw [List.flatMap_cons, h3, hs]
          rfl

theorem makeEnumIn_shown (st : MsgState) (w : World) (infile distribution outfile : Str) (number : Option ℤ) (sizes : Option (List ℤ)) (save : Bool)
    (restrict : Option (Str × Str)) (d : Dir) : makeEnumIn w infile distribution outfile number sizes save restrict d =
      (makeEnumInShown st w infile distribution outfile number sizes save restrict d).map (·.1) := by
  unfold makeEnumIn makeEnumInShown
  cases sizesUsed w d infile sizes with
  | error e => rfl
  | ok ss =>
  show (do
    let res ← readRestrict d restrict
    let tables ← readTables d infile ss
    let ft ← ftypeOf distribution
    let distr ← distributePy tables res ft (number.map Int.toNat) w.draws
    if distribution = "all".toList ∨ save = true then .ok (dictSet d outfile (printDist ft distr)) else .ok d : Py Dir) = Except.map _ (do
    let res ← readRestrict d restrict
    let tables ← readTables d infile ss
    let ft ← ftypeOf distribution
    let distr ← distributePy tables res ft (number.map Int.toNat) w.draws
    if distribution = "all".toList then .ok (dictSet d outfile (printDist ft distr), missingShown st d infile ss)
    else do
      let shown ← showDist st distr
      .ok (if save then dictSet d outfile (printDist ft distr) else d, missingShown st d infile ss ++ shown) : Py (Dir × List Piece))
  cases readRestrict d restrict with
  | error e => rfl
  | ok res =>
  show (do
    let tables ← readTables d infile ss
    let ft ← ftypeOf distribution
    let distr ← distributePy tables res ft (number.map Int.toNat) w.draws
    if distribution = "all".toList ∨ save = true then .ok (dictSet d outfile (printDist ft distr)) else .ok d : Py Dir) = Except.map _ (do
    let tables ← readTables d infile ss
    let ft ← ftypeOf distribution
    let distr ← distributePy tables res ft (number.map Int.toNat) w.draws
    if distribution = "all".toList then .ok (dictSet d outfile (printDist ft distr), missingShown st d infile ss)
    else do
      let shown ← showDist st distr
      .ok (if save then dictSet d outfile (printDist ft distr) else d, missingShown st d infile ss ++ shown) : Py (Dir × List Piece))
  cases readTables d infile ss with
  | error e => rfl
  | ok tables =>
  show (do
    let ft ← ftypeOf distribution
    let distr ← distributePy tables res ft (number.map Int.toNat) w.draws
    if distribution = "all".toList ∨ save = true then .ok (dictSet d outfile (printDist ft distr)) else .ok d : Py Dir) = Except.map _ (do
    let ft ← ftypeOf distribution
    let distr ← distributePy tables res ft (number.map Int.toNat) w.draws
    if distribution = "all".toList then .ok (dictSet d outfile (printDist ft distr), missingShown st d infile ss)
    else do
      let shown ← showDist st distr
      .ok (if save then dictSet d outfile (printDist ft distr) else d, missingShown st d infile ss ++ shown) : Py (Dir × List Piece))
  cases ftypeOf distribution with
  | error e => rfl
  | ok ft =>
  show (do
    let distr ← distributePy tables res ft (number.map Int.toNat) w.draws
    if distribution = "all".toList ∨ save = true then .ok (dictSet d outfile (printDist ft distr)) else .ok d : Py Dir) = Except.map _ (do
    let distr ← distributePy tables res ft (number.map Int.toNat) w.draws
    if distribution = "all".toList then .ok (dictSet d outfile (printDist ft distr), missingShown st d infile ss)
    else do
      let shown ← showDist st distr
      .ok (if save then dictSet d outfile (printDist ft distr) else d, missingShown st d infile ss ++ shown) : Py (Dir × List Piece))
  unfold distributePy
  split
  · rfl
  show (if distribution = "all".toList ∨ save = true then
      (.ok (dictSet d outfile (printDist ft (distribute tables res ft (number.map Int.toNat) w.draws))) : Py Dir) else .ok d) = Except.map _ (
    if distribution = "all".toList then (.ok (dictSet d outfile (printDist ft (distribute tables res ft (number.map Int.toNat) w.draws)), missingShown st d infile ss) : Py (Dir × List Piece))
    else do
      let shown ← showDist st (distribute tables res ft (number.map Int.toNat) w.draws)
      .ok (if save then dictSet d outfile (printDist ft (distribute tables res ft (number.map Int.toNat) w.draws)) else d, missingShown st d infile ss ++ shown))
  by_cases hall : distribution = "all".toList
  · rw [if_pos (Or.inl hall), if_pos hall]; rfl
  · obtain ⟨pieces, -, hp, -⟩ := C80_no_failure st tables res ft (number.map Int.toNat) w.draws
    rw [if_neg hall, hp]
    cases save
    · rw [if_neg (fun hh => hh.elim hall (by simp))]; rfl
    · rw [if_pos (Or.inr rfl)]; rfl

theorem polyaOut_shown (st : MsgState) (tol : Tol) (lattice outfile : Str) (d : Dir) :
    polyaOut tol lattice outfile d = (polyaOutShown st tol lattice outfile d >>= fun r => (pure r.1 : Run Dir)) := by
  unfold polyaOutShown polyaOut
  simp only [bind_assoc, pure_bind]
  cases (do let s ← readFile d lattice; readLattice s : Py LatticeIn) with
  | error e => rfl
  | ok lat => simp only [runPy_ok, pure_bind]; simp [bind_pure]

theorem runPy_map {α β : Type} (x : Py α) (f : α → β) : runPy (x.map f) = (runPy x >>= fun a => (pure (f a) : Run β)) := by
  cases x <;> rfl

theorem enumIn_shown (st : MsgState) (w : World) (tol : Tol) (a : Args) (input outfile : Str) (distribution : List Str) (d : Dir) :
    enumIn w tol a input outfile distribution d = (enumInShown st w tol a input outfile distribution d >>= fun r => (pure r.1 : Run Dir)) := by
  unfold enumIn enumInShown
  simp only [makeEnumIn_shown st, runPy_map]
  split
  · simp only [pure_bind, bind_assoc]
  · rw [polyaOut_shown st]
    simp only [bind_assoc, pure_bind, bind_pure]

theorem enumOut_shown (st : MsgState) (w : World) (tol : Tol) (a : Args) (input outfile : Str) (d : Dir) :
    enumOut w tol a input outfile d = (enumOutShown st w tol a input outfile d >>= fun r => (pure r.1 : Run Dir)) := by
  unfold enumOut enumOutShown
  simp only [bind_assoc, pure_bind, bind_pure]
  congr 1
  funext lat
  split
  · simp only [pure_bind, bind_assoc, bind_pure]
  · split
    · simp only [pure_bind, enumIn_shown st, bind_assoc, bind_pure]
    · rw [polyaOut_shown st]
      simp only [bind_assoc, pure_bind, enumIn_shown st, bind_pure]

/-- C80. Showing messages and tables changes nothing of what the program does: the run is that of the other properties, whatever the settings of the messages. -/
theorem C80_same_run (st : MsgState) (w : World) (tol : Tol) (a : Args) (d : Dir) :
    scriptEnum w tol a d = (scriptShown st w tol a d >>= fun r => (pure r.1 : Run Dir)) := by
  unfold scriptEnum scriptShown
  by_cases h1 : a.polya = true <;> by_cases h2 : a.enum = true <;> by_cases h3 : a.distribution.getD [] = [] <;>
    simp [h1, h2, h3, bind_assoc, pure_bind, polyaOut_shown st, enumOut_shown st, enumIn_shown st, bind_pure]

/-! ## the program -/

theorem available_structures {l : List ℤ} {U : ℕ → List (M3 ℤ)} {C : ℕ → List Conc} {cnt : ℕ → M3 ℤ → Conc → ℕ} {K : List (ℕ × M3 ℤ × Conc)}
    (hF : TablesFacts l U C cnt K) (ft : Ftype) (key : DKey) :
    available ft (entries .none (tablesOf l U C cnt)) key = structuresOf ft K (fun x => cnt x.1 x.2.1 x.2.2) key := by
  unfold available structuresOf
  rw [hF.list, List.map_map]
  clear hF
  induction K with
  | nil => rfl
  | cons x K ih =>
    rw [List.map_cons, List.sum_cons, ih, List.filter_cons]
    have e : typeOf ft (x.1, hnfNumbers x.2.1, x.2.2, cnt x.1 x.2.1 x.2.2) = typeOf ft (x.1, hnfNumbers x.2.1, x.2.2, 0) := by cases ft <;> rfl
    by_cases h : typeOf ft (x.1, hnfNumbers x.2.1, x.2.2, 0) = key
    · simp [e, h]
    · simp [e, h]

theorem numbers_shown {l : List ℤ} {U : ℕ → List (M3 ℤ)} {C : ℕ → List Conc} {cnt : ℕ → M3 ℤ → Conc → ℕ} {K : List (ℕ × M3 ℤ × Conc)}
    (hF : TablesFacts l U C cnt K) (ft : Ftype) (number : Option ℕ) {draws : ℕ → ℚ} (hd : ∀ i, 0 ≤ draws i) {rows : List (DKey × ℕ)}
    (hrows : rows.Perm (distribute (tablesOf l U C cnt) .none ft number draws)) :
    NumbersShown (structuresOf ft K (fun x => cnt x.1 x.2.1 x.2.2)) ((K.map (fun x => cnt x.1 x.2.1 x.2.2)).sum) number rows := by
  have hav : available ft (entries .none (tablesOf l U C cnt)) = structuresOf ft K (fun x => cnt x.1 x.2.1 x.2.2) :=
    funext (available_structures hF ft)
  have hres : ft = .shape → ∀ l, Restrict.none ≠ .concs l := fun _ _ h => by cases h
  have hsum : (rows.map (·.2)).sum = ((distribute (tablesOf l U C cnt) .none ft number draws).map (·.2)).sum := (hrows.map _).sum_eq
  rw [← hav, ← hF.total]
  refine ⟨?_, ?_, ?_, ?_⟩
  · exact ((hrows.map _).nodup_iff).mpr (distribute_kind _ _ _ _ _).2
  · intro hfull
    obtain ⟨-, h2, h3⟩ := C33_full_distribution (tablesOf l U C cnt) .none ft draws hF.ok hF.sizes hres
    have e : distribute (tablesOf l U C cnt) .none ft number draws = distribute (tablesOf l U C cnt) .none ft none draws := by
      cases number with
      | none => rfl
      | some n => exact C34_ample _ _ _ _ hF.ok hF.sizes hres n (hfull n rfl)
    rw [e] at hrows hsum
    exact ⟨fun key v => (hrows.mem_iff).trans (h2 key v), hsum.trans h3⟩
  · rintro n rfl hn
    have hb := fun types ht M hM => C34_bounds (tablesOf l U C cnt) .none ft draws hF.ok hF.sizes hres hd n hn types ht M hM
    have hkeys : ∃ types : List DKey, ∀ k, 0 < available ft (entries .none (tablesOf l U C cnt)) k → k ∈ types := by
      refine ⟨(entries .none (tablesOf l U C cnt)).map (typeOf ft), fun k hk => ?_⟩
      obtain ⟨e, he, h1, -⟩ := available_pos hk
      exact List.mem_map.mpr ⟨e, he, h1⟩
    have hmax : ∀ k, available ft (entries .none (tablesOf l U C cnt)) k ≤ grandTotal (entries .none (tablesOf l U C cnt)) := by
      intro k
      unfold available grandTotal
      apply List.sum_le_sum
      intro e _
      split
      · exact le_refl _
      · exact Nat.zero_le _
    obtain ⟨ty, hty⟩ := hkeys
    refine ⟨?_, ?_, ?_⟩
    · intro p hp
      exact (hb ty hty _ hmax).2.1 p (hrows.mem_iff.mp hp)
    · intro types ht
      rw [hsum]
      exact (hb types ht _ hmax).2.2.1
    · intro M hM
      rw [hsum]
      exact (hb ty hty M hM).2.2.2
  · rintro n rfl h0 hn hdvd
    obtain ⟨h1, -, -, h4⟩ := C34_whole_shares (tablesOf l U C cnt) .none ft draws hF.ok hF.sizes hres hd n h0 hn hdvd
    exact ⟨fun key v => (hrows.mem_iff).trans (h1 key v), hsum.trans h4⟩

theorem ftypeOf_word (ft : Ftype) : ftypeOf (kindWord ft) = .ok ft := by cases ft <;> rfl
theorem lower_kind (ft : Ftype) : lowerStr (kindWord ft) = kindWord ft := by cases ft <;> decide
theorem kind_not_all {ft : Ftype} (h : ft ≠ .all) : kindWord ft ≠ "all".toList := by
  cases ft with
  | all => exact absurd rfl h
  | shape => decide
  | conc => decide
  | size => decide

/-- the call of the distribution -/
theorem dist_run {w : World} {tol : Tol} {a : Args} {lattice text : Str} {ft : Ftype} {number : Option ℕ} (hft : ft ≠ .all) (ha : DistCall a lattice ft number)
    {d d1 : Dir} (hd : FreshDir lattice text d) {lat : LatticeIn} (hlat : readLattice text = .ok lat)
    (hpolya : polyaOut tol lattice "polya.out".toList d = (pure d1 : Run _)) {l' : List ℤ} {tables : List PolyaTable}
    (hsz : sizesUsed w d1 "polya.out".toList none = .ok l') (htab : readTables d1 "polya.out".toList l' = .ok tables) (hlen : l'.length ≤ tables.length)
    (hdist : distributePy tables .none ft number w.draws = .ok (distribute tables .none ft number w.draws)) {st : MsgState} {pieces : List Piece}
    (hshow : showDist st (distribute tables .none ft number w.draws) = .ok pieces) :
    scriptShown st w tol a d = (pure (if a.savedist = true then dictSet d1 "enum.in".toList (printDist ft (distribute tables .none ft number w.draws)) else d1,
      latticeInfos st lat ++ pieces) : Run _) := by
  have hnames : fileNames a = (some "polya.out".toList, some "enum.in".toList) := by
    unfold fileNames
    simp [ha.polya, ha.enum, ha.input, ha.outfile, ha.distribution]
  have hcheck : checkArgs a d = .ok () := by
    unfold checkArgs
    simp [ha.polya, ha.accept, ha.distribution]
  have hp : polyaOutShown st tol lattice "polya.out".toList d = (pure (d1, latticeInfos st lat) : Run _) := by
    unfold polyaOutShown readFile
    rw [hd.text]
    have e1 : (do let s ← (Except.ok text : Py Str); readLattice s) = .ok lat := hlat
    simp only
    rw [e1, runPy_ok, pure_bind, hpolya, pure_bind]
  have hnum : (if lowerStr ((number.map natStr).getD "all".toList) = "all".toList then (.ok none : Py (Option ℤ)) else
      (parseInt (strip ((number.map natStr).getD "all".toList))).map some) = .ok (number.map (fun n : ℕ => (n : ℤ))) := by
    cases number with
    | none => rw [if_pos (by decide)]; rfl
    | some n =>
      rw [if_neg (by simpa using lower_natStr n)]
      simp only [Option.map_some, Option.getD_some]
      rw [strip_word (natStr_word n), parseInt_natStr]
      rfl
  have hmake : makeEnumInShown st w "polya.out".toList (kindWord ft) "enum.in".toList (number.map (fun n : ℕ => (n : ℤ))) none a.savedist none d1 =
      .ok (if a.savedist = true then dictSet d1 "enum.in".toList (printDist ft (distribute tables .none ft number w.draws)) else d1, pieces) := by
    have e : (number.map (fun n : ℕ => (n : ℤ))).map Int.toNat = number := by cases number <;> simp
    unfold makeEnumInShown
    rw [hsz]
    show (do
      let res ← readRestrict d1 none
      let tables ← readTables d1 "polya.out".toList l'
      let ft' ← ftypeOf (kindWord ft)
      let distr ← distributePy tables res ft' ((number.map (fun n : ℕ => (n : ℤ))).map Int.toNat) w.draws
      if kindWord ft = "all".toList then .ok (dictSet d1 "enum.in".toList (printDist ft' distr), missingShown st d1 "polya.out".toList l')
      else do
        let shown ← showDist st distr
        .ok (if a.savedist then dictSet d1 "enum.in".toList (printDist ft' distr) else d1, missingShown st d1 "polya.out".toList l' ++ shown) : Py (Dir × List Piece)) = _
    rw [show readRestrict d1 none = .ok .none from rfl, htab, ftypeOf_word, e]
    show (do
      let distr ← distributePy tables .none ft number w.draws
      if kindWord ft = "all".toList then .ok (dictSet d1 "enum.in".toList (printDist ft distr), missingShown st d1 "polya.out".toList l')
      else do
        let shown ← showDist st distr
        .ok (if a.savedist then dictSet d1 "enum.in".toList (printDist ft distr) else d1, missingShown st d1 "polya.out".toList l' ++ shown) : Py (Dir × List Piece)) = _
    rw [hdist]
    show (if kindWord ft = "all".toList then .ok (dictSet d1 "enum.in".toList (printDist ft (distribute tables .none ft number w.draws)), missingShown st d1 "polya.out".toList l')
      else do
        let shown ← showDist st (distribute tables .none ft number w.draws)
        .ok (if a.savedist then dictSet d1 "enum.in".toList (printDist ft (distribute tables .none ft number w.draws)) else d1, missingShown st d1 "polya.out".toList l' ++ shown) : Py (Dir × List Piece)) = _
    rw [if_neg (kind_not_all hft), hshow, (missing_none st d1 _ htab).2 hlen]
    rfl
  have hin : enumInShown st w tol a "polya.out".toList "enum.in".toList [kindWord ft, (number.map natStr).getD "all".toList] d =
      (pure (if a.savedist = true then dictSet d1 "enum.in".toList (printDist ft (distribute tables .none ft number w.draws)) else d1,
        latticeInfos st lat ++ pieces) : Run _) := by
    unfold enumInShown
    rw [like_of_numbered hd.noPolya, ha.lattice]
    simp only [Bool.false_eq_true, if_false]
    rw [hp, pure_bind, show pyGet [kindWord ft, (number.map natStr).getD "all".toList] 0 = .ok (kindWord ft) from rfl,
      show pyGet [kindWord ft, (number.map natStr).getD "all".toList] 1 = .ok ((number.map natStr).getD "all".toList) from rfl]
    simp only [runPy_ok, pure_bind]
    rw [hnum, runPy_ok, pure_bind, lower_kind, ha.sizes, ha.filter, Option.map_none, hmake, runPy_ok, pure_bind]
  unfold scriptShown
  simp only [hnames, hcheck, ha.polya, ha.enum, ha.distribution, runPy_ok, pure_bind, Option.getD_some, Bool.false_eq_true, if_false, hin]
  simp [hin]

theorem infos_text (lat : LatticeIn) : screenText (latticeInfos {} lat) = (if lat.restricted = false then "No concentration restrictions given.\n".toList else
        "Concentrations are being restricted.\n".toList ++ if lat.arrows = false then "No displacement directions are included\n".toList else []) := by
  unfold latticeInfos
  cases lat.restricted <;> cases lat.arrows <;> decide +kernel

/-- At tolerances at which the searches are exact. -/
theorem shows_at {text : Str} {lat : LatticeIn} {P0 : Matrix (Fin 3) (Fin 3) ℚ} {b0 : List (Fin 3 → ℚ)} {lo hi k : ℕ} {T : Set ℚ}
    {C : ℕ → List Conc} (h : EnumInput text lat P0 b0 lo hi k T C) {tol : Tol} (ht : ExactTol P0 b0 hi tol) (t5 : tol.conc ∈ T)
    {U : ℕ → List (M3 ℤ)} {cnt : ℕ → M3 ℤ → Conc → ℕ} (hcnt : CountsAll tol lat P0 b0 lo hi C U cnt)
    (hfits : ∀ n, lo ≤ n → n ≤ hi → (countTable n (U n) (C n) (cnt n)).Fits) :
    RunShows tol text lat lo hi C U cnt := by
  intro w a lattice d ft number hw hdraws hft ha hd
  obtain ⟨l', d1, K, hF, hKm, hk, hpos, hpolya, hany, ⟨hsz, htab, -⟩, hd1t, hd1o⟩ := tables_some h ht t5 hcnt hfits hw hd
  obtain ⟨n0, a1, a2, a3⟩ := h.nonempty
  obtain ⟨u0, hu0⟩ := counts_nonempty h ht hcnt a1 a2
  obtain ⟨c0, hc0⟩ := List.exists_mem_of_ne_nil _ a3
  have hx0 : (n0, u0, c0) ∈ K := (hKm _ _ _).mpr ⟨a1, a2, hu0, hc0⟩
  have hdist : distributePy (tablesOf l' U C cnt) .none ft number w.draws = .ok (distribute (tablesOf l' U C cnt) .none ft number w.draws) := by
    refine distributePy_some _ _ _ hF.ok (e := (n0, hnfNumbers u0, c0, cnt n0 u0 c0)) ?_ (hpos _ hx0) _ _
    rw [hF.list]
    exact List.mem_map.mpr ⟨_, hx0, rfl⟩
  obtain ⟨pieces, rows, h1, h2, h3, h4⟩ := C80_no_failure {} (tablesOf l' U C cnt) .none ft number w.draws
  have hname : ∀ n : ℕ, polyaName n = "polya.out.".toList ++ natStr n := fun n => by
    unfold polyaName
    rw [show "polya.out.".toList = "polya.out".toList ++ ['.'] from by decide, List.append_assoc]
    rfl
  refine ⟨K, _, _, screenText pieces, rows, hF.nodup, hKm, dist_run hft ha hd h.read hpolya hsz htab (by simp [tablesOf]) hdist h1, ?_, h4, h3, ?_, numbers_shown hF ft number hdraws h2, ?_, ?_⟩
  · rw [screenText_append, infos_text]
  · intro p hp
    exact (distribute_kind _ _ _ _ _).1 p (h2.mem_iff.mp hp)
  · intro n b1 b2
    rw [← hname]
    split
    · rw [dictGet_set, if_neg (show polyaName n ≠ "enum.in".toList from fun e => enumIn_not_like (e ▸ polyaName_like n)), hd1t n b1 b2]
    · exact hd1t n b1 b2
  · intro f f1 f2
    have f3 := hd1o f (fun n b1 b2 => by rw [hname]; exact f2 n b1 b2)
    split
    · next hs => rw [dictGet_set, if_neg (f1 hs), f3]
    · exact f3

/-- C80. With small tolerances: the table on the screen shows the numbers of structures of the types. -/
theorem C80_shown {text : Str} {lat : LatticeIn} {P0 : Matrix (Fin 3) (Fin 3) ℚ} {b0 : List (Fin 3 → ℚ)} {lo hi k : ℕ} {T : Set ℚ}
    {C : ℕ → List Conc} (h : EnumInput text lat P0 b0 lo hi k T C) :
    ∃ e > 0, ∀ tol : Tol, 0 < tol.hnf → tol.hnf < e → 0 < tol.sym → tol.sym < e → tol.conc ∈ T →
      ∃ (U : ℕ → List (M3 ℤ)) (cnt : ℕ → M3 ℤ → Conc → ℕ),
        CountsAll tol lat P0 b0 lo hi C U cnt ∧
        ((∀ n, lo ≤ n → n ≤ hi → (countTable n (U n) (C n) (cnt n)).Fits) → RunShows tol text lat lo hi C U cnt) :=
  small_tol h.cell.det h.cell.nonempty hi (fun _ ht t5 => by
    obtain ⟨U, cnt, hcnt, -⟩ := every_structure_once_at h ht t5
    exact ⟨U, cnt, hcnt, fun hf => shows_at h ht t5 hcnt hf⟩)

section
variable {text : Str} {lat : LatticeIn} {P0 : Matrix (Fin 3) (Fin 3) ℚ} {b0 : List (Fin 3 → ℚ)} {lo hi k : ℕ}

theorem shows_small {T : Set ℚ} {C : ℕ → List Conc} (h : EnumInput text lat P0 b0 lo hi k T C) (hsize : b0.length * hi ≤ 20)
    (harr : lat.arrowFractions.sum = 0 ∨ b0.length * hi < 12) {tol : Tol} (ht : ExactTol P0 b0 hi tol) (t5 : tol.conc ∈ T) :
    ∃ (U : ℕ → List (M3 ℤ)) (cnt : ℕ → M3 ℤ → Conc → ℕ), CountsAll tol lat P0 b0 lo hi C U cnt ∧
      RunListsAll tol text lat P0 b0 lo hi C U cnt ∧ RunShows tol text lat lo hi C U cnt := by
  obtain ⟨U, cnt, hcnt, hall⟩ := every_structure_once_at h ht t5
  obtain ⟨h1, h2⟩ := small_ok h hsize harr hcnt
  exact ⟨U, cnt, hcnt, hall h1 h2, shows_at h ht t5 hcnt h1⟩

/-- C80. With the tolerances of the code, without restrictions: the table, and the structures that `-enum` lists (C61), for the same numbers of structures. -/
theorem C80_free (h : CrystalInput text lat P0 b0 lo hi k) (hfree : lat.restricted = false) (hsize : b0.length * hi ≤ 20)
    {K K' : ℝ} {g D : ℕ} (hc : Coarse (realMat P0) (realVecs b0) K K' g D (1 / 10 ^ 7)) :
    ∃ (U : ℕ → List (M3 ℤ)) (cnt : ℕ → M3 ℤ → Conc → ℕ), CountsAll shippedTol lat P0 b0 lo hi (fun n => concsFree n k b0.length) U cnt ∧
      RunListsAll shippedTol text lat P0 b0 lo hi (fun n => concsFree n k b0.length) U cnt ∧
      RunShows shippedTol text lat lo hi (fun n => concsFree n k b0.length) U cnt := by
  have hal : lat.arrowFractions = List.replicate lat.nspecies.toNat 0 := by
    unfold LatticeIn.arrowFractions getArrowConcs
    rw [hfree]; rfl
  exact shows_small (free_input h hfree (lt_of_le_of_lt (size_hi h hsize) (by norm_num))) hsize (Or.inl (by rw [hal]; simp))
    (coarse_exact h.cell.det hc (size_hi h hsize)) (Set.mem_univ _)

/-- C80. With the tolerances of the code, ranges of concentrations and displaced atoms. -/
theorem C80_ranges {rows : List ConcRange} {d : ℤ} (h : CrystalInput text lat P0 b0 lo hi k) (hr : RangesInput lat k rows d)
    (hsize : b0.length * hi ≤ 20) (harr : lat.arrowFractions.sum = 0 ∨ b0.length * hi < 12)
    (hne : ∃ n c, lo ≤ n ∧ n ≤ hi ∧ InConcRanges rows (b0.length * n) c) (hd : d ≤ 10 ^ 8)
    {K K' : ℝ} {g D : ℕ} (hc : Coarse (realMat P0) (realVecs b0) K K' g D (1 / 10 ^ 7)) :
    ∃ (C : ℕ → List Conc), (∀ n, lo ≤ n → n ≤ hi → (C n).Nodup ∧ ∀ c, c ∈ C n ↔ InConcRanges rows (b0.length * n) c) ∧
      ∃ (U : ℕ → List (M3 ℤ)) (cnt : ℕ → M3 ℤ → Conc → ℕ), CountsAll shippedTol lat P0 b0 lo hi C U cnt ∧
        RunListsAll shippedTol text lat P0 b0 lo hi C U cnt ∧ RunShows shippedTol text lat lo hi C U cnt := by
  have hd' : (d : ℚ) ≤ 10 ^ 8 := by exact_mod_cast hd
  obtain ⟨C, h1, h2⟩ := ranges_enum h hr hsize hne (t := 1 / 10 ^ 10) (by norm_num) (by linarith)
  exact ⟨C, h1, shows_small h2 hsize harr (coarse_exact h.cell.det hc (size_hi h hsize)) rfl⟩

end

/-- C80. The numbers in the full table (of any kind) add up to the number of structures that `-enum` lists in enum.out. -/
theorem C80_adds_up {tol : Tol} {text : Str} {lat : LatticeIn} {P0 : Matrix (Fin 3) (Fin 3) ℚ} {b0 : List (Fin 3 → ℚ)} {lo hi : ℕ} {C : ℕ → List Conc}
    {U : ℕ → List (M3 ℤ)} {cnt : ℕ → M3 ℤ → Conc → ℕ} (hall : RunListsAll tol text lat P0 b0 lo hi C U cnt) (hshow : RunShows tol text lat lo hi C U cnt)
    {w w' : World} {a a' : Args} {lattice lattice' : Str} {d d' : Dir} {ft : Ftype} (hw : ∀ l, (w.listdir l).Perm l) (hw' : ∀ l, (w'.listdir l).Perm l)
    (hsh : ∀ i l, ((w.rnd i).shuffle l).Perm l) (hdr : ∀ i, 0 ≤ w'.draws i) (hft : ft ≠ .all) (ha : PlainCall a lattice true) (ha' : DistCall a' lattice' ft none)
    (hd : FreshDir lattice text d) (hd' : FreshDir lattice' text d') :
    ∃ (rows : List EnumEntry) (e e' : Dir) (pieces : List Piece) (heading table : Str) (shown : List (DKey × ℕ)), scriptEnum w tol a d = (pure e : Run Dir) ∧
      dictGet e "enum.out".toList = some (enumOutFile (lat.enumParams (P0, b0)) w.now rows) ∧
      ListsAll (realMat P0) (realVecs b0) lo hi C lat.arrowFractions rows ∧
      scriptShown {} w' tol a' d' = (pure (e', pieces) : Run _) ∧ screenText pieces = heading ++ table ∧ shownCells table = shown.map rowCells ∧
      (shown.map (·.2)).sum = rows.length := by
  obtain ⟨rows, e, r1, r2, r3, ⟨K, k1, k2, k3⟩, -⟩ := hall w a lattice d hw hsh ha hd
  obtain ⟨K', e', pieces, table, shown, k1', k2', s1, s2, s3, -, -, s4, -⟩ := hshow w' a' lattice' d' ft none hw' hdr hft ha' hd'
  refine ⟨rows, e, e', pieces, _, table, shown, r1, r2, r3, s1, s2, s3, ?_⟩
  rw [(s4.full (fun n h => by cases h)).2, k3]
  have : K'.Perm K := (List.perm_ext_iff_of_nodup k1' k1).mpr (fun x => (k2' x.1 x.2.1 x.2.2).trans (k2 x.1 x.2.1 x.2.2).symm)
  exact (this.map _).sum_eq

/-! ## examples -/

/-- `enumeration.py -distribution size all` -/
def sizeArgs : Args := ⟨false, false, "lattice.in".toList, none, none, some ["size".toList, "all".toList], none, false, none, false, none⟩

theorem sizeArgs_call : DistCall sizeArgs "lattice.in".toList .size none := by constructor <;> rfl

/-- A number of structures of each shape, with `-savedist`. -/
def shapeArgs (n : ℕ) : Args := ⟨false, false, "lattice.in".toList, none, none, some ["shape".toList, natStr n], none, false, none, true, none⟩

theorem shapeArgs_call (n : ℕ) : DistCall (shapeArgs n) "lattice.in".toList .shape (some n) := by constructor <;> rfl

/-- C80 for the simple cubic file of the examples, at the tolerances of the code. -/
theorem sc_shows : ∃ (U : ℕ → List (M3 ℤ)) (cnt : ℕ → M3 ℤ → Conc → ℕ),
    CountsAll shippedTol scLat (Matrix.of ![![1, 0, 0], ![0, 1, 0], ![0, 0, 1]]) [![0, 0, 0]] 1 2 (fun n => concsFree n 2 1) U cnt ∧
    RunListsAll shippedTol scText scLat (Matrix.of ![![1, 0, 0], ![0, 1, 0], ![0, 0, 1]]) [![0, 0, 0]] 1 2 (fun n => concsFree n 2 1) U cnt ∧
    RunShows shippedTol scText scLat 1 2 (fun n => concsFree n 2 1) U cnt :=
  C80_free sc_crystal rfl (by simp) (decimal_coarse sc_decimal)

/-- The message and the table of `-distribution size all` for the simple cubic file: the lines are in the order of the sizes. -/
example : ∃ (d' : Dir) (pieces : List Piece) (table : Str) (rows : List (DKey × ℕ)), scriptShown {} scWorld shippedTol sizeArgs scDir = (pure (d', pieces) : Run _) ∧
    screenText pieces = "No concentration restrictions given.\n".toList ++ table ∧ shownCells table = rows.map rowCells ∧ rows.Pairwise ShownBefore ∧
    dictGet d' "enum.in".toList = none := by
  obtain ⟨U, cnt, -, -, h⟩ := sc_shows
  obtain ⟨K, d', pieces, table, rows, -, -, h1, h2, h3, h4, -, -, -, h5⟩ :=
    h scWorld sizeArgs "lattice.in".toList scDir .size none (fun l => .refl l) (fun _ => le_refl _) (fun h => by cases h) sizeArgs_call scDir_call
  refine ⟨d', pieces, table, rows, h1, h2, h3, h4, ?_⟩
  rw [h5 _ (by simp [sizeArgs]) (by
    intro n _ _ e
    have := congrArg List.head? e
    simp at this)]
  decide +kernel

/-- Three types: the line of a type that is written. -/
example : distLine (2, some [1, 0, 1, 0, 1, 2], some [1, 1]) 3 = " 2     | 1 0 1 0 1 2     | 1:1   | 3     ".toList := by decide +kernel

/-- C80_table: a distribution by shapes and compositions. -/
example : ∃ (pieces : List Piece) (rows : List (DKey × ℕ)), showDist {} [((2, some [1, 0, 1, 0, 1, 2], some [1, 1]), 3), ((1, some [1, 0, 1, 0, 0, 1], some [1, 0]), 1),
      ((2, some [1, 0, 1, 0, 0, 2], some [1, 1]), 3)] = .ok pieces ∧ rows.Pairwise ShownBefore ∧ shownCells (screenText pieces) = rows.map rowCells ∧
      rows.Perm [((2, some [1, 0, 1, 0, 1, 2], some [1, 1]), 3), ((1, some [1, 0, 1, 0, 0, 1], some [1, 0]), 1), ((2, some [1, 0, 1, 0, 0, 2], some [1, 1]), 3)] := by
  obtain ⟨pieces, rows, h1, h2, h3, h4⟩ := C80_table {} .all [((2, some [1, 0, 1, 0, 1, 2], some [1, 1]), 3), ((1, some [1, 0, 1, 0, 0, 1], some [1, 0]), 1),
      ((2, some [1, 0, 1, 0, 0, 2], some [1, 1]), 3)] (by simp [KeyOfKind]) (by decide)
  exact ⟨pieces, rows, h1, h3, h4, h2⟩

end Phenum
