import Verif.Model.CommandLine
/-
The reading of a command line: words, options and values.
-/
namespace Phenum

/-! ## specification -/

/-- A word that can't be taken for an option: it doesn't begin with `-`, or it is a negative whole number. -/
def Spec.PlainWord (v : Str) : Prop := v.head? ≠ some '-' ∨ ∃ ds, v = '-' :: ds ∧ ds ≠ [] ∧ ∀ ch ∈ ds, ch.isDigit = true

/-- The numbers of values that an option takes. -/
def Spec.Takes : NArgs → List Str → Prop
  | .flag, vs => vs = []
  | .one, vs => vs.length = 1
  | .many, vs => vs ≠ []
  | .exactly k, vs => vs.length = k
  | .help, _ => False

/-- `w` are the first letters (two or more, the dash included) of the option `n` and of no other. -/
def Spec.Abbreviates (T : OptTable) (w n : Str) : Prop := 2 ≤ w.length ∧ w <+: n ∧ ∀ m ∈ T.map (·.1), w <+: m → m = n

/-- `w` looks like an option, and isn't one of the options, nor one with a joined value or letters behind it, nor an abbreviation. -/
def Spec.Unrecognised (T : OptTable) (w : Str) : Prop :=
  (∃ ch rest, w = '-' :: ch :: rest ∧ ch.isDigit = false ∧ ch ≠ '.') ∧ ' ' ∉ w ∧ w ≠ "--".toList ∧
    ∀ m ∈ T.map (·.1), ¬ w.takeWhile (fun ch => ch ≠ '=') <+: m ∧ ¬ (m.length = 2 ∧ m <+: w)

/-- `argv` is made of options with their values, of words that are not recognised, and of further values: `given` are the options with their values, and
`loose` the further values behind every option or unrecognised word. -/
inductive Spec.Reads (T : OptTable) : List Str → List (Str × List Str) → List (List Str) → Prop
  | nil : Spec.Reads T [] [] []
  | apart {w n : Str} {k : NArgs} {vals extra rest : List Str} {given : List (Str × List Str)} {loose : List (List Str)} (hn : (n, k) ∈ T)
      (hw : w = n ∨ Spec.Abbreviates T w n) (hv : Spec.Takes k vals) (hplain : ∀ v ∈ vals ++ extra, Spec.PlainWord v) (hmany : k = .many → extra = [])
      (hrest : Spec.Reads T rest given loose) : Spec.Reads T (w :: (vals ++ extra) ++ rest) ((n, vals) :: given) (extra :: loose)
  | joined {n v : Str} {k : NArgs} {extra rest : List Str} {given : List (Str × List Str)} {loose : List (List Str)} (hn : (n, k) ∈ T)
      (hk : k = .one ∨ k = .many ∨ k = .exactly 1) (hs : ' ' ∉ v) (hplain : ∀ v ∈ extra, Spec.PlainWord v)
      (hrest : Spec.Reads T rest given loose) : Spec.Reads T ((n ++ '=' :: v) :: extra ++ rest) ((n, [v]) :: given) (extra :: loose)
  | ignored {w : Str} {extra rest : List Str} {given : List (Str × List Str)} {loose : List (List Str)} (hw : Spec.Unrecognised T w)
      (hplain : ∀ v ∈ extra, Spec.PlainWord v) (hrest : Spec.Reads T rest given loose) : Spec.Reads T (w :: extra ++ rest) given (extra :: loose)

/-- The values `vs` belong to the last of the runs. -/
def Spec.withTail : List (List Str) → List Str → List (List Str)
  | [], _ => []
  | [l], vs => [l ++ vs]
  | l :: l' :: r, vs => l :: Spec.withTail (l' :: r) vs

/-- The same with values before the first option, and perhaps with the word `--` and any words behind it, which are values. -/
def Spec.Line (T : OptTable) (argv : List Str) (given : List (Str × List Str)) (loose : List (List Str)) : Prop :=
  ∃ lead rest more tail vs, (tail = [] ∧ vs = [] ∨ tail = "--".toList :: vs) ∧ argv = lead ++ rest ++ tail ∧ (∀ v ∈ lead, Spec.PlainWord v) ∧
    Spec.Reads T rest given more ∧ loose = (Spec.withTail (lead :: more) vs).filter (fun l => l ≠ [])

/-- The option `n` is given, the last time with the values `vals`. -/
def Spec.LastGiven (given : List (Str × List Str)) (n : Str) (vals : List Str) : Prop := ∃ g g', given = g ++ (n, vals) :: g' ∧ n ∉ g'.map (·.1)

open Spec

/-! ## the tables -/

/-- The conditions on a table of options that make the reading unambiguous. -/
def nameOk (n : Str) : Bool :=
  match n with
  | '-' :: ch :: rest => !ch.isDigit && ch ≠ '.' && ' ' ∉ n && '=' ∉ n && n ≠ "--".toList
  | _ => false

structure TableOk (T : OptTable) : Prop where
  nodup : (optNames T).Nodup
  name : ∀ n ∈ optNames T, nameOk n = true
  help : ∀ o ∈ T, o.1.take 2 = ['-', '-'] → o.2 = .help
  short : ∀ n ∈ optNames T, n.length = 2 → ∀ m ∈ optNames T, n <+: m → m = n

theorem baseTable_ok : TableOk baseTable := by
  constructor <;> decide +kernel

theorem enumTable_ok : TableOk enumTable := by
  constructor <;> decide +kernel

theorem makeTable_ok : TableOk makeTable := by
  constructor <;> decide +kernel

theorem nameOk_spec {n : Str} (h : nameOk n = true) : ∃ ch rest, n = '-' :: ch :: rest ∧ ch.isDigit = false ∧ ch ≠ '.' ∧ ' ' ∉ n ∧ '=' ∉ n ∧ n ≠ "--".toList := by
  unfold nameOk at h
  split at h
  · rename_i ch rest
    simp only [Bool.and_eq_true, Bool.not_eq_true', decide_eq_true_eq] at h
    exact ⟨ch, rest, rfl, h.1.1.1.1, h.1.1.1.2, h.1.1.2, h.1.2, h.2⟩
  · exact absurd h (by simp)

/-! ## classification -/

theorem partitionEq_some : ∀ (s : Str) {p v : Str}, partitionEq s = some (p, v) → p = s.takeWhile (fun ch => ch ≠ '=') ∧ '=' ∈ s
  | [], p, v, h => by simp [partitionEq] at h
  | ch :: rest, p, v, h => by
    by_cases hc : ch = '='
    · subst hc
      simp only [partitionEq, Option.some.injEq, Prod.mk.injEq] at h
      simp [← h.1]
    · unfold partitionEq at h
      split at h
      · simp at *
      · rename_i h1; simp at h1; exact absurd h1.1 (by first | exact hc | exact fun e => hc e.symm)
      · rename_i c r hne h1
        injection h1 with e1 e2
        subst e1; subst e2
        rw [Option.map_eq_some_iff] at h
        obtain ⟨⟨p', v'⟩, h2, h3⟩ := h
        injection h3 with e3 e4
        obtain ⟨h4, h5⟩ := partitionEq_some _ h2
        subst e3
        simp only at *
        refine ⟨?_, List.mem_cons_of_mem _ h5⟩
        rw [List.takeWhile_cons_of_pos (by simpa using hc), h4]

theorem partitionEq_none : ∀ (s : Str), partitionEq s = none → '=' ∉ s
  | [], _ => by simp
  | ch :: rest, h => by
    by_cases hc : ch = '='
    · subst hc; simp [partitionEq] at h
    · have h' : partitionEq rest = none := by
        unfold partitionEq at h
        split at h
        · simp at *
        · rename_i h1; simp at h1; exact absurd h1.1 (by first | exact hc | exact fun e => hc e.symm)
        · rename_i c r hne h1
          injection h1 with e1 e2
          subst e1; subst e2
          simpa using h
      have := partitionEq_none rest h'
      simp only [List.mem_cons, not_or]
      exact ⟨fun e => hc e.symm, this⟩

theorem partitionEq_free {s : Str} (h : '=' ∉ s) : partitionEq s = none := by
  cases hp : partitionEq s with
  | none => rfl
  | some p => exact absurd (partitionEq_some s (p := p.1) (v := p.2) hp).2 h

theorem partitionEq_append : ∀ (n v : Str), '=' ∉ n → partitionEq (n ++ '=' :: v) = some (n, v)
  | [], v, _ => by simp [partitionEq]
  | ch :: rest, v, h => by
    simp only [List.mem_cons, not_or] at h
    have ih := partitionEq_append rest v h.2
    rw [List.cons_append]
    unfold partitionEq
    split
    · simp at *
    · rename_i h1; simp at h1; exact absurd h1.1.symm h.1
    · rename_i c r hne h1
      injection h1 with e1 e2
      subst e1; subst e2
      rw [ih]; rfl

theorem takeWhile_free {s : Str} (h : '=' ∉ s) : s.takeWhile (fun ch => ch ≠ '=') = s := by
  induction s with
  | nil => rfl
  | cons ch s ih =>
    simp only [List.mem_cons, not_or] at h
    rw [List.takeWhile_cons_of_pos (by simpa using fun e => h.1 e.symm), ih h.2]

theorem filterMap_none {α β : Type} {f : α → Option β} {l : List α} (h : ∀ m ∈ l, f m = none) : l.filterMap f = [] := by
  rw [List.filterMap_eq_nil_iff]
  exact h

theorem filterMap_one {α β : Type} {f : α → Option β} : ∀ {l : List α}, l.Nodup → ∀ {n : α} {y : β}, n ∈ l → f n = some y → (∀ m ∈ l, m ≠ n → f m = none) →
    l.filterMap f = [y]
  | a :: l, hnd, n, y, hn, hy, hm => by
    rw [List.nodup_cons] at hnd
    by_cases e : a = n
    · subst e
      rw [List.filterMap_cons_some hy, filterMap_none]
      intro m h
      refine hm m (List.mem_cons_of_mem _ h) ?_
      rintro rfl
      exact hnd.1 h
    · rw [List.filterMap_cons_none (hm a List.mem_cons_self e)]
      refine filterMap_one hnd.2 ?_ hy (fun m h => hm m (List.mem_cons_of_mem _ h))
      rcases List.mem_cons.mp hn with h | h
      · exact absurd h.symm e
      · exact h

theorem prefix_second {c d : Char} {r s : Str} (h : '-' :: c :: r <+: '-' :: d :: s) : c = d := by
  rw [List.cons_prefix_cons, List.cons_prefix_cons] at h
  exact h.2.1

section
variable {T : OptTable} (hT : TableOk T)
include hT

theorem name_shape {n : Str} (h : n ∈ optNames T) : ∃ ch rest, n = '-' :: ch :: rest ∧ ch.isDigit = false ∧ ch ≠ '.' ∧ ' ' ∉ n ∧ '=' ∉ n ∧ n ≠ "--".toList :=
  nameOk_spec (hT.name n h)

theorem classify_plain {v : Str} (h : PlainWord v) : classify (optNames T) v = some (.value v) ∧ v ≠ ['-', '-'] := by
  rcases h with h | ⟨ds, rfl, h1, h2⟩
  · constructor
    · unfold classify
      split
      · simp at h
      · rfl
    · rintro rfl
      simp at h
  · obtain ⟨d, ds, rfl⟩ := List.exists_cons_of_ne_nil h1
    have hd : d.isDigit = true := h2 d List.mem_cons_self
    have hd' : d ≠ '-' := by rintro rfl; exact absurd hd (by decide)
    have hnot : ('-' :: d :: ds) ∉ optNames T := by
      intro hm
      obtain ⟨c, r, e, hc, -⟩ := name_shape hT hm
      injection e with _ e
      injection e with e _
      subst e
      rw [hd] at hc
      exact absurd hc (by simp)
    have heq : '=' ∉ ('-' :: d :: ds) := by
      intro hm
      rcases List.mem_cons.mp hm with h | h
      · exact absurd h (by decide)
      · exact absurd (h2 _ h) (by decide)
    constructor
    · unfold classify
      simp only [hnot, if_false, partitionEq_free heq, List.cons_ne_nil]
      unfold classify.classifyRest
      have : optionTuples (optNames T) ('-' :: d :: ds) = [] := by
        unfold optionTuples
        have ht : ('-' :: d :: ds).take 2 ≠ ['-', '-'] := by simp [hd']
        rw [if_neg ht]
        apply filterMap_none
        intro m hm
        obtain ⟨c, r, rfl, hc, -⟩ := name_shape hT hm
        have hcd : c ≠ d := by rintro rfl; rw [hd] at hc; exact absurd hc (by simp)
        rw [if_neg (by
          intro e
          simp only [List.take_succ_cons, List.take_zero] at e
          injection e with _ e
          injection e with e _
          exact hcd e), if_neg (fun hp => hcd (prefix_second hp).symm)]
      rw [this]
      have hl : looksNumber (d :: ds) = true := by
        unfold looksNumber
        simp only [ne_eq, List.cons_ne_nil, not_false_eq_true, decide_true, Bool.true_and, Bool.or_eq_true]
        left
        rw [List.all_eq_true]
        exact h2
      simp only [hl, if_true]
    · intro e
      injection e with _ e
      injection e with e _
      exact hd' e

theorem classify_name {n : Str} (h : n ∈ optNames T) : classify (optNames T) n = some (.option n none) ∧ n ≠ ['-', '-'] := by
  obtain ⟨c, r, rfl, -, -, -, -, h5⟩ := name_shape hT h
  refine ⟨?_, h5⟩
  unfold classify
  simp only [h, if_true]

theorem classify_abbr {w n : Str} {k : NArgs} (hn : (n, k) ∈ T) (hk : k ≠ .help) (h : Abbreviates T w n) :
    classify (optNames T) w = some (.option n none) ∧ w ≠ ['-', '-'] := by
  obtain ⟨hl, hp, huniq⟩ := h
  have hn' : n ∈ optNames T := List.mem_map.mpr ⟨_, hn, rfl⟩
  by_cases hw : w ∈ optNames T
  · have := huniq w hw (List.prefix_refl _)
    subst this
    exact classify_name hT hn'
  · obtain ⟨c, r, e, hc1, hc2, h3, h4, h5⟩ := name_shape hT hn'
    obtain ⟨ch, rest, rfl⟩ : ∃ ch rest, w = '-' :: ch :: rest := by
      match w, hl with
      | a :: b :: rest, _ =>
        rw [e, List.cons_prefix_cons] at hp
        exact ⟨b, rest, by rw [hp.1]⟩
    have hcc : ch = c := by rw [e] at hp; exact prefix_second hp
    have hdash : ch ≠ '-' := by
      rintro rfl
      exact hk (hT.help _ hn (by show n.take 2 = _; rw [e, ← hcc]; rfl))
    refine ⟨?_, by intro e; injection e with _ e; injection e with e _; exact hdash e⟩
    have heq : '=' ∉ ('-' :: ch :: rest) := fun hm => h4 (hp.subset hm)
    unfold classify
    simp only [hw, if_false, partitionEq_free heq, List.cons_ne_nil]
    unfold classify.classifyRest
    have : optionTuples (optNames T) ('-' :: ch :: rest) = [(n, none)] := by
      unfold optionTuples
      rw [if_neg (by simp [hdash])]
      have hshort : ∀ m ∈ optNames T, m ≠ ('-' :: ch :: rest).take 2 := by
        intro m hm e'
        have hm2 : m.length = 2 := by rw [e']; simp
        have hmn : m <+: n := by rw [e']; exact (List.take_prefix _ _).trans hp
        have := hT.short m hm hm2 n hn' hmn
        have hw2 : ('-' :: ch :: rest) = n := by
          apply hp.eq_of_length_le
          rw [this, hm2]
          simp
        exact hw (hw2 ▸ hn')
      refine filterMap_one hT.nodup hn' ?_ ?_
      · rw [if_neg (hshort n hn'), if_pos hp]
      · intro m hm hne
        rw [if_neg (hshort m hm), if_neg (fun h => hne (huniq m hm h))]
    rw [this]

theorem classify_joined {n v : Str} (hn : n ∈ optNames T) : classify (optNames T) (n ++ '=' :: v) = some (.option n (some v)) ∧ n ++ '=' :: v ≠ ['-', '-'] := by
  obtain ⟨c, r, e, hc1, hc2, h3, h4, h5⟩ := name_shape hT hn
  have hnot : n ++ '=' :: v ∉ optNames T := by
    intro hm
    obtain ⟨_, _, _, _, _, _, h4', _⟩ := name_shape hT hm
    exact h4' (by simp)
  have hp := partitionEq_append n v h4
  constructor
  · rw [e] at hnot hp hn ⊢
    simp only [List.cons_append] at hnot hp ⊢
    unfold classify
    simp only [hnot, if_false, hp, hn, if_true, List.cons_ne_nil]
  · intro e'
    have : '=' ∈ ['-', '-'] := by rw [← e']; simp
    exact absurd this (by decide)

theorem classify_unknown {w : Str} (h : Unrecognised T w) : classify (optNames T) w = some (.unknown w) ∧ w ≠ ['-', '-'] := by
  obtain ⟨⟨c, r, e, hd, hdot⟩, hs, hdd, hno⟩ := h
  refine ⟨?_, hdd⟩
  have hno' : ∀ m ∈ optNames T, ¬ w.takeWhile (fun ch => ch ≠ '=') <+: m ∧ ¬ (m.length = 2 ∧ m <+: w) := hno
  have hstem : w.takeWhile (fun ch => ch ≠ '=') <+: w := List.takeWhile_prefix _
  have hnot : w ∉ optNames T := fun hm => (hno' w hm).1 hstem
  have hl : looksNumber (c :: r) = false := by
    unfold looksNumber
    rw [List.dropWhile_cons_of_neg (by simp [hd])]
    simp [hd, hdot]
  have hrest : classify.classifyRest (optNames T) w (c :: r) = some (.unknown w) := by
    unfold classify.classifyRest
    have : optionTuples (optNames T) w = [] := by
      unfold optionTuples
      split
      · cases hp : partitionEq w with
        | none =>
          simp only
          apply filterMap_none
          intro m hm
          rw [if_neg (fun h => (hno' m hm).1 (hstem.trans h))]
        | some p =>
          obtain ⟨h1, -⟩ := partitionEq_some w (p := p.1) (v := p.2) hp
          simp only
          apply filterMap_none
          intro m hm
          rw [if_neg (fun h => (hno' m hm).1 (h1 ▸ h))]
      · apply filterMap_none
        intro m hm
        rw [if_neg (fun h => (hno' m hm).2 ⟨by rw [h, e]; simp, by rw [h]; exact List.take_prefix _ _⟩), if_neg (fun h => (hno' m hm).1 (hstem.trans h))]
    rw [this]
    simp only [hl, hs, if_false]
    simp
  rw [e] at hnot hrest ⊢
  unfold classify
  simp only [hnot, if_false, List.cons_ne_nil]
  split
  · rename_i p v hp
    rw [if_neg (fun hm => (hno' p hm).1 (by
      obtain ⟨h1, -⟩ := partitionEq_some _ hp
      rw [e, ← h1]))]
    exact hrest
  · exact hrest

/-! ## the whole line -/

theorem classifyAll_plain {vs : List Str} (h : ∀ v ∈ vs, PlainWord v) (rest : List Str) :
    classifyAll (optNames T) (vs ++ rest) = (classifyAll (optNames T) rest).map (fun ws => vs.map .value ++ ws) := by
  induction vs with
  | nil => simp
  | cons v vs ih =>
    obtain ⟨h1, h2⟩ := classify_plain hT (h v List.mem_cons_self)
    have ih := ih (fun v hv => h v (List.mem_cons_of_mem _ hv))
    have hcons : classifyAll (optNames T) (v :: (vs ++ rest)) =
        (classify (optNames T) v).bind (fun w => (classifyAll (optNames T) (vs ++ rest)).bind (fun ws => some (w :: ws))) := by
      conv_lhs => unfold classifyAll
      rw [if_neg h2]
      rfl
    rw [List.cons_append, hcons, h1, ih]
    cases classifyAll (optNames T) rest <;> rfl

omit hT in
theorem segment_values (vs : List Str) (ws : List Word) : segment (vs.map .value ++ ws) = (vs ++ (segment ws).1, (segment ws).2) := by
  induction vs with
  | nil => rfl
  | cons v vs ih => simp only [List.map_cons, List.cons_append, segment, ih]

theorem find_arity {n : Str} {k : NArgs} (hn : (n, k) ∈ T) : (T.find? (fun o => decide (o.1 = n))).map (·.2) = some k := by
  have hnd : (T.map (·.1)).Nodup := hT.nodup
  clear hT
  induction T with
  | nil => simp at hn
  | cons o T ih =>
    rw [List.map_cons, List.nodup_cons] at hnd
    by_cases e : o.1 = n
    · rw [List.find?_cons_of_pos (by simpa using e)]
      rcases List.mem_cons.mp hn with h | h
      · rw [← h]; rfl
      · exact absurd (List.mem_map.mpr ⟨_, h, e.symm⟩) hnd.1
    · rw [List.find?_cons_of_neg (by simpa using e)]
      refine ih ?_ hnd.2
      rcases List.mem_cons.mp hn with h | h
      · exact absurd (by rw [← h]) e
      · exact h

omit hT in
theorem takeValues_apart {k : NArgs} {vals extra : List Str} (h : Takes k vals) (hm : k = .many → extra = []) :
    takeValues k none (vals ++ extra) = some (vals, extra) := by
  cases k with
  | flag => simp only [Takes] at h; subst h; rfl
  | one =>
    simp only [Takes, List.length_eq_one_iff] at h
    obtain ⟨v, rfl⟩ := h
    rfl
  | many =>
    simp only [Takes] at h
    rw [hm rfl]
    obtain ⟨v, vs, rfl⟩ := List.exists_cons_of_ne_nil h
    simp [takeValues]
  | exactly k =>
    simp only [Takes] at h
    simp only [takeValues, List.length_append]
    rw [if_pos (by omega), ← h]
    simp
  | help => exact absurd h (by simp [Takes])

omit hT in
theorem takeValues_joined {k : NArgs} {v : Str} {extra : List Str} (h : k = .one ∨ k = .many ∨ k = .exactly 1) : takeValues k (some v) extra = some ([v], extra) := by
  rcases h with rfl | rfl | rfl <;> simp [takeValues]

omit hT in
theorem withTail_cons (l : List Str) (loose : List (List Str)) (vs : List Str) :
    withTail (l :: loose) vs = (l ++ (if loose = [] then vs else [])) :: withTail loose vs := by
  cases loose with
  | nil => rfl
  | cons l' r => simp [withTail]

omit hT in
theorem withTail_nil : ∀ loose : List (List Str), withTail loose [] = loose
  | [] => rfl
  | l :: r => by rw [withTail_cons, withTail_nil r]; simp

theorem reads_tail {argv : List Str} {given : List (Str × List Str)} {loose : List (List Str)} (h : Reads T argv given loose) {tail vs : List Str}
    (ht : tail = [] ∧ vs = [] ∨ tail = "--".toList :: vs) :
    ∃ ws, classifyAll (optNames T) (argv ++ tail) = some ws ∧ (segment ws).1 = [] ∧ afterDashes (segment ws).2 = (if loose = [] then vs else []) ∧
      collect T (segment ws).2 = some (given, withTail loose vs) := by
  induction h with
  | nil =>
    rcases ht with ⟨rfl, rfl⟩ | rfl
    · exact ⟨[], rfl, rfl, rfl, rfl⟩
    · refine ⟨.dashes :: vs.map .value, ?_, rfl, ?_, ?_⟩
      · rw [List.nil_append]
        unfold classifyAll
        rw [if_pos (by rfl)]
      · have := segment_values vs []
        rw [List.append_nil] at this
        simp only [segment, this, List.append_nil, afterDashes, if_true]
      · have := segment_values vs []
        rw [List.append_nil] at this
        simp only [segment, collect, withTail, this]
  | @apart w n k vals extra rest given loose hn hw hv hplain hmany hrest ih =>
    obtain ⟨ws, h1, h2, h3, h4⟩ := ih
    have hn' : n ∈ optNames T := List.mem_map.mpr ⟨_, hn, rfl⟩
    have hk : k ≠ .help := by rintro rfl; exact hv
    obtain ⟨c1, c2⟩ : classify (optNames T) w = some (.option n none) ∧ w ≠ ['-', '-'] := by
      rcases hw with rfl | hw
      · exact classify_name hT hn'
      · exact classify_abbr hT hn hk hw
    refine ⟨.option n none :: ((vals ++ extra).map .value ++ ws), ?_, rfl, rfl, ?_⟩
    · rw [List.cons_append, List.cons_append, List.append_assoc]
      unfold classifyAll
      rw [if_neg c2, c1, classifyAll_plain hT hplain, h1]
      rfl
    · simp only [segment, segment_values, h2, List.append_nil, collect, find_arity hT hn, takeValues_apart hv hmany, h4, h3, Option.bind_eq_bind, Option.bind_some, withTail_cons]
  | @joined n v k extra rest given loose hn hk hs hplain hrest ih =>
    obtain ⟨ws, h1, h2, h3, h4⟩ := ih
    have hn' : n ∈ optNames T := List.mem_map.mpr ⟨_, hn, rfl⟩
    obtain ⟨c1, c2⟩ := classify_joined hT (v := v) hn'
    refine ⟨.option n (some v) :: (extra.map .value ++ ws), ?_, rfl, rfl, ?_⟩
    · rw [List.cons_append, List.cons_append, List.append_assoc]
      unfold classifyAll
      rw [if_neg c2, c1, classifyAll_plain hT hplain, h1]
      rfl
    · simp only [segment, segment_values, h2, List.append_nil, collect, find_arity hT hn, takeValues_joined hk, h4, h3, Option.bind_eq_bind, Option.bind_some, withTail_cons]
  | @ignored w extra rest given loose hw hplain hrest ih =>
    obtain ⟨ws, h1, h2, h3, h4⟩ := ih
    obtain ⟨c1, c2⟩ := classify_unknown hT hw
    refine ⟨.unknown w :: (extra.map .value ++ ws), ?_, rfl, rfl, ?_⟩
    · rw [List.cons_append, List.cons_append, List.append_assoc]
      unfold classifyAll
      rw [if_neg c2, c1, classifyAll_plain hT hplain, h1]
      rfl
    · simp only [segment, segment_values, h2, List.append_nil, collect, h4, h3, Option.bind_eq_bind, Option.bind_some, withTail_cons]

theorem reads_ok {argv : List Str} {given : List (Str × List Str)} {loose : List (List Str)} (h : Reads T argv given loose) :
    ∃ ws, classifyAll (optNames T) argv = some ws ∧ (segment ws).1 = [] ∧ afterDashes (segment ws).2 = [] ∧ collect T (segment ws).2 = some (given, loose) := by
  obtain ⟨ws, h1, h2, h3, h4⟩ := reads_tail hT h (tail := []) (vs := []) (.inl ⟨rfl, rfl⟩)
  rw [List.append_nil] at h1
  rw [withTail_nil] at h4
  exact ⟨ws, h1, h2, by rw [h3]; simp, h4⟩

omit hT in
theorem line_plain {lead rest : List Str} {given : List (Str × List Str)} {more : List (List Str)} (hlead : ∀ v ∈ lead, PlainWord v) (h : Reads T rest given more) :
    Line T (lead ++ rest) given ((lead :: more).filter (fun l => l ≠ [])) :=
  ⟨lead, rest, more, [], [], .inl ⟨rfl, rfl⟩, (List.append_nil _).symm, hlead, h, by rw [withTail_nil]⟩

theorem line_ok {argv : List Str} {given : List (Str × List Str)} {loose : List (List Str)} (h : Line T argv given loose) : knownArgs T argv = some (given, loose) := by
  obtain ⟨lead, rest, more, tail, vs, ht, rfl, hlead, hr, rfl⟩ := h
  obtain ⟨ws, h1, h2, h3, h4⟩ := reads_tail hT hr ht
  unfold knownArgs
  rw [List.append_assoc, classifyAll_plain hT hlead, h1]
  simp only [Option.map_some, Option.bind_eq_bind, Option.bind_some, segment_values, h2, h3, h4, List.append_nil, withTail_cons]

end

/-! ## the common parser on the same line -/

/-- The common options are part of the options of the program. -/
structure SubTable (B T : OptTable) : Prop where
  sub : ∀ o ∈ B, o ∈ T
  long : ∀ o ∈ B, o.1.length ≠ 2
  apart : ∀ n ∈ optNames T, ∀ m ∈ optNames B, n <+: m → n = m

theorem base_enum : SubTable baseTable enumTable := by constructor <;> decide +kernel

theorem base_make : SubTable baseTable makeTable := by constructor <;> decide +kernel

/-- The common options among the options given. -/
def commonOf (B : OptTable) (given : List (Str × List Str)) : List (Str × List Str) := given.filter (fun p => decide (p.1 ∈ optNames B))

theorem unknown_in_base {B T : OptTable} (hT : TableOk T) (hBT : SubTable B T) {w n : Str} {k : NArgs} (hn : (n, k) ∈ T) (hk : k ≠ .help) (hw : w = n ∨ Abbreviates T w n)
    (hnb : n ∉ optNames B) : Unrecognised B w := by
  have hn' : n ∈ optNames T := List.mem_map.mpr ⟨_, hn, rfl⟩
  obtain ⟨c, r, e, hc1, hc2, h3, h4, h5⟩ := name_shape hT hn'
  have hp : w <+: n := by rcases hw with rfl | hw; exacts [List.prefix_refl _, hw.2.1]
  have hl : 2 ≤ w.length := by rcases hw with rfl | hw; exacts [by rw [e]; simp, hw.1]
  have hwe : '=' ∉ w := fun h => h4 (hp.subset h)
  obtain ⟨rest, hshape⟩ : ∃ rest, w = '-' :: c :: rest := by
    match w, hl with
    | a :: b :: rest, _ =>
      rw [e, List.cons_prefix_cons, List.cons_prefix_cons] at hp
      exact ⟨rest, by rw [hp.1, hp.2.1]⟩
  have hdash : c ≠ '-' := by
    rintro rfl
    exact hk (hT.help _ hn (by show n.take 2 = _; rw [e]; rfl))
  refine ⟨⟨c, rest, hshape, hc1, hc2⟩, fun h => h3 (hp.subset h), ?_, ?_⟩
  · rw [hshape]
    intro e'
    have : ('-' :: c :: rest) = ['-', '-'] := e'
    injection this with _ e2
    injection e2 with e2 _
    exact hdash e2
  · intro m hm
    have hm' : m ∈ optNames B := hm
    obtain ⟨o, ho, rfl⟩ := List.mem_map.mp hm'
    rw [takeWhile_free hwe]
    refine ⟨fun h => ?_, fun h => hBT.long o ho h.1⟩
    rcases hw with rfl | hw
    · have := hBT.apart w hn' o.1 hm' h
      exact hnb (this ▸ hm')
    · have : o.1 = n := hw.2.2 o.1 (List.mem_map.mpr ⟨o, hBT.sub o ho, rfl⟩) h
      exact hnb (this ▸ hm')

theorem reads_base {B T : OptTable} (hT : TableOk T) (hBT : SubTable B T) {argv : List Str} {given : List (Str × List Str)} {loose : List (List Str)}
    (h : Reads T argv given loose) : ∃ loose', Reads B argv (commonOf B given) loose' := by
  induction h with
  | nil => exact ⟨[], .nil⟩
  | @apart w n k vals extra rest given loose hn hw hv hplain hmany hrest ih =>
    obtain ⟨loose', ih⟩ := ih
    have hk : k ≠ .help := by rintro rfl; exact hv
    by_cases hnb : n ∈ optNames B
    · obtain ⟨o, ho, rfl⟩ := List.mem_map.mp hnb
      have hok : o.2 = k := by
        have h1 := find_arity hT hn
        have h2 := find_arity hT (n := o.1) (k := o.2) (hBT.sub o ho)
        rw [h1] at h2
        exact (Option.some.inj h2).symm
      refine ⟨extra :: loose', ?_⟩
      have : commonOf B ((o.1, vals) :: given) = (o.1, vals) :: commonOf B given := by
        unfold commonOf
        rw [List.filter_cons_of_pos (by simpa using hnb)]
      rw [this]
      refine .apart (k := k) (by rw [← hok]; exact ho) ?_ hv hplain hmany ih
      rcases hw with rfl | hw
      · exact .inl rfl
      · exact .inr ⟨hw.1, hw.2.1, fun m hm h => by
          obtain ⟨o', ho', rfl⟩ := List.mem_map.mp hm
          exact hw.2.2 o'.1 (List.mem_map.mpr ⟨o', hBT.sub o' ho', rfl⟩) h⟩
    · refine ⟨(vals ++ extra) :: loose', ?_⟩
      have : commonOf B ((n, vals) :: given) = commonOf B given := by
        unfold commonOf
        rw [List.filter_cons_of_neg (by simpa using hnb)]
      rw [this]
      exact .ignored (unknown_in_base hT hBT hn hk hw hnb) hplain ih
  | @joined n v k extra rest given loose hn hk hs hplain hrest ih =>
    obtain ⟨loose', ih⟩ := ih
    have hn' : n ∈ optNames T := List.mem_map.mpr ⟨_, hn, rfl⟩
    by_cases hnb : n ∈ optNames B
    · obtain ⟨o, ho, rfl⟩ := List.mem_map.mp hnb
      have hok : o.2 = k := by
        have h1 := find_arity hT hn
        have h2 := find_arity hT (n := o.1) (k := o.2) (hBT.sub o ho)
        rw [h1] at h2
        exact (Option.some.inj h2).symm
      refine ⟨extra :: loose', ?_⟩
      have : commonOf B ((o.1, [v]) :: given) = (o.1, [v]) :: commonOf B given := by
        unfold commonOf
        rw [List.filter_cons_of_pos (by simpa using hnb)]
      rw [this]
      exact .joined (k := k) (by rw [← hok]; exact ho) hk hs hplain ih
    · refine ⟨extra :: loose', ?_⟩
      have : commonOf B ((n, [v]) :: given) = commonOf B given := by
        unfold commonOf
        rw [List.filter_cons_of_neg (by simpa using hnb)]
      rw [this]
      refine .ignored ?_ hplain ih
      obtain ⟨c, r, e, hc1, hc2, h3, h4, h5⟩ := name_shape hT hn'
      refine ⟨⟨c, r ++ '=' :: v, by rw [e]; rfl, hc1, hc2⟩, ?_, ?_, ?_⟩
      · simp only [List.mem_append, List.mem_cons, not_or]
        exact ⟨h3, by decide, hs⟩
      · intro e'
        have : '=' ∈ "--".toList := by rw [← e']; simp
        exact absurd this (by decide +kernel)
      · intro m hm
        obtain ⟨o, ho, rfl⟩ := List.mem_map.mp hm
        have : (n ++ '=' :: v).takeWhile (fun ch => ch ≠ '=') = n := by
          have h6 := (partitionEq_some _ (partitionEq_append n v h4)).1
          exact h6.symm
        rw [this]
        exact ⟨fun h => hnb ((hBT.apart n hn' o.1 hm h) ▸ hm), fun h => hBT.long o ho h.1⟩
  | @ignored w extra rest given loose hw hplain hrest ih =>
    obtain ⟨loose', ih⟩ := ih
    refine ⟨extra :: loose', .ignored ?_ hplain ih⟩
    exact ⟨hw.1, hw.2.1, hw.2.2.1, fun m hm => by
      obtain ⟨o, ho, rfl⟩ := List.mem_map.mp hm
      exact hw.2.2.2 o.1 (List.mem_map.mpr ⟨o, hBT.sub o ho, rfl⟩)⟩

theorem line_base {B T : OptTable} (hT : TableOk T) (hB : TableOk B) (hBT : SubTable B T) {argv : List Str} {given : List (Str × List Str)} {loose : List (List Str)}
    (h : Line T argv given loose) : ∃ loose', knownArgs B argv = some (commonOf B given, loose') := by
  obtain ⟨lead, rest, more, tail, vs, ht, rfl, hlead, hr, rfl⟩ := h
  obtain ⟨more', hr'⟩ := reads_base hT hBT hr
  exact ⟨_, line_ok hB ⟨lead, rest, more', tail, vs, ht, rfl, hlead, hr', rfl⟩⟩

theorem hasOpt_common {B : OptTable} {given : List (Str × List Str)} {name : String} (h : name.toList ∈ optNames B) :
    hasOpt (commonOf B given) name = hasOpt given name := by
  unfold hasOpt commonOf
  rw [Bool.eq_iff_iff]
  simp only [List.any_eq_true, List.mem_filter, decide_eq_true_eq]
  constructor
  · rintro ⟨p, ⟨h1, h2⟩, h3⟩
    exact ⟨p, h1, h3⟩
  · rintro ⟨p, h1, h3⟩
    exact ⟨p, ⟨h1, h3 ▸ h⟩, h3⟩

/-- What the program does with a line that is understood. -/
theorem exhandler_line {α : Type} {T : OptTable} (hT : TableOk T) (hBT : SubTable baseTable T) (options : List (Str × List Str) → List (List Str) → Option α) {argv : List Str}
    {given : List (Str × List Str)} {loose : List (List Str)} (h : Line T argv given loose) :
    exhandlerLine T options argv =
      if (commonOf baseTable given).all valuesOk = false then .stop
      else if hasOpt given "-examples" then .examples
      else if given.all valuesOk = false then .stop
      else match options given loose with
        | none => .stop
        | some o => .run (hasOpt given "-verbose") o := by
  obtain ⟨loose', hb⟩ := line_base hT baseTable_ok hBT h
  unfold exhandlerLine
  rw [hb, line_ok hT h]
  simp only [hasOpt_common (B := baseTable) (name := "-examples") (by decide +kernel), hasOpt_common (B := baseTable) (name := "-verbose") (by decide +kernel)]
  rfl

/-! ## the order of the options -/

theorem hasOpt_perm {given given' : List (Str × List Str)} (h : given.Perm given') (name : String) : hasOpt given name = hasOpt given' name := by
  unfold hasOpt
  rw [Bool.eq_iff_iff]
  simp only [List.any_eq_true]
  exact ⟨fun ⟨p, h1, h2⟩ => ⟨p, h.mem_iff.mp h1, h2⟩, fun ⟨p, h1, h2⟩ => ⟨p, h.mem_iff.mpr h1, h2⟩⟩

theorem all_perm {given given' : List (Str × List Str)} (h : given.Perm given') (f : Str × List Str → Bool) : given.all f = given'.all f := by
  rw [Bool.eq_iff_iff]
  simp only [List.all_eq_true]
  exact ⟨fun h1 p hp => h1 p (h.mem_iff.mpr hp), fun h1 p hp => h1 p (h.mem_iff.mp hp)⟩

theorem filter_name_short {given : List (Str × List Str)} (hnd : (given.map (·.1)).Nodup) (n : Str) : (given.filter (fun p => decide (p.1 = n))).length ≤ 1 := by
  induction given with
  | nil => simp
  | cons p l ih =>
    rw [List.map_cons, List.nodup_cons] at hnd
    by_cases e : p.1 = n
    · rw [List.filter_cons_of_pos (by simpa using e)]
      have : l.filter (fun p => decide (p.1 = n)) = [] := by
        rw [List.filter_eq_nil_iff]
        intro q hq
        simp only [decide_eq_true_eq]
        intro e'
        exact hnd.1 (List.mem_map.mpr ⟨q, hq, e'.trans e.symm⟩)
      rw [this]
      simp
    · rw [List.filter_cons_of_neg (by simpa using e)]
      exact ih hnd.2

theorem lastOpt_perm {given given' : List (Str × List Str)} (h : given.Perm given') (hnd : (given.map (·.1)).Nodup) (name : String) :
    lastOpt given name = lastOpt given' name := by
  unfold lastOpt
  have hp : (given.filter (fun p => decide (p.1 = name.toList))).Perm (given'.filter (fun p => decide (p.1 = name.toList))) := h.filter _
  have h1 := filter_name_short hnd name.toList
  congr 2
  revert hp h1
  generalize given.filter (fun p => decide (p.1 = name.toList)) = l
  generalize given'.filter (fun p => decide (p.1 = name.toList)) = l'
  intro hp h1
  match l, h1 with
  | [], _ => rw [hp.nil_eq]
  | [a], _ => rw [List.singleton_perm.mp hp]

theorem enumOptions_perm {given given' : List (Str × List Str)} (h : given.Perm given') (hnd : (given.map (·.1)).Nodup) : enumOptions given = enumOptions given' := by
  unfold enumOptions lastOne
  simp only [hasOpt_perm h, lastOpt_perm h hnd]

theorem makeOptions_perm {given given' : List (Str × List Str)} (h : given.Perm given') (hnd : (given.map (·.1)).Nodup) {loose loose' : List (List Str)}
    (hl : loose.head? = loose'.head?) : makeOptions given loose = makeOptions given' loose' := by
  unfold makeOptions lastOne
  simp only [lastOpt_perm h hnd, hl]

theorem hasOpt_iff {given : List (Str × List Str)} {name : String} : hasOpt given name = true ↔ name.toList ∈ given.map (·.1) := by
  unfold hasOpt
  simp only [List.any_eq_true, decide_eq_true_eq, List.mem_map]

theorem filter_name_none {given : List (Str × List Str)} {n : Str} (h : n ∉ given.map (·.1)) : given.filter (fun p => decide (p.1 = n)) = [] := by
  rw [List.filter_eq_nil_iff]
  intro q hq
  simp only [decide_eq_true_eq]
  intro e'
  exact h (List.mem_map.mpr ⟨q, hq, e'⟩)

theorem lastOpt_last {given : List (Str × List Str)} {name : String} {vals : List Str} (h : LastGiven given name.toList vals) : lastOpt given name = some vals := by
  obtain ⟨g, g', rfl, h⟩ := h
  unfold lastOpt
  rw [List.filter_append, List.filter_cons_of_pos (by simp), filter_name_none h]
  simp

theorem lastGiven_exists {n : Str} : ∀ {given : List (Str × List Str)}, n ∈ given.map (·.1) → ∃ vals, LastGiven given n vals
  | p :: l, h => by
    by_cases hl : n ∈ l.map (·.1)
    · obtain ⟨vals, g, g', rfl, h'⟩ := lastGiven_exists hl
      exact ⟨vals, p :: g, g', rfl, h'⟩
    · rw [List.map_cons, List.mem_cons] at h
      rcases h with rfl | h
      · exact ⟨p.2, [], l, rfl, hl⟩
      · exact absurd h hl

theorem lastGiven_mem {given : List (Str × List Str)} {n : Str} {vals : List Str} (h : LastGiven given n vals) : (n, vals) ∈ given := by
  obtain ⟨g, g', rfl, -⟩ := h
  simp

theorem lastGiven_of_mem {given : List (Str × List Str)} (hnd : (given.map (·.1)).Nodup) {n : Str} {vals : List Str} (h : (n, vals) ∈ given) : LastGiven given n vals := by
  obtain ⟨g, g', rfl⟩ := List.append_of_mem h
  refine ⟨g, g', rfl, ?_⟩
  rw [List.map_append, List.map_cons] at hnd
  exact (List.nodup_cons.mp (List.nodup_append.mp hnd).2.1).1

theorem lastOpt_none {given : List (Str × List Str)} {name : String} (h : name.toList ∉ given.map (·.1)) : lastOpt given name = none := by
  unfold lastOpt
  have : given.filter (fun p => decide (p.1 = name.toList)) = [] := by
    rw [List.filter_eq_nil_iff]
    intro q hq
    simp only [decide_eq_true_eq]
    intro e'
    exact h (List.mem_map.mpr ⟨q, hq, e'⟩)
  rw [this]
  rfl

end Phenum
