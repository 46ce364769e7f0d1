import Verif.Props.PoscarText
import Verif.Proof.MakeStr
/-
C84, the titles: the first line of a POSCAR and the name of a structure in a config file.
-/
namespace Phenum
open Spec

theorem split_dropWs (s : Str) : pySplit (s.dropWhile isWs) = pySplit s := by
  induction s with
  | nil => rfl
  | cons ch s ih =>
    by_cases h : isWs ch = true
    · rw [List.dropWhile_cons_of_pos h, ih, split_cons_ws h]
    · rw [List.dropWhile_cons_of_neg h]

theorem split_strip (s : Str) : pySplit (strip s) = pySplit s := by
  unfold strip
  rw [split_dropWs, split_rstrip]

theorem strip_sub (s : Str) : ∀ ch ∈ strip s, ch ∈ s := by
  intro ch h
  have h1 : ch ∈ rstrip s := (List.dropWhile_suffix _).subset h
  unfold rstrip at h1
  rw [List.mem_reverse] at h1
  exact List.mem_reverse.mp ((List.dropWhile_suffix _).subset h1)

/-- A text is its stripped form between white space. -/
theorem strip_parts (s : Str) : ∃ a b, s = a ++ strip s ++ b ∧ (∀ ch ∈ a, isWs ch = true) ∧ ∀ ch ∈ b, isWs ch = true := by
  have h1 : s = rstrip s ++ (s.reverse.takeWhile isWs).reverse := by
    unfold rstrip
    rw [← List.reverse_append, List.takeWhile_append_dropWhile, List.reverse_reverse]
  refine ⟨(rstrip s).takeWhile isWs, (s.reverse.takeWhile isWs).reverse, ?_, ?_, ?_⟩
  · unfold strip
    rw [List.takeWhile_append_dropWhile]
    exact h1
  · intro ch h
    exact List.all_eq_true.mp (List.all_takeWhile (p := isWs)) ch h
  · intro ch h
    exact List.all_eq_true.mp (List.all_takeWhile (p := isWs)) ch (List.mem_reverse.mp h)

theorem rstrip_append {x b : Str} (hb : ∀ ch ∈ b, isWs ch = true) : rstrip (x ++ b) = rstrip x := by
  unfold rstrip
  rw [List.reverse_append, List.dropWhile_append_of_pos (by simpa using hb)]

theorem rstrip_end {x : Str} {ch : Char} (h : isWs ch = false) : rstrip (x ++ [ch]) = x ++ [ch] := by
  unfold rstrip
  rw [List.reverse_append]
  show (List.dropWhile isWs (ch :: x.reverse)).reverse = _
  rw [List.dropWhile_cons_of_neg (by simp [h])]
  simp

/-- Stripping a text that begins and ends with other characters, between white space. -/
theorem strip_between {x a b : Str} (ha : ∀ ch ∈ a, isWs ch = true) (hb : ∀ ch ∈ b, isWs ch = true) {c : Char} (hc : x.head? = some c) (hcw : isWs c = false)
    {e : Char} (he : x.getLast? = some e) (hew : isWs e = false) : strip (a ++ x ++ b) = x := by
  obtain ⟨y, rfl⟩ : ∃ y, x = y ++ [e] := by
    obtain ⟨y, hy⟩ := List.getLast?_eq_some_iff.mp he
    exact ⟨y, hy⟩
  unfold strip
  rw [rstrip_append hb, ← List.append_assoc, rstrip_end hew, List.append_assoc, List.dropWhile_append_of_pos ha]
  obtain ⟨z, hz⟩ := List.head?_eq_some_iff.mp hc
  rw [hz, List.dropWhile_cons_of_neg (by simp [hcw])]

theorem pySplit_words (s : Str) : ∀ w ∈ pySplit s, ∀ ch ∈ w, isWs ch = false := by
  have key : ∀ (s cur : Str), (∀ ch ∈ cur, isWs ch = false) → ∀ w ∈ splitAux s cur, ∀ ch ∈ w, isWs ch = false := by
    intro s
    induction s with
    | nil =>
      intro cur hcur w hw
      rw [splitAux] at hw
      split at hw
      · simp at hw
      · rw [List.mem_singleton] at hw
        subst hw
        intro ch h
        exact hcur ch (List.mem_reverse.mp h)
    | cons a s ih =>
      intro cur hcur w hw
      rw [splitAux] at hw
      split at hw
      · split at hw
        · exact ih [] (by simp) w hw
        · rcases List.mem_cons.mp hw with rfl | hw
          · intro ch h
            exact hcur ch (List.mem_reverse.mp h)
          · exact ih [] (by simp) w hw
      · rename_i ha
        refine ih (a :: cur) ?_ w hw
        intro ch h
        rcases List.mem_cons.mp h with rfl | h
        · simpa using ha
        · exact hcur ch h
  exact key s [] (by simp)

theorem intStr_last (z : ℤ) : ∃ e, (intStr z).getLast? = some e ∧ isWs e = false := by
  obtain ⟨hne, hw⟩ := intStr_word z
  refine ⟨(intStr z).getLast hne, List.getLast?_eq_getLast_of_ne_nil hne, hw _ (List.getLast_mem hne)⟩

theorem names_split (names : List String) (hn : ∀ e ∈ names, IsWord e.toList) (y : Str) :
    pySplit (names.flatMap (fun e => ' ' :: e.toList ++ [' ']) ++ y) = names.map String.toList ++ pySplit y := by
  induction names with
  | nil => rfl
  | cons e l ih =>
    have h : (e :: l).flatMap (fun e => ' ' :: e.toList ++ [' ']) ++ y = ' ' :: (e.toList ++ ' ' :: (l.flatMap (fun e => ' ' :: e.toList ++ [' ']) ++ y)) := by simp
    rw [h, split_cons_ws (by decide), split_append_ws _ (by decide), split_word (hn e List.mem_cons_self), ih (fun a ha => hn a (List.mem_cons_of_mem _ ha))]
    rfl

theorem names_nonl (names : List String) (hn : ∀ e ∈ names, IsWord e.toList) : '\n' ∉ names.flatMap (fun e => ' ' :: e.toList ++ [' ']) := by
  intro h
  obtain ⟨e, he, hm⟩ := List.mem_flatMap.mp h
  simp only [List.cons_append, List.mem_cons, List.mem_append, List.not_mem_nil, or_false] at hm
  rcases hm with hm | hm | hm
  · exact absurd hm (by decide)
  · have := (hn e he).2 _ hm
    exact absurd this (by decide)
  · exact absurd hm (by decide)

theorem intStr_nonl (z : ℤ) : '\n' ∉ intStr z := fun h => absurd ((intStr_word z).2 _ h) (by decide)

theorem strip_nonl {x : Str} (hx : '\n' ∉ x) : '\n' ∉ strip (x ++ ['\n']) := by
  intro h
  have : strip (x ++ ['\n']) = strip x := by
    unfold strip
    rw [rstrip_append (by simp; decide)]
  rw [this] at h
  exact hx (strip_sub _ _ h)

/-- The full title is one line. -/
theorem fullTitle_line {sp : Bool} {names : List String} (hn : ∀ e ∈ names, IsWord e.toList) {x : Str} (hx : '\n' ∉ x) :
    ∃ t, fullTitle sp names (x ++ ['\n']) = t ++ ['\n'] ∧ '\n' ∉ t ∧ pySplit t = (if sp then names.map String.toList else []) ++ pySplit x := by
  cases sp with
  | false => exact ⟨x, rfl, hx, rfl⟩
  | true =>
    refine ⟨names.flatMap (fun e => ' ' :: e.toList ++ [' ']) ++ ' ' :: strip (x ++ ['\n']), ?_, ?_, ?_⟩
    · simp [fullTitle]
    · rw [List.mem_append, List.mem_cons]
      rintro (h | h | h)
      · exact names_nonl names hn h
      · exact absurd h (by decide)
      · exact strip_nonl hx h
    · rw [names_split names hn, split_cons_ws (by decide), split_strip, split_append_ws _ (by decide), split_nil, List.append_nil]
      rfl

/-- C84: the first line of a POSCAR is one line, and its words are the element names (with -species), the words of the title of enum.out, and the number of the structure. -/
theorem C84_poscar_title (sp : Bool) (names : List String) (hn : ∀ e ∈ names, IsWord e.toList) (title : Str) (ht : '\n' ∉ title) (N : ℤ) :
    ∃ t, poscarTitle sp names title N = t ++ ['\n'] ∧ '\n' ∉ t ∧
      pySplit t = (if sp then names.map String.toList else []) ++ pySplit title ++ ["str".toList, "#:".toList, intStr N] := by
  have hx : '\n' ∉ title ++ " str #: ".toList ++ intStr N := by
    simp only [List.mem_append, not_or]
    exact ⟨⟨ht, by decide⟩, intStr_nonl N⟩
  obtain ⟨t, h1, h2, h3⟩ := fullTitle_line (sp := sp) hn hx
  refine ⟨t, h1, h2, ?_⟩
  have h : title ++ " str #: ".toList ++ intStr N = title ++ ' ' :: ("str".toList ++ ' ' :: ("#:".toList ++ ' ' :: intStr N)) := by
    rw [List.append_assoc]
    rfl
  rw [h3, h, split_append_ws _ (by decide), split_append_ws _ (by decide), split_append_ws _ (by decide), split_intStr, List.append_assoc]
  rfl

/-- A POSCAR for aluminium and copper. -/
example : poscarTitle true ["Al", "Cu"] "fcc".toList 7 = " Al  Cu  fcc str #: 7\n".toList := by decide +kernel

/-! ## the names in a config file -/

theorem beforeStr_sub (sep s : Str) : ∀ ch ∈ beforeStr sep s, ch ∈ s := by
  induction s with
  | nil => simp [beforeStr]
  | cons a s ih =>
    intro ch h
    rw [beforeStr] at h
    split at h
    · simp at h
    · rcases List.mem_cons.mp h with h | h
      · exact List.mem_cons.mpr (Or.inl h)
      · exact List.mem_cons.mpr (Or.inr (ih ch h))

theorem first_nl {a b r s : Str} (ha : '\n' ∉ a) (hb : '\n' ∉ b) (h : a ++ '\n' :: r = b ++ '\n' :: s) : a = b := by
  induction a generalizing b with
  | nil =>
    cases b with
    | nil => rfl
    | cons c b =>
      simp only [List.nil_append, List.cons_append, List.cons.injEq] at h
      exact absurd (List.mem_cons.mpr (Or.inl h.1)) hb
  | cons x a ih =>
    cases b with
    | nil =>
      simp only [List.nil_append, List.cons_append, List.cons.injEq] at h
      exact absurd (List.mem_cons.mpr (Or.inl h.1.symm)) ha
    | cons c b =>
      simp only [List.cons_append, List.cons.injEq] at h
      rw [h.1, ih (fun m => ha (List.mem_cons_of_mem _ m)) (fun m => hb (List.mem_cons_of_mem _ m)) h.2]

/-- A whole line is found only where it begins. -/
theorem beforeStr_line {x s : Str} (hx : '\n' ∉ x) (hs : '\n' ∉ s) : beforeStr (s ++ ['\n']) (x ++ (s ++ ['\n'])) = x := by
  induction x with
  | nil =>
    rw [List.nil_append]
    cases s with
    | nil => rfl
    | cons c s =>
      rw [List.cons_append, beforeStr, if_pos (List.prefix_refl _)]
  | cons c x ih =>
    rw [List.cons_append, beforeStr, if_neg, ih (fun h => hx (List.mem_cons_of_mem _ h))]
    rintro ⟨r, hr⟩
    have h : s ++ '\n' :: r = (c :: x ++ s) ++ '\n' :: [] := by
      rw [List.append_assoc] at hr
      simpa using hr
    have := first_nl hs (by simp only [List.mem_append, not_or]; exact ⟨hx, hs⟩) h
    have := congrArg List.length this
    simp at this
    omega

/-- C84: the name of a structure in a config file is on one line and ends with the number of the structure. -/
theorem C84_config_name (sp : Bool) (names : List String) (hn : ∀ e ∈ names, IsWord e.toList) (title : Str) (ht : '\n' ∉ title) (N : ℤ) :
    ∃ p, configTitle sp names title N = p ++ '_' :: intStr N ∧ '\n' ∉ configTitle sp names title N := by
  have hx : '\n' ∉ title ++ intStr N := by
    simp only [List.mem_append, not_or]
    exact ⟨ht, intStr_nonl N⟩
  obtain ⟨t, h1, h2, -⟩ := fullTitle_line (sp := sp) hn hx
  unfold configTitle
  dsimp only
  rw [h1]
  split
  · have h3 : '\n' ∉ strip (beforeStr (title ++ intStr N ++ ['\n']) (t ++ ['\n'])) := by
      intro h
      have hmem := strip_sub _ _ h
      -- the text before the title is a prefix of the title line
      obtain ⟨a, b, hab, ha, hb⟩ := strip_parts (beforeStr (title ++ intStr N ++ ['\n']) (t ++ ['\n']))
      have key : ∀ s : Str, beforeStr (title ++ intStr N ++ ['\n']) s <+: s := by
        intro s
        induction s with
        | nil => exact List.prefix_refl _
        | cons c s ih =>
          rw [beforeStr]
          split
          · exact List.nil_prefix
          · exact List.cons_prefix_cons.mpr ⟨rfl, ih⟩
      obtain ⟨r, hr⟩ := key (t ++ ['\n'])
      rcases r.eq_nil_or_concat with rfl | ⟨r', e, rfl⟩
      · rw [List.append_nil] at hr
        rw [hr] at h
        exact strip_nonl h2 h
      · rw [List.concat_eq_append, ← List.append_assoc] at hr
        have := List.append_inj_left' hr rfl
        rw [← this] at h2
        exact h2 (List.mem_append.mpr (Or.inl hmem))
    split
    · rename_i hr
      rcases hq : strip (beforeStr (title ++ intStr N ++ ['\n']) (t ++ ['\n'])) with _ | ⟨c, q⟩
      · exact ⟨"random".toList, rfl, by
          show '\n' ∉ "random_".toList ++ intStr N
          rw [List.mem_append, not_or]
          exact ⟨by decide, intStr_nonl N⟩⟩
      · rw [hq] at h3
        refine ⟨q ++ "_random".toList, ?_, ?_⟩
        · show q ++ "_random_".toList ++ intStr N = q ++ "_random".toList ++ '_' :: intStr N
          rw [List.append_assoc, List.append_assoc]
          rfl
        · show '\n' ∉ q ++ "_random_".toList ++ intStr N
          simp only [List.mem_append, not_or]
          exact ⟨⟨fun h => h3 (List.mem_cons_of_mem _ h), by decide⟩, intStr_nonl N⟩
    · refine ⟨strip (beforeStr (title ++ intStr N ++ ['\n']) (t ++ ['\n'])) ++ "_random".toList, ?_, ?_⟩
      · rw [List.append_assoc _ "_random_".toList, List.append_assoc _ "_random".toList]
        rfl
      · simp only [List.mem_append, not_or]
        exact ⟨⟨h3, by decide⟩, intStr_nonl N⟩
  · refine ⟨joinStr ['_'] (pySplit (strip ((splitOn ':' (t ++ ['\n'])).headD []))), by rw [List.append_assoc]; rfl, ?_⟩
    have key : ∀ l : List Str, (∀ w ∈ l, '\n' ∉ w) → '\n' ∉ joinStr ['_'] l := by
      intro l
      induction l with
      | nil => simp [joinStr]
      | cons w l ih =>
        intro hw
        cases l with
        | nil => exact hw w List.mem_cons_self
        | cons w' l =>
          show '\n' ∉ w ++ ['_'] ++ joinStr ['_'] (w' :: l)
          simp only [List.mem_append, not_or]
          exact ⟨⟨hw w List.mem_cons_self, by decide⟩, ih (fun a ha => hw a (List.mem_cons_of_mem _ ha))⟩
    simp only [List.mem_append, not_or]
    refine ⟨⟨key _ ?_, by decide⟩, intStr_nonl N⟩
    intro w hw h
    exact absurd (pySplit_words _ w hw _ h) (by decide)

theorem digits_no_us (z : ℤ) : '_' ∉ intStr z := by
  intro h
  have := intStr_chars z _ h
  revert this
  decide

/-- C84: two structures of the same file never get the same name. -/
theorem C84_config_name_inj (sp sp' : Bool) (names names' : List String) (hn : ∀ e ∈ names, IsWord e.toList) (hn' : ∀ e ∈ names', IsWord e.toList)
    (title : Str) (ht : '\n' ∉ title) (N M : ℤ) (h : configTitle sp names title N = configTitle sp' names' title M) : N = M := by
  obtain ⟨p, hp, -⟩ := C84_config_name sp names hn title ht N
  obtain ⟨q, hq, -⟩ := C84_config_name sp' names' hn' title ht M
  rw [hp, hq] at h
  have key : ∀ {p q a b : Str}, '_' ∉ a → '_' ∉ b → p ++ '_' :: a = q ++ '_' :: b → a = b := by
    intro p q a b ha hb h
    have h1 : (a.reverse ++ '_' :: p.reverse) = b.reverse ++ '_' :: q.reverse := by
      have := congrArg List.reverse h
      simpa using this
    have h2 : ∀ (x y u v : Str), '_' ∉ x → '_' ∉ y → x ++ '_' :: u = y ++ '_' :: v → x = y := by
      intro x
      induction x with
      | nil =>
        intro y u v _ hy h
        cases y with
        | nil => rfl
        | cons c y =>
          simp only [List.nil_append, List.cons_append, List.cons.injEq] at h
          exact absurd (List.mem_cons.mpr (Or.inl h.1)) hy
      | cons c x ih =>
        intro y u v hx hy h
        cases y with
        | nil =>
          simp only [List.nil_append, List.cons_append, List.cons.injEq] at h
          exact absurd (List.mem_cons.mpr (Or.inl h.1.symm)) hx
        | cons d y =>
          simp only [List.cons_append, List.cons.injEq] at h
          rw [h.1, ih y u v (fun m => hx (List.mem_cons_of_mem _ m)) (fun m => hy (List.mem_cons_of_mem _ m)) h.2]
    have := h2 _ _ _ _ (by simpa using ha) (by simpa using hb) h1
    exact List.reverse_injective this
  have := key (digits_no_us N) (digits_no_us M) h
  exact intStr_inj this

example : configTitle true ["Al", "Cu"] "Random structures of fcc".toList 7 = "Al  Cu_random_7".toList ∧ configTitle false [] "Random structures of fcc".toList 7 = "random_7".toList ∧
    configTitle true ["Al", "Cu"] "fcc: volume".toList 7 = "Al_Cu_fcc_7".toList ∧ configTitle false [] "fcc".toList 7 = "fcc7_7".toList := by decide +kernel

/-- The names with two spaces between them. -/
theorem names_join (e : String) (l : List String) : (e :: l).flatMap (fun e => ' ' :: e.toList ++ [' ']) = ' ' :: joinStr "  ".toList ((e :: l).map String.toList) ++ [' '] := by
  induction l generalizing e with
  | nil => simp [joinStr]
  | cons e' l ih =>
    rw [List.flatMap_cons, ih e']
    simp [joinStr]

theorem joinStr_ends {sep : Str} (w : Str) (l : List Str) (h : ∀ x ∈ w :: l, IsWord x) :
    (∃ c, (joinStr sep (w :: l)).head? = some c ∧ isWs c = false) ∧ ∃ e, (joinStr sep (w :: l)).getLast? = some e ∧ isWs e = false := by
  have hw := h w List.mem_cons_self
  constructor
  · obtain ⟨c, w', rfl⟩ := List.exists_cons_of_ne_nil hw.1
    refine ⟨c, ?_, hw.2 c List.mem_cons_self⟩
    cases l <;> rfl
  · induction l generalizing w with
    | nil =>
      exact ⟨w.getLast hw.1, List.getLast?_eq_getLast_of_ne_nil hw.1, hw.2 _ (List.getLast_mem hw.1)⟩
    | cons w' l ih =>
      obtain ⟨e, he, hws⟩ := ih w' (fun x hx => h x (List.mem_cons_of_mem _ hx)) (h w' (by simp))
      refine ⟨e, ?_, hws⟩
      show (w ++ sep ++ joinStr sep (w' :: l)).getLast? = _
      rw [List.getLast?_append, he]
      rfl

/-- C84: for a random selection (the title of enum.out begins with `Random`) the names are `random_` with the number, after the element names if there are any. -/
theorem C84_config_random (s : Str) (hs : '\n' ∉ s) (N : ℤ) :
    (∀ names, configTitle false names ("Random".toList ++ s) N = "random_".toList ++ intStr N) ∧
    ∀ names : List String, names ≠ [] → (∀ e ∈ names, IsWord e.toList ∧ e.toList.head? ≠ some '_') →
      configTitle true names ("Random".toList ++ s) N = joinStr "  ".toList (names.map String.toList) ++ "_random_".toList ++ intStr N := by
  have hx : '\n' ∉ "Random".toList ++ s ++ intStr N := by
    simp only [List.mem_append, not_or]
    exact ⟨⟨by decide, hs⟩, intStr_nonl N⟩
  constructor
  · intro names
    unfold configTitle fullTitle
    dsimp only
    have h0 := beforeStr_line (x := []) (by simp) hx
    rw [List.nil_append] at h0
    rw [if_neg Bool.false_ne_true, if_pos, h0]
    · rfl
    · unfold containsStr
      rw [decide_eq_true_eq]
      exact ⟨[], s ++ intStr N ++ ['\n'], by simp⟩
  · intro names hne hn
    obtain ⟨e, l, rfl⟩ := List.exists_cons_of_ne_nil hne
    have hst : strip ("Random".toList ++ s ++ intStr N ++ ['\n']) = "Random".toList ++ s ++ intStr N := by
      obtain ⟨z, hz, hzw⟩ := intStr_last N
      have := strip_between (x := "Random".toList ++ s ++ intStr N) (a := []) (b := ['\n']) (by simp) (by simp; decide) (c := 'R') rfl (by decide) (e := z)
        (by rw [List.getLast?_append, hz]; rfl) hzw
      rwa [List.nil_append] at this
    have ht : fullTitle true (e :: l) ("Random".toList ++ s ++ intStr N ++ ['\n']) =
        (' ' :: joinStr "  ".toList ((e :: l).map String.toList) ++ [' ', ' ']) ++ ("Random".toList ++ s ++ intStr N ++ ['\n']) := by
      unfold fullTitle
      rw [if_pos rfl, hst, names_join]
      simp only [List.cons_append, List.append_assoc, List.nil_append]
    have hw : ∀ x ∈ e.toList :: l.map String.toList, IsWord x := by
      intro x hxm
      rw [← List.map_cons] at hxm
      obtain ⟨a, ha, rfl⟩ := List.mem_map.mp hxm
      exact (hn a ha).1
    obtain ⟨⟨c, hc, hcw⟩, ⟨z, hz, hzw⟩⟩ := joinStr_ends (sep := "  ".toList) e.toList (l.map String.toList) hw
    unfold configTitle
    dsimp only
    rw [ht, if_pos, beforeStr_line ?_ hx]
    · have hstr : strip (' ' :: joinStr "  ".toList ((e :: l).map String.toList) ++ [' ', ' ']) = joinStr "  ".toList ((e :: l).map String.toList) := by
        have := strip_between (a := [' ']) (b := [' ', ' ']) (by simp; decide) (by simp; decide) hc hcw hz hzw
        exact this
      rw [hstr, if_neg]
      rw [List.append_assoc, List.head?_append]
      have h2 : e.toList.head? = some c := by
        have := (hn e List.mem_cons_self).1.1
        obtain ⟨a, w, hw'⟩ := List.exists_cons_of_ne_nil this
        rw [hw'] at hc ⊢
        have : (joinStr "  ".toList ((a :: w) :: l.map String.toList)).head? = some a := by cases l.map String.toList <;> rfl
        rw [this] at hc
        exact hc
      have h3 := (hn e List.mem_cons_self).2
      rw [h2] at h3
      rw [List.map_cons, hc]
      exact h3
    · have := names_nonl (e :: l) (fun a ha => (hn a ha).1)
      rw [names_join] at this
      intro h
      apply this
      simp only [List.cons_append, List.mem_cons, List.mem_append, List.not_mem_nil, or_false] at h ⊢
      tauto
    · unfold containsStr
      rw [decide_eq_true_eq]
      exact ⟨' ' :: joinStr "  ".toList ((e :: l).map String.toList) ++ [' ', ' '], s ++ intStr N ++ ['\n'], by simp⟩

/-- C84, a defect: for any other title without a colon the number of the structure is written twice. -/
theorem C84_config_number_twice (names : List String) (title : Str) (ht : IsWord title) (hc : ':' ∉ title)
    (hr : ¬ "Random".toList <:+: title) (N : ℤ) :
    configTitle false names title N = title ++ intStr N ++ ['_'] ++ intStr N := by
  have hcol : ∀ s : Str, ':' ∉ s → splitOn ':' s = [s] := by
    intro s
    induction s with
    | nil => intro _; rfl
    | cons a s ih =>
      intro h
      rw [splitOn, if_neg (fun e => h (by rw [e]; exact List.mem_cons_self)), ih (fun m => h (List.mem_cons_of_mem _ m))]
  have hN : ':' ∉ intStr N := by
    intro h
    have := intStr_chars N _ h
    revert this
    decide
  obtain ⟨z, hz, hzw⟩ := intStr_last N
  obtain ⟨c, w, rfl⟩ := List.exists_cons_of_ne_nil ht.1
  have hst : strip (c :: w ++ intStr N ++ ['\n']) = c :: w ++ intStr N := by
    have := strip_between (x := c :: w ++ intStr N) (a := []) (b := ['\n']) (by simp) (by simp; decide) (c := c) rfl (ht.2 c List.mem_cons_self) (e := z)
      (by rw [List.getLast?_append, hz]; rfl) hzw
    rwa [List.nil_append] at this
  unfold configTitle fullTitle
  dsimp only
  rw [if_neg Bool.false_ne_true, if_neg]
  · rw [hcol _ (by simp only [List.mem_append, not_or]; exact ⟨⟨hc, hN⟩, by decide⟩)]
    show joinStr ['_'] (pySplit (strip (c :: w ++ intStr N ++ ['\n']))) ++ ['_'] ++ intStr N = _
    rw [hst, split_word ⟨by simp, fun ch h => by
      rcases List.mem_append.mp h with h | h
      · exact ht.2 ch h
      · exact (intStr_word N).2 ch h⟩]
    rfl
  · unfold containsStr
    rw [decide_eq_true_eq]
    rintro ⟨a, b, hab⟩
    rw [List.append_assoc (c :: w)] at hab
    rcases List.append_eq_append_iff.mp hab with ⟨d, h1, -⟩ | ⟨d, h1, h2⟩
    · exact hr ⟨a, d, h1.symm⟩
    · rcases d.eq_nil_or_concat with rfl | ⟨d', e, rfl⟩
      · rw [List.append_nil] at h1
        exact hr ⟨a, [], by rw [h1, List.append_nil]⟩
      · rw [List.concat_eq_append, ← List.append_assoc] at h1
        have h3 : a ++ "Rando".toList ++ ['m'] = c :: w ++ d' ++ [e] := by
          rw [← h1, List.append_assoc]
          rfl
        have h4 : 'm' = e := by simpa using (List.append_inj_right' h3 rfl)
        have h5 : 'm' ∈ intStr N ++ ['\n'] := by
          rw [h2, h4]
          simp
        rcases List.mem_append.mp h5 with h5 | h5
        · have := intStr_chars N _ h5
          revert this
          decide
        · exact absurd (List.mem_singleton.mp h5) (by decide)

end Phenum
