import Verif.Model.Drivers
import Verif.Props.EnumIn
import Verif.Props.Distribution
import Verif.Proof.Drivers
import Verif.Proof.Poscar
import Verif.Props.PolyaOut
/-
C65: restricting the selection with `-filter`.
-/
namespace Phenum
open Spec

/-! ## The lines of the files -/

/-- the line of a distribution over shapes -/
def shapeLine (p : HNF6 × ℕ) : Str :=
  "  ".toList ++ padRight 18 (joinStr [' '] (p.1.map intStr)) ++ "  ".toList ++ natStr p.2

/-- the line of a distribution over concentrations -/
def concLine (p : ℕ × Conc × ℕ) : Str :=
  "  ".toList ++ padRight 6 (natStr p.1) ++ "  ".toList ++ padRight 6 (joinStr [' '] (p.2.1.map natStr)) ++ "  ".toList ++ natStr p.2.2

theorem numLine_shape (p : HNF6 × ℕ) : NumLine (shapeLine p) := by
  unfold shapeLine
  rw [two_spaces]
  have h1 : NumLine (joinStr [' '] (p.1.map intStr)) := NumLine.join (by
    intro t ht; obtain ⟨z, -, rfl⟩ := List.mem_map.mp ht; exact NumLine.int z)
  exact (((NumLine.spaces 2).append (h1.padRight 18)).append (NumLine.spaces 2)).append (NumLine.nat _)

theorem numLine_conc (p : ℕ × Conc × ℕ) : NumLine (concLine p) := by
  unfold concLine
  rw [two_spaces]
  have h2 : NumLine (joinStr [' '] (p.2.1.map natStr)) := NumLine.join (by
    intro t ht; obtain ⟨z, -, rfl⟩ := List.mem_map.mp ht; exact NumLine.nat z)
  exact (((((NumLine.spaces 2).append ((NumLine.nat p.1).padRight 6)).append (NumLine.spaces 2)).append (h2.padRight 6)).append (NumLine.spaces 2)).append
    (NumLine.nat _)

theorem split_shape (p : HNF6 × ℕ) : pySplit (shapeLine p) = p.1.map intStr ++ [natStr p.2] := by
  unfold shapeLine
  rw [two_spaces]
  simp only [List.append_assoc]
  rw [split_spaces_append]
  show pySplit (padRight 18 _ ++ ' ' :: ' ' :: natStr p.2) = _
  rw [split_padRight_ws _ _ _ ws_space, split_cons_ws ws_space, split_natStr, split_join]
  intro t ht; obtain ⟨z, -, rfl⟩ := List.mem_map.mp ht; exact intStr_word z

theorem split_conc (p : ℕ × Conc × ℕ) : pySplit (concLine p) = natStr p.1 :: (p.2.1.map natStr ++ [natStr p.2.2]) := by
  unfold concLine
  rw [two_spaces]
  simp only [List.append_assoc]
  rw [split_spaces_append]
  show pySplit (padRight 6 _ ++ ' ' :: ' ' :: (padRight 6 _ ++ ' ' :: ' ' :: natStr p.2.2)) = _
  rw [split_padRight_ws _ _ _ ws_space, split_cons_ws ws_space, split_padRight_ws _ _ _ ws_space,
    split_cons_ws ws_space, split_natStr, split_natStr, split_join]
  · rfl
  · intro t ht; obtain ⟨z, -, rfl⟩ := List.mem_map.mp ht; exact natStr_word z

theorem data_lines {α : Type} (head : Str) (hh : head.contains '#' = true) (hn : '\n' ∉ head) (line : α → Str) (hl : ∀ a, NumLine (line a)) (l : List α) :
    (fileLines (head ++ ['\n'] ++ l.flatMap (fun a => line a ++ ['\n']))).filter (fun s => !s.contains '#') = l.map line := by
  have h1 : fileLines (head ++ ['\n'] ++ l.flatMap (fun a => line a ++ ['\n'])) = head :: l.map line := by
    rw [show head ++ ['\n'] ++ l.flatMap (fun a => line a ++ ['\n']) = (head :: l.map line).flatMap (fun s => s ++ ['\n']) by
      rw [List.flatMap_cons, List.flatMap_map]]
    apply fileLines_eq
    intro s hs
    rcases List.mem_cons.mp hs with rfl | hs
    · exact hn
    · obtain ⟨a, -, rfl⟩ := List.mem_map.mp hs
      exact (hl a).no_newline
  rw [h1, List.filter_cons_of_neg (by rw [hh]; decide), List.filter_eq_self.mpr]
  intro s hs
  obtain ⟨a, -, rfl⟩ := List.mem_map.mp hs
  rw [Bool.not_eq_true']
  by_contra hc
  rw [Bool.not_eq_false, List.contains_iff_mem] at hc
  rcases hl a _ hc with h | h | h
  · exact absurd h (by decide)
  · exact absurd h (by decide)
  · exact absurd h (by decide)

/-! ## The filter that is read -/

/-- The file of a distribution over shapes (`-distribution shape ... -savedist`). -/
def Spec.shapeFile (F : List (ℕ × HNF6 × ℕ)) : Str := printDist .shape (F.map (fun p => ((p.1, some p.2.1, none), p.2.2)))

/-- The file of a distribution over concentrations (`-distribution conc ... -savedist`). -/
def Spec.concFile (F : List (ℕ × Conc × ℕ)) : Str := printDist .conc (F.map (fun p => ((p.1, none, some p.2.1), p.2.2)))

theorem shapeFile_lines (F : List (ℕ × HNF6 × ℕ)) : (fileLines (shapeFile F)).filter (fun s => !s.contains '#') = F.map (fun p => shapeLine p.2) := by
  rw [← data_lines ("# ".toList ++ padRight 18 "HNF".toList ++ "  ".toList ++ "Number".toList) (by decide) (by decide) (fun p => shapeLine p.2)
    (fun p => numLine_shape p.2) F]
  unfold shapeFile
  simp only [printDist, List.flatMap_map, Option.getD_some, shapeLine]

theorem concFile_lines (F : List (ℕ × Conc × ℕ)) : (fileLines (concFile F)).filter (fun s => !s.contains '#') = F.map concLine := by
  rw [← data_lines ("# ".toList ++ padRight 6 "Size".toList ++ "  ".toList ++ padRight 6 "Conc.".toList ++ "  ".toList ++ "Number".toList)
    (by decide) (by decide) concLine numLine_conc F]
  unfold concFile
  simp only [printDist, List.flatMap_map, Option.getD_some, concLine]

theorem readFilter_shape (F : List (ℕ × HNF6 × ℕ)) (h6 : ∀ p ∈ F, p.2.1.length = 6) :
    readFilter "shape".toList (shapeFile F) = .ok (.shapes (F.map (·.2.1))) := by
  unfold readFilter
  simp only [if_true]
  rw [shapeFile_lines, List.mapM_map, mapM_ok _ (fun p => p.2.1) F]
  · rfl
  · intro p hp
    rw [Function.comp, split_shape]
    have : List.take 6 (p.2.1.map intStr ++ [natStr p.2.2]) = p.2.1.map intStr := by
      rw [List.take_append_of_le_length (by simp [h6 p hp]), List.take_of_length_le (by simp [h6 p hp])]
    rw [this, mapM_parse _ _ parseInt_intStr]

theorem readFilter_conc (F : List (ℕ × Conc × ℕ)) (h2 : ∀ p ∈ F, 2 ≤ p.2.1.length) :
    readFilter "conc".toList (concFile F) = .ok (.concs (F.map (fun p => p.2.1.take 2))) := by
  unfold readFilter
  rw [if_neg (by decide), if_pos rfl]
  rw [concFile_lines, List.mapM_map, mapM_ok _ (fun p => (p.2.1.take 2).map (fun c : ℕ => (c : ℤ))) F]
  · show Except.ok (Restrict.concs _) = _
    rw [List.map_map]
    congr 2
    apply List.map_congr_left
    intro p _
    simp [Function.comp_def]
  · intro p hp
    rw [Function.comp, split_conc]
    have : List.take 2 (List.drop 1 (natStr p.1 :: (p.2.1.map natStr ++ [natStr p.2.2]))) = ((p.2.1.take 2).map (fun c : ℕ => (c : ℤ))).map intStr := by
      rw [List.drop_one, List.tail_cons, List.take_append_of_le_length (by simp [h2 p hp]), ← List.map_take, List.map_map]
      apply List.map_congr_left
      intro c _
      exact (intStr_natCast c).symm
    rw [this, mapM_parse _ _ parseInt_intStr]

/-! ## The selection -/

theorem available_restrict (tables : List PolyaTable) (res : Restrict) (s : ℕ) (h : HNF6) (c : Conc) :
    available .all (entries res tables) (s, some h, some c) = if passes res h c then available .all (entries .none tables) (s, some h, some c) else 0 := by
  unfold available entries
  rw [List.map_flatMap, List.map_flatMap, List.flatMap_def, List.flatMap_def, List.sum_flatten, List.sum_flatten]
  have key : ∀ t : PolyaTable, ((tableEntries res t).map (fun e => if typeOf .all e = (s, some h, some c) then e.2.2.2 else 0)).sum =
      if passes res h c then ((tableEntries .none t).map (fun e => if typeOf .all e = (s, some h, some c) then e.2.2.2 else 0)).sum else 0 := by
    intro t
    unfold tableEntries
    induction t.rows with
    | nil => simp
    | cons r rs ih =>
      simp only [List.flatMap_cons, List.map_append, List.sum_append]
      rw [ih]
      have hr : (((((t.concs.zip r.2.1).filter (fun p => passes res r.1 p.1)).map (fun p => (t.size, r.1, p.1, p.2))).map
          (fun e => if typeOf .all e = (s, some h, some c) then e.2.2.2 else 0)).sum =
          if passes res h c then ((((t.concs.zip r.2.1).filter (fun p => passes .none r.1 p.1)).map (fun p => (t.size, r.1, p.1, p.2))).map
          (fun e => if typeOf .all e = (s, some h, some c) then e.2.2.2 else 0)).sum else 0) := by
        have hnone : ∀ l : List (Conc × ℕ), l.filter (fun p => passes .none r.1 p.1) = l := fun l => List.filter_eq_self.mpr (fun _ _ => rfl)
        generalize t.concs.zip r.2.1 = l
        induction l with
        | nil => simp
        | cons p l ih2 =>
          rw [hnone] at ih2 ⊢
          rw [List.map_cons, List.map_cons, List.sum_cons]
          by_cases hp : passes res r.1 p.1 = true
          · rw [List.filter_cons_of_pos (p := fun p : Conc × ℕ => passes res r.1 p.1) hp, List.map_cons, List.map_cons, List.sum_cons, ih2]
            by_cases hk : typeOf .all (t.size, r.1, p.1, p.2) = (s, some h, some c)
            · have hk' := hk
              simp only [typeOf, Prod.mk.injEq, Option.some.injEq] at hk'
              rw [hk'.2.1, hk'.2.2] at hp
              rw [hp]
              simp
            · rw [if_neg hk]
              split <;> simp
          · rw [List.filter_cons_of_neg (p := fun p : Conc × ℕ => passes res r.1 p.1) hp, ih2]
            by_cases hk : typeOf .all (t.size, r.1, p.1, p.2) = (s, some h, some c)
            · have hk' := hk
              simp only [typeOf, Prod.mk.injEq, Option.some.injEq] at hk'
              rw [hk'.2.1, hk'.2.2] at hp
              rw [if_neg hp, if_neg hp]
            · rw [if_neg hk, zero_add]
      rw [hr]
      split <;> simp
  simp only [List.map_map]
  rw [show (tables.map (List.sum ∘ fun t => (tableEntries res t).map (fun e => if typeOf .all e = (s, some h, some c) then e.2.2.2 else 0))) =
      tables.map (fun t => if passes res h c then ((tableEntries .none t).map (fun e => if typeOf .all e = (s, some h, some c) then e.2.2.2 else 0)).sum else 0) from
    List.map_congr_left (fun t _ => key t)]
  split
  · rfl
  · simp

/-- The rows chosen: those of the tables that pass the filter, each with its number. -/
def Spec.Chosen (tables : List PolyaTable) (ok : HNF6 → Conc → Prop) (distr : List ((ℕ × HNF6 × Conc) × ℕ)) : Prop :=
  (distr.map (·.1)).Nodup ∧
    ∀ s h c v, ((s, h, c), v) ∈ distr ↔ v = available .all (entries .none tables) (s, some h, some c) ∧ 0 < v ∧ ok h c

section
variable {w : World} {infile outfile file : Str} {sizes : Option (List ℤ)} {ss : List ℤ} {save : Bool} {d : Dir} {tables : List PolyaTable}

theorem chosen_of_filter (hs : sizesUsed w d infile sizes = .ok ss) (ht : readTables d infile ss = .ok tables) (hok : ∀ t ∈ tables, TableOk t)
    (hsz : (tables.map (·.size)).Nodup) (hpos : ∀ t ∈ tables, ∀ r ∈ t.rows, ∀ v ∈ r.2.1, 0 < v) {kind text : Str} (hf : dictGet d file = some text) {res : Restrict} (hr : readFilter kind text = .ok res) :
    ∃ distr, makeEnumIn w infile "all".toList outfile none sizes save (some (kind, file)) d = .ok (dictSet d outfile (printAll distr)) ∧
      Chosen tables (fun h c => passes res h c = true) distr := by
  obtain ⟨h1, h2, -⟩ := C33_full_distribution tables res .all w.draws hok hsz (by intro h; cases h)
  set D := distribute tables res .all none w.draws with hD
  have hkey : ∀ p ∈ D, ∃ s h c, p.1 = (s, some h, some c) := by
    intro p hp
    obtain ⟨he, hpos⟩ := (h2 p.1 p.2).mp hp
    rw [he] at hpos
    obtain ⟨e, -, hk, -⟩ := available_pos hpos
    exact ⟨e.1, e.2.1, e.2.2.1, hk.symm⟩
  refine ⟨D.map (fun p => ((p.1.1, p.1.2.1.getD [], p.1.2.2.getD []), p.2)), ?_, ?_, ?_⟩
  · have hpy : distributePy tables res .all none w.draws = .ok D := by
      apply distributePy_pos tables res hok hsz
      intro e he
      unfold entries tableEntries at he
      simp only [List.mem_flatMap, List.mem_map, List.mem_filter] at he
      obtain ⟨t, ht', r, hr', p, ⟨hpz, -⟩, rfl⟩ := he
      exact hpos t ht' r hr' p.2 (List.of_mem_zip (a := p.1) (b := p.2) hpz).2
    unfold makeEnumIn readRestrict readFile
    simp only [hs, hf, ht, hr, bind, Except.bind, show ftypeOf "all".toList = .ok .all from rfl, Option.map_none, hpy, true_or, if_true]
    rfl
  · rw [List.map_map]
    have e : (D.map ((fun x => x.1) ∘ fun p => ((p.1.1, p.1.2.1.getD [], p.1.2.2.getD []), p.2))) =
        (D.map (·.1)).map (fun k => ((k.1, k.2.1.getD [], k.2.2.getD []) : ℕ × HNF6 × Conc)) := by
      rw [List.map_map]; rfl
    rw [e]
    refine List.Nodup.map_on ?_ h1
    intro x hx y hy hxy
    obtain ⟨p, hp, rfl⟩ := List.mem_map.mp hx
    obtain ⟨q, hq, rfl⟩ := List.mem_map.mp hy
    obtain ⟨s, h, c, e1⟩ := hkey p hp
    obtain ⟨s', h', c', e2⟩ := hkey q hq
    rw [e1, e2] at hxy ⊢
    simp only [Option.getD_some, Prod.mk.injEq] at hxy
    obtain ⟨a1, a2, a3⟩ := hxy
    subst a1 a2 a3
    rfl
  · intro s h c v
    have hm : ((s, h, c), v) ∈ D.map (fun p => (((p.1.1, p.1.2.1.getD [], p.1.2.2.getD []), p.2) : (ℕ × HNF6 × Conc) × ℕ)) ↔ ((s, some h, some c), v) ∈ D := by
      rw [List.mem_map]
      constructor
      · rintro ⟨p, hp, he⟩
        obtain ⟨s', h', c', e1⟩ := hkey p hp
        rw [e1] at he
        simp only [Option.getD_some, Prod.mk.injEq] at he
        obtain ⟨⟨a1, a2, a3⟩, a4⟩ := he
        subst a1 a2 a3 a4
        rw [← e1]
        exact hp
      · intro hp
        exact ⟨_, hp, rfl⟩
    rw [hm, h2, available_restrict]
    constructor
    · rintro ⟨hv, hpos⟩
      split at hv
      · exact ⟨hv, hpos, by assumption⟩
      · omega
    · rintro ⟨hv, hpos, hp⟩
      rw [if_pos hp]
      exact ⟨hv, hpos⟩

/-- C65. Selecting everything with the shapes of an earlier distribution over shapes as filter: enum.in lists exactly the HNFs and concentrations of the
tables whose HNF is in the file, each with its number of structures. -/
theorem C65_shapes (hs : sizesUsed w d infile sizes = .ok ss) (ht : readTables d infile ss = .ok tables) (hok : ∀ t ∈ tables, TableOk t)
    (hsz : (tables.map (·.size)).Nodup) (hpos : ∀ t ∈ tables, ∀ r ∈ t.rows, ∀ v ∈ r.2.1, 0 < v) (F : List (ℕ × HNF6 × ℕ)) (h6 : ∀ p ∈ F, p.2.1.length = 6) (hf : dictGet d file = some (shapeFile F)) :
    ∃ distr, makeEnumIn w infile "all".toList outfile none sizes save (some ("shape".toList, file)) d = .ok (dictSet d outfile (printAll distr)) ∧
      Chosen tables (fun h _ => ∃ p ∈ F, p.2.1 = h) distr := by
  obtain ⟨distr, h1, h2, h3⟩ := chosen_of_filter (outfile := outfile) (save := save) hs ht hok hsz hpos hf (readFilter_shape F h6)
  refine ⟨distr, h1, h2, ?_⟩
  intro s h c v
  rw [h3]
  simp only [passes, decide_eq_true_eq, List.mem_map]

/-- C65. With the concentrations of an earlier distribution over the concentrations of two species as filter: enum.in lists exactly the HNFs and
concentrations of the tables whose concentration is in the file, each with its number of structures. -/
theorem C65_concs (hs : sizesUsed w d infile sizes = .ok ss) (ht : readTables d infile ss = .ok tables) (hok : ∀ t ∈ tables, TableOk t)
    (hsz : (tables.map (·.size)).Nodup) (hpos : ∀ t ∈ tables, ∀ r ∈ t.rows, ∀ v ∈ r.2.1, 0 < v) (F : List (ℕ × Conc × ℕ)) (h2 : ∀ p ∈ F, p.2.1.length = 2) (hf : dictGet d file = some (concFile F)) :
    ∃ distr, makeEnumIn w infile "all".toList outfile none sizes save (some ("conc".toList, file)) d = .ok (dictSet d outfile (printAll distr)) ∧
      Chosen tables (fun _ c => ∃ p ∈ F, p.2.1 = c) distr := by
  obtain ⟨distr, h1, h2', h3⟩ := chosen_of_filter (outfile := outfile) (save := save) hs ht hok hsz hpos hf (readFilter_conc F (fun p hp => (h2 p hp).ge))
  refine ⟨distr, h1, h2', ?_⟩
  intro s h c v
  rw [h3]
  simp only [passes, decide_eq_true_eq, List.mem_map]
  constructor
  · rintro ⟨a, b, p, hp, e⟩
    rw [List.take_of_length_le (h2 p hp).le] at e
    exact ⟨a, b, p, hp, e⟩
  · rintro ⟨a, b, p, hp, e⟩
    exact ⟨a, b, p, hp, by rw [List.take_of_length_le (h2 p hp).le]; exact e⟩

/-- C65 does not hold for three species or more: only two numbers of each concentration are read, and nothing is selected. -/
theorem C65_concs_of_three (hs : sizesUsed w d infile sizes = .ok ss) (ht : readTables d infile ss = .ok tables) (hok : ∀ t ∈ tables, TableOk t)
    (hsz : (tables.map (·.size)).Nodup) (hpos : ∀ t ∈ tables, ∀ r ∈ t.rows, ∀ v ∈ r.2.1, 0 < v) (F : List (ℕ × Conc × ℕ)) (h3 : ∀ p ∈ F, 3 ≤ p.2.1.length) (hf : dictGet d file = some (concFile F))
    (hk : ∀ t ∈ tables, ∀ c ∈ t.concs, 3 ≤ c.length) :
    makeEnumIn w infile "all".toList outfile none sizes save (some ("conc".toList, file)) d = .ok (dictSet d outfile (printAll [])) := by
  obtain ⟨distr, h1, h2, h4⟩ := chosen_of_filter (outfile := outfile) (save := save) hs ht hok hsz hpos hf
    (readFilter_conc F (fun p hp => le_trans (by norm_num) (h3 p hp)))
  rw [h1]
  suffices distr = [] by rw [this]
  rw [List.eq_nil_iff_forall_not_mem]
  rintro ⟨⟨s, h, c⟩, v⟩ hm
  obtain ⟨hv, hpos, hp⟩ := (h4 s h c v).mp hm
  rw [hv] at hpos
  obtain ⟨e, he, hke, -⟩ := available_pos hpos
  unfold entries tableEntries at he
  simp only [List.mem_flatMap, List.mem_map, List.mem_filter] at he
  obtain ⟨t, ht', r, -, p, ⟨hpz, -⟩, rfl⟩ := he
  simp only [typeOf, Prod.mk.injEq, Option.some.injEq] at hke
  have hlen := hk t ht' p.1 (List.of_mem_zip (a := p.1) (b := p.2) hpz).1
  rw [hke.2.2] at hlen
  simp only [passes, decide_eq_true_eq, List.mem_map] at hp
  obtain ⟨q, -, hq⟩ := hp
  rw [← hq] at hlen
  simp at hlen

/-- C65. When nothing of the tables passes the filter, enum.in of a distribution over all parameters is empty, but a distribution over sizes stops with a
ZeroDivisionError. -/
theorem C65_nothing_left (hs : sizesUsed w d infile sizes = .ok ss) (ht : readTables d infile ss = .ok tables) (hok : ∀ t ∈ tables, TableOk t)
    (hsz : (tables.map (·.size)).Nodup) (hne : tables ≠ []) {kind text : Str} (hf : dictGet d file = some text) {res : Restrict} (hr : readFilter kind text = .ok res)
    (hno : ∀ t ∈ tables, ∀ r ∈ t.rows, ∀ c ∈ t.concs, passes res r.1 c = false) (number : Option ℤ) :
    makeEnumIn w infile "all".toList outfile number sizes save (some (kind, file)) d = .ok (dictSet d outfile (printAll [])) ∧
    makeEnumIn w infile "size".toList outfile number sizes save (some (kind, file)) d = .error .zeroDivision := by
  have hE : entries res tables = [] := by
    rw [List.eq_nil_iff_forall_not_mem]
    intro e he
    unfold entries tableEntries at he
    simp only [List.mem_flatMap, List.mem_map, List.mem_filter] at he
    obtain ⟨t, ht', r, hr', p, ⟨hpz, hp⟩, rfl⟩ := he
    rw [hno t ht' r hr' p.1 (List.of_mem_zip (a := p.1) (b := p.2) hpz).1] at hp
    cases hp
  have h4 := fun ft h => (relOk_tables tables res ft hok hsz h).2.2.2
  have hg : (distSummary tables res).2 = 0 := by
    rw [h4 .all (by intro h; cases h), hE]
    rfl
  constructor
  · have hrel : relKeys (distSummary tables res).1 .all = [] := by rw [relKeys_all tables res hok hsz, hE]; rfl
    have hD : ∀ k, distribute tables res .all k w.draws = [] := by
      intro k
      unfold distribute
      simp only [hg, hrel]
      cases k with
      | none => rfl
      | some j =>
        have hk : (if j > 0 then 0 else j) = 0 := by split <;> omega
        simp only [hk, if_true]
        rfl
    have hpy : distributePy tables res .all (number.map Int.toNat) w.draws = .ok [] := by
      unfold distributePy
      rw [if_neg (fun h => h.2 hrel), hD]
    unfold makeEnumIn readRestrict readFile
    simp only [hs, hf, ht, hr, bind, Except.bind, show ftypeOf "all".toList = .ok .all from rfl, hpy, true_or, if_true]
    rfl
  · have hrel : relKeys (distSummary tables res).1 .size ≠ [] := by
      have e1 : (distSummary tables res).1 = tables.map (fun t => (t.size, sizeData t res)) := by
        unfold distSummary
        exact dictOf_id (by rw [List.map_map]; exact hsz)
      rw [e1]
      unfold relKeys
      simpa using hne
    have hpy : distributePy tables res .size (number.map Int.toNat) w.draws = .error .zeroDivision := by
      unfold distributePy
      rw [if_pos ⟨hg, hrel⟩]
    have hft : ftypeOf "size".toList = .ok .size := by
      unfold ftypeOf
      rw [if_neg (by decide), if_neg (by decide), if_neg (by decide), if_pos rfl]
    unfold makeEnumIn readRestrict readFile
    simp only [hs, hf, ht, hr, bind, Except.bind, hft, hpy]

end

/-- the table of /repo/tests/enumeration/sc_1/polya.out.2 -/
def scTable : PolyaTable where
  size := 2
  concs := [[0, 2], [1, 1], [2, 0]]
  rows := [([1, 0, 1, 0, 0, 2], [1, 1, 1], 3), ([1, 0, 1, 0, 1, 2], [1, 1, 1], 3), ([1, 0, 1, 1, 1, 2], [1, 1, 1], 3)]
  last := [3, 3, 3]

theorem scTable_ok : TableOk scTable := by
  refine ⟨by decide, by decide, ?_, ?_, by decide⟩
  · intro r hr; simp only [scTable, List.mem_cons, List.not_mem_nil, or_false] at hr; rcases hr with rfl | rfl | rfl <;> rfl
  · intro r hr; simp only [scTable, List.mem_cons, List.not_mem_nil, or_false] at hr; rcases hr with rfl | rfl | rfl <;> rfl

/-- one shape of the table is allowed -/
example (w : World) (hw : ∀ l, (w.listdir l).Perm l) :
    ∃ distr, makeEnumIn w "polya.out".toList "all".toList "enum.in".toList none (some [2]) false (some ("shape".toList, "shapes.in".toList))
        [("polya.out.2".toList, writePolya scTable), ("shapes.in".toList, shapeFile [(2, [1, 0, 1, 0, 0, 2], 3)])] =
        .ok (dictSet [("polya.out.2".toList, writePolya scTable), ("shapes.in".toList, shapeFile [(2, [1, 0, 1, 0, 0, 2], 3)])] "enum.in".toList (printAll distr)) ∧
      ((2, [1, 0, 1, 0, 0, 2], [1, 1]), 1) ∈ distr ∧ ((2, [1, 0, 1, 0, 1, 2], [1, 1]), 1) ∉ distr := by
  have hr : readPolya 2 (writePolya scTable) = .ok scTable := by
    refine C49_polya_out_round_trip (t := scTable) ?_
    refine ⟨by simp [scTable], ?_, ?_, ?_, ?_⟩ <;> decide +kernel
  obtain ⟨distr, h1, h2, h3⟩ := C65_shapes (w := w) (infile := "polya.out".toList) (outfile := "enum.in".toList) (sizes := some [2]) (save := false)
    (ss := [2]) (tables := [scTable]) (file := "shapes.in".toList)
    (d := [("polya.out.2".toList, writePolya scTable), ("shapes.in".toList, shapeFile [(2, [1, 0, 1, 0, 0, 2], 3)])])
    (by
      unfold sizesUsed
      have : (w.listdir [("polya.out.2".toList), ("shapes.in".toList)]).contains "polya.out.2".toList = true := by
        rw [List.contains_iff_mem, (hw _).mem_iff]
        simp
      show (if [2].all (fun i => (w.listdir [("polya.out.2".toList), ("shapes.in".toList)]).contains ("polya.out".toList ++ '.' :: intStr i)) = true then _ else _) = _
      rw [List.all_cons, List.all_nil, Bool.and_true, show "polya.out".toList ++ '.' :: intStr 2 = "polya.out.2".toList by decide +kernel, this]
      rfl)
    (by
      unfold readTables
      rw [show "polya.out".toList ++ '.' :: intStr 2 = "polya.out.2".toList by decide +kernel]
      simp only [dictGet]
      show (do let t ← readPolya 2 (writePolya scTable); _) = _
      rw [hr]
      rfl)
    (by intro t ht; rw [List.mem_singleton] at ht; rw [ht]; exact scTable_ok)
    (by simp) (by decide +kernel) [(2, [1, 0, 1, 0, 0, 2], 3)] (by simp) (by
      unfold dictGet
      rw [List.find?_cons_of_neg (by decide), List.find?_cons_of_pos (by decide)]
      rfl)
  refine ⟨distr, h1, (h3 _ _ _ _).mpr ⟨by decide +kernel, by norm_num, _, List.mem_singleton_self _, rfl⟩, fun hm => ?_⟩
  obtain ⟨-, -, p, hp, he⟩ := (h3 _ _ _ _).mp hm
  rw [List.mem_singleton] at hp
  subst hp
  revert he
  decide

/-- a shape that the table does not have -/
example : (∀ t ∈ [scTable], ∀ r ∈ t.rows, ∀ c ∈ t.concs, passes (.shapes [[1, 0, 2, 0, 0, 1]]) r.1 c = false) ∧
    readFilter "shape".toList (shapeFile [(2, [1, 0, 2, 0, 0, 1], 3)]) = .ok (.shapes [[1, 0, 2, 0, 0, 1]]) :=
  ⟨by decide +kernel, readFilter_shape [(2, [1, 0, 2, 0, 0, 1], 3)] (by simp)⟩

end Phenum
