import Verif.Proof.Text
/-
C30, C49: the files enum.in and polya.out are read back as they were written.
-/
namespace Phenum

/-! ## enum.in -/

/-- the line of a row -/
def enumInLine (p : (ℕ × HNF6 × Conc) × ℕ) : Str :=
  "  ".toList ++ padRight 28 (joinStr [' '] (p.1.2.1.map intStr)) ++ "  ".toList ++
      padRight 10 (joinStr [' '] (p.1.2.2.map natStr)) ++ "  ".toList ++ natStr p.2

/-- the heading -/
def enumInHead : Str :=
  "# ".toList ++ padRight 28 "HNF".toList ++ "  ".toList ++ padRight 10 "Conc.".toList ++ "  ".toList ++ "Number".toList

/-- the numbers of a row -/
def enumInNums (p : (ℕ × HNF6 × Conc) × ℕ) : List ℤ := p.1.2.1 ++ p.1.2.2.map (fun c : ℕ => (c : ℤ)) ++ [(p.2 : ℤ)]

/-- the line of a row, or the heading -/
def enumInText : Option ((ℕ × HNF6 × Conc) × ℕ) → Str
  | none => enumInHead
  | some p => enumInLine p

/-- the numbers in it -/
def enumInVals : Option ((ℕ × HNF6 × Conc) × ℕ) → List ℤ
  | none => []
  | some p => enumInNums p

theorem printAll_eq (distr : List ((ℕ × HNF6 × Conc) × ℕ)) :
    printAll distr = (none :: distr.map some).flatMap (fun x => enumInText x ++ ['\n']) := by
  unfold printAll
  rw [List.flatMap_cons, List.flatMap_map]
  rfl

theorem two_spaces : "  ".toList = List.replicate 2 ' ' := rfl

theorem numLine_enumIn (p : (ℕ × HNF6 × Conc) × ℕ) : NumLine (enumInLine p) := by
  unfold enumInLine
  rw [two_spaces]
  have h1 : NumLine (joinStr [' '] (p.1.2.1.map intStr)) := NumLine.join (by
    intro t ht; obtain ⟨z, -, rfl⟩ := List.mem_map.mp ht; exact NumLine.int z)
  have h2 : NumLine (joinStr [' '] (p.1.2.2.map natStr)) := NumLine.join (by
    intro t ht; obtain ⟨z, -, rfl⟩ := List.mem_map.mp ht; exact NumLine.nat z)
  exact ((((NumLine.spaces 2).append (h1.padRight 28)).append (NumLine.spaces 2)).append (h2.padRight 10)).append
    (NumLine.spaces 2) |>.append (NumLine.nat _)

theorem split_enumIn (p : (ℕ × HNF6 × Conc) × ℕ) : pySplit (enumInLine p) = (enumInNums p).map intStr := by
  unfold enumInLine enumInNums
  rw [two_spaces]
  simp only [List.append_assoc]
  rw [split_spaces_append]
  show pySplit (padRight 28 _ ++ ' ' :: ' ' :: (padRight 10 _ ++ ' ' :: ' ' :: natStr p.2)) = _
  rw [split_padRight_ws _ _ _ ws_space, split_cons_ws ws_space, split_padRight_ws _ _ _ ws_space,
    split_cons_ws ws_space, split_natStr, split_join, split_join]
  · simp [Function.comp_def, intStr_natCast]
  · intro t ht; obtain ⟨z, -, rfl⟩ := List.mem_map.mp ht; exact natStr_word z
  · intro t ht; obtain ⟨z, -, rfl⟩ := List.mem_map.mp ht; exact intStr_word z

theorem enumInNums_ne (p : (ℕ × HNF6 × Conc) × ℕ) : enumInNums p ≠ [] := by simp [enumInNums]

theorem enumIn_filter (distr : List ((ℕ × HNF6 × Conc) × ℕ)) :
    ((none :: distr.map some).map enumInVals).filter
      (fun r => r ≠ []) = distr.map enumInNums := by
  rw [List.map_cons, List.filter_cons_of_neg (by simp [enumInVals]), List.map_map, List.filter_eq_self.mpr]
  · rfl
  · intro r hr
    obtain ⟨p, -, rfl⟩ := List.mem_map.mp hr
    exact decide_eq_true (enumInNums_ne p)

theorem enumIn_loadtxt (distr : List ((ℕ × HNF6 × Conc) × ℕ)) : loadtxt (printAll distr) =
    checkRows (distr.map enumInNums) := by
  rw [printAll_eq, loadtxt_rows _ enumInText enumInVals, enumIn_filter]
  · intro x _
    cases x with
    | none => decide
    | some p => exact (numLine_enumIn p).no_newline
  · intro x _
    cases x with
    | none => rfl
    | some p =>
      show pySplit ((enumInLine p).takeWhile (· ≠ '#')) = (enumInNums p).map intStr
      rw [(numLine_enumIn p).no_hash, split_enumIn]

/-- C30. Writing a distribution over 'all' and reading it back gives the same HNFs, concentrations and numbers, in the
same order, for all values of the numbers (the fields of the file never run into each other). -/
theorem C30_enum_in_round_trip (distr : List ((ℕ × HNF6 × Conc) × ℕ)) (m : ℕ) (hh : ∀ p ∈ distr, p.1.2.1.length = 6)
    (hc : ∀ p ∈ distr, p.1.2.2.length = m) :
    readEnum (printAll distr) = .ok (distr.map (fun p => (p.1.2.1, p.1.2.2.map (fun c : ℕ => (c : ℤ)), (p.2 : ℤ)))) := by
  unfold readEnum
  have hl : loadtxt (printAll distr) = .ok (distr.map enumInNums) := by
    rw [enumIn_loadtxt]
    have hlen : ∀ r ∈ distr.map enumInNums, r.length = 6 + (m + 1) := by
      intro r hr
      obtain ⟨p, hp, rfl⟩ := List.mem_map.mp hr
      simp [enumInNums, hh p hp, hc p hp]
    exact checkRows_ok hlen
  rw [hl]
  show (distr.map enumInNums).mapM _ = _
  clear hl hc
  induction distr with
  | nil => rfl
  | cons p distr ih =>
    rw [List.map_cons, List.mapM_cons, ih (fun q hq => hh q (List.mem_cons_of_mem _ hq))]
    have h6 := hh p List.mem_cons_self
    have h1 : (enumInNums p).getLast? = some (p.2 : ℤ) := by simp [enumInNums]
    have h2 : (enumInNums p).take 6 = p.1.2.1 := by
      rw [enumInNums, List.append_assoc, ← h6, List.take_left]
    have h3 : sliceToLast 6 (enumInNums p) = p.1.2.2.map (fun c : ℕ => (c : ℤ)) := by
      rw [sliceToLast, enumInNums, List.append_assoc, ← h6, List.drop_left, List.dropLast_concat]
    rw [h1]
    simp only [h2, h3]
    rfl

/-- C30. Rows with different numbers of species are not silently truncated: reading the file fails. -/
theorem C30_ragged (p q : (ℕ × HNF6 × Conc) × ℕ) (distr : List ((ℕ × HNF6 × Conc) × ℕ)) (hq : q ∈ distr)
    (hp6 : p.1.2.1.length = 6) (hq6 : q.1.2.1.length = 6) (hne : q.1.2.2.length ≠ p.1.2.2.length) :
    readEnum (printAll (p :: distr)) = .error .valueError := by
  unfold readEnum
  rw [enumIn_loadtxt, List.map_cons, checkRows]
  have : ¬ ((distr.map enumInNums).all (fun r' => decide (r'.length = (enumInNums p).length)) = true) := by
    rw [List.all_eq_true]
    intro h
    have := h (enumInNums q) (List.mem_map_of_mem hq)
    simp [enumInNums, hp6, hq6] at this
    exact hne this
  rw [if_neg this]
  rfl

/-- Two rows, as in the example of the README. -/
example : readEnum (printAll [((4, [1, 0, 1, 0, 0, 4], [1, 3]), 1), ((12, [1, 0, 1, 2, 3, 12], [10, 2]), 25)]) =
    .ok [([1, 0, 1, 0, 0, 4], [1, 3], 1), ([1, 0, 1, 2, 3, 12], [10, 2], 25)] :=
  C30_enum_in_round_trip _ 2 (by simp) (by simp)

end Phenum
