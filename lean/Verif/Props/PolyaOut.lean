import Verif.Proof.Text
/-
C49: polya.out is read back as it was written.
-/
namespace Phenum

/-- The table has a row and its entries fit into the columns of the file: every concentration is shorter than 50 characters, every
HNF shorter than 26, every count shorter than 50 digits. -/
structure PolyaTable.Fits (t : PolyaTable) : Prop where
  nonempty : t.rows ≠ []
  concs : ∀ c ∈ t.concs, c ≠ [] ∧ (joinStr [':'] (c.map natStr)).length < 50
  hnfs : ∀ r ∈ t.rows, r.1.length = 6 ∧ (joinStr [' '] (r.1.map intStr)).length < 26
  counts : ∀ r ∈ t.rows, r.2.1.length = t.concs.length ∧ ∀ v ∈ r.2.1, (natStr v).length < 50
  last : t.last.length = t.concs.length ∧ ∀ v ∈ t.last, (natStr v).length < 50

/-- the lines of the file -/
inductive PolyaLine
  | head
  | row (r : HNF6 × List ℕ × ℕ)
  | dash
  | last

/-- the text of a line -/
def polyaText (t : PolyaTable) : PolyaLine → Str
  | .head => padRight 28 "# HNF".toList ++ t.concs.flatMap (fun c => padRight 50 (joinStr [':'] (c.map natStr))) ++ padRight 50 "Total".toList
  | .row r => "  ".toList ++ padRight 26 (joinStr [' '] (r.1.map intStr)) ++ r.2.1.flatMap (fun v => padRight 50 (natStr v)) ++
      padRight 10 (natStr r.2.2)
  | .dash => "# ".toList ++ List.replicate (t.concs.length * 10 + 10 + 30) '-'
  | .last => padRight 28 "  0 0 0 0 0 0".toList ++ t.last.flatMap (fun v => padRight 50 (natStr v)) ++ padRight 50 (natStr t.last.sum)

/-- the numbers in it -/
def polyaVals (t : PolyaTable) : PolyaLine → List ℤ
  | .head => []
  | .row r => r.1 ++ r.2.1.map (fun v : ℕ => (v : ℤ)) ++ [(r.2.2 : ℤ)]
  | .dash => []
  | .last => [0, 0, 0, 0, 0, 0] ++ t.last.map (fun v : ℕ => (v : ℤ)) ++ [(t.last.sum : ℤ)]

theorem writePolya_eq (t : PolyaTable) : writePolya t =
    ([PolyaLine.head] ++ t.rows.map PolyaLine.row ++ [PolyaLine.dash, PolyaLine.last]).flatMap (fun x => polyaText t x ++ ['\n']) := by
  simp only [List.flatMap_append, List.flatMap_map, List.flatMap_cons, List.flatMap_nil, List.append_nil]
  simp only [writePolya, polyaText, List.append_assoc]

theorem split_columns {α : Type} (w : ℕ) (g : α → Str) (l : List α) (h : ∀ a ∈ l, IsWord (g a) ∧ (g a).length < w) (y : Str) :
    pySplit (l.flatMap (fun a => padRight w (g a)) ++ y) = l.map g ++ pySplit y := by
  induction l with
  | nil => rfl
  | cons a l ih =>
    obtain ⟨h1, h2⟩ := h a List.mem_cons_self
    rw [List.flatMap_cons, List.append_assoc, split_padRight _ _ _ h2, split_word h1, ih (fun b hb => h b (List.mem_cons_of_mem _ hb))]
    rfl

theorem split_padRight_end (w : ℕ) (s : Str) : pySplit (padRight w s) = pySplit s := split_spaces_end _ _

section
variable {t : PolyaTable} (ht : t.Fits)
include ht

theorem polya_row_numLine (r : HNF6 × List ℕ × ℕ) : NumLine (polyaText t (.row r)) := by
  have h1 : NumLine (joinStr [' '] (r.1.map intStr)) := NumLine.join (by
    intro t ht; obtain ⟨z, -, rfl⟩ := List.mem_map.mp ht; exact NumLine.int z)
  exact ((((NumLine.spaces 2).append (h1.padRight 26)).append (NumLine.flatMap (fun v _ => (NumLine.nat v).padRight 50)))).append
    ((NumLine.nat _).padRight 10)

theorem polya_last_numLine : NumLine (polyaText t .last) := by
  have h0 : NumLine (padRight 28 "  0 0 0 0 0 0".toList) := by unfold NumLine; decide
  exact ((h0.append (NumLine.flatMap (fun v _ => (NumLine.nat v).padRight 50)))).append ((NumLine.nat _).padRight 50)

theorem split_polya_row {r : HNF6 × List ℕ × ℕ} (hr : r ∈ t.rows) : pySplit (polyaText t (.row r)) = (polyaVals t (.row r)).map intStr := by
  obtain ⟨h1, h2⟩ := ht.hnfs r hr
  obtain ⟨h3, h4⟩ := ht.counts r hr
  show pySplit (List.replicate 2 ' ' ++ padRight 26 _ ++ _ ++ _) = _
  rw [List.append_assoc, List.append_assoc, split_spaces_append, split_padRight _ _ _ h2, split_columns 50 natStr _ (fun v hv => ⟨natStr_word v, h4 v hv⟩),
    split_padRight_end, split_natStr, split_join]
  · simp [polyaVals, Function.comp_def, intStr_natCast]
  · intro t ht; obtain ⟨z, -, rfl⟩ := List.mem_map.mp ht; exact intStr_word z

theorem split_polya_last : pySplit (polyaText t .last) = (polyaVals t .last).map intStr := by
  show pySplit (padRight 28 _ ++ _ ++ _) = _
  rw [List.append_assoc, split_padRight _ _ _ (by decide), split_columns 50 natStr _ (fun v hv => ⟨natStr_word v, ht.last.2 v hv⟩),
    split_padRight_end, split_natStr]
  have e : pySplit "  0 0 0 0 0 0".toList = [0, 0, 0, 0, 0, 0].map natStr := by
    rw [show natStr = natStr from rfl]
    have h0 : natStr 0 = ['0'] := by rw [natStr_lt (by norm_num)]; rfl
    simp only [List.map_cons, List.map_nil, h0]
    decide
  rw [e]
  simp only [polyaVals, List.map_append, List.map_map, List.map_cons, List.map_nil, Function.comp_def, intStr_natCast, List.append_assoc]
  rfl

theorem concStr_word {c : Conc} (hc : c ≠ []) : IsWord (joinStr [':'] (c.map natStr)) := by
  constructor
  · cases c with
    | nil => exact absurd rfl hc
    | cons a c =>
      cases c with
      | nil => exact natStr_ne_nil a
      | cons b c =>
        have : natStr a ≠ [] := natStr_ne_nil a
        simp [joinStr, this]
  · intro ch hch
    rcases join_mem hch with h | ⟨w, hw, h⟩
    · rw [List.mem_singleton] at h; subst h; decide
    · obtain ⟨n, -, rfl⟩ := List.mem_map.mp hw
      exact (natStr_word n).2 ch h

theorem polya_head_split : pySplit (polyaText t .head) =
    ["#".toList, "HNF".toList] ++ t.concs.map (fun c => joinStr [':'] (c.map natStr)) ++ ["Total".toList] := by
  show pySplit (padRight 28 _ ++ _ ++ _) = _
  rw [List.append_assoc, split_padRight _ _ _ (by decide),
    split_columns 50 (fun c : Conc => joinStr [':'] (c.map natStr)) _ (fun c hc => ⟨concStr_word ht (ht.concs c hc).1, (ht.concs c hc).2⟩), split_padRight_end,
    show pySplit "Total".toList = ["Total".toList] by decide, show pySplit "# HNF".toList = ["#".toList, "HNF".toList] by decide]
  simp

theorem polya_head_line : '\n' ∉ polyaText t .head := by
  intro h
  simp only [polyaText, List.mem_append, List.mem_flatMap] at h
  rcases h with (h | ⟨c, hc, h⟩) | h
  · revert h; decide
  · rw [padRight, List.mem_append] at h
    rcases h with h | h
    · have := (concStr_word ht (ht.concs c hc).1).2 _ h
      revert this; decide
    · have := List.eq_of_mem_replicate h
      revert this; decide
  · revert h; decide

theorem polya_loadtxt : loadtxt (writePolya t) = .ok (t.rows.map (fun r => polyaVals t (.row r)) ++ [polyaVals t .last]) := by
  rw [writePolya_eq, loadtxt_spec _ (polyaText t) (polyaVals t) (6 + (t.concs.length + 1))]
  · congr 1
    simp only [List.map_append, List.map_cons, List.map_nil, List.map_map, List.filter_append]
    have e1 : List.filter (fun r => decide (r ≠ [])) [polyaVals t PolyaLine.head] = [] := by simp [polyaVals]
    have e2 : List.filter (fun r => decide (r ≠ [])) (t.rows.map (polyaVals t ∘ PolyaLine.row)) = t.rows.map (polyaVals t ∘ PolyaLine.row) := by
      rw [List.filter_eq_self]
      intro r hr
      obtain ⟨x, -, rfl⟩ := List.mem_map.mp hr
      simp [polyaVals]
    have e3 : List.filter (fun r => decide (r ≠ [])) [polyaVals t PolyaLine.dash, polyaVals t PolyaLine.last] = [polyaVals t .last] := by
      simp [polyaVals]
    rw [e1, e2, e3]
    rfl
  · intro x _
    cases x with
    | head => exact polya_head_line ht
    | row r => exact (polya_row_numLine ht r).no_newline
    | dash =>
      intro h
      simp only [polyaText, List.mem_append] at h
      rcases h with h | h
      · revert h; decide
      · have := List.eq_of_mem_replicate h
        revert this; decide
    | last => exact (polya_last_numLine ht).no_newline
  · intro x hx
    cases x with
    | head => rfl
    | row r =>
      rw [(polya_row_numLine ht r).no_hash, split_polya_row ht]
      simp only [List.mem_append, List.mem_map, List.mem_cons, List.mem_singleton, List.not_mem_nil, reduceCtorEq, or_false, false_or,
        PolyaLine.row.injEq, exists_eq_right] at hx
      exact hx
    | dash => rfl
    | last => rw [(polya_last_numLine ht).no_hash, split_polya_last ht]
  · intro x hx hne
    cases x with
    | head => exact absurd rfl hne
    | row r =>
      simp only [List.mem_append, List.mem_map, List.mem_cons, List.mem_singleton, List.not_mem_nil, reduceCtorEq, or_false, false_or,
        PolyaLine.row.injEq, exists_eq_right] at hx
      simp [polyaVals, (ht.hnfs r hx).1, (ht.counts r hx).1]
    | dash => exact absurd rfl hne
    | last => simp [polyaVals, ht.last.1]; omega

/-- C49. A polya.out file is read back as the table it was written from: the concentrations from its heading, the HNFs,
the counts and the totals from its rows, provided that the entries fit into the columns. -/
theorem C49_polya_out_round_trip : readPolya t.size (writePolya t) = .ok t := by
  have hhead : (fileLines (writePolya t)).headD [] = polyaText t .head := by
    rw [writePolya_eq]
    have : ([PolyaLine.head] ++ t.rows.map PolyaLine.row ++ [PolyaLine.dash, PolyaLine.last]).flatMap (fun x => polyaText t x ++ ['\n']) =
        polyaText t .head ++ '\n' :: ((t.rows.map PolyaLine.row ++ [PolyaLine.dash, PolyaLine.last]).flatMap (fun x => polyaText t x ++ ['\n'])) := by
      simp
    rw [this, fileLines, splitOn_line _ _ (polya_head_line ht)]
    split
    · have := splitOn_ne_nil '\n' (List.flatMap (fun x => polyaText t x ++ ['\n']) (t.rows.map PolyaLine.row ++ [PolyaLine.dash, PolyaLine.last]))
      cases hs : splitOn '\n' (List.flatMap (fun x => polyaText t x ++ ['\n']) (t.rows.map PolyaLine.row ++ [PolyaLine.dash, PolyaLine.last])) with
      | nil => exact absurd hs this
      | cons a l => rfl
    · rfl
  unfold readPolya
  simp only [hhead, polya_head_split ht, polya_loadtxt ht]
  have e1 : sliceToLast 2 (["#".toList, "HNF".toList] ++ t.concs.map (fun c => joinStr [':'] (c.map natStr)) ++ ["Total".toList]) =
      t.concs.map (fun c => joinStr [':'] (c.map natStr)) := by
    rw [sliceToLast, List.append_assoc]
    show (t.concs.map (fun c => joinStr [':'] (c.map natStr)) ++ ["Total".toList]).dropLast = _
    rw [List.dropLast_concat]
  have e2 : (t.concs.map (fun c => joinStr [':'] (c.map natStr))).mapM (fun h => (splitOn ':' h).mapM parseNat) = .ok t.concs := by
    have hne : ∀ c ∈ t.concs, c ≠ [] := fun c hc => (ht.concs c hc).1
    clear hhead e1
    generalize t.concs = cs at hne
    induction cs with
    | nil => rfl
    | cons c cs ih =>
      rw [List.map_cons, List.mapM_cons, ih (fun d hd => hne d (List.mem_cons_of_mem _ hd)), splitOn_join, mapM_parse parseNat natStr parseNat_natStr]
      · rfl
      · simpa using hne c List.mem_cons_self
      · intro w hw
        obtain ⟨n, -, rfl⟩ := List.mem_map.mp hw
        intro h
        exact (isDigit_not_minus (natStr_digits n _ h)).2.2.2.1 rfl
  rw [e1, e2]
  have hlen : ¬ (t.rows.map (fun r => polyaVals t (.row r)) ++ [polyaVals t .last]).length < 2 := by
    have := List.length_pos_iff.mpr ht.nonempty
    rw [List.length_append, List.length_map, List.length_singleton]
    omega
  simp only [bind, Except.bind]
  rw [if_neg hlen]
  simp only [List.getLast?_append, List.getLast?_singleton, Option.some_or, List.dropLast_concat, List.map_map]
  have e3 : sliceToLast 6 (polyaVals t .last) = t.last.map (fun v : ℕ => (v : ℤ)) := by
    rw [sliceToLast, polyaVals, List.append_assoc]
    show (t.last.map (fun v : ℕ => (v : ℤ)) ++ [(t.last.sum : ℤ)]).dropLast = _
    rw [List.dropLast_concat]
  have e4 : t.rows.map ((fun r : List ℤ => (r.take 6, (sliceToLast 6 r).map Int.toNat, (r.getLastD 0).toNat)) ∘
      (fun r => polyaVals t (.row r))) = t.rows := by
    conv_rhs => rw [← List.map_id t.rows]
    apply List.map_congr_left
    intro r hr
    have h6 := (ht.hnfs r hr).1
    have a1 : (polyaVals t (.row r)).take 6 = r.1 := by rw [polyaVals, List.append_assoc, ← h6, List.take_left]
    have a2 : sliceToLast 6 (polyaVals t (.row r)) = r.2.1.map (fun v : ℕ => (v : ℤ)) := by
      rw [sliceToLast, polyaVals, List.append_assoc, ← h6, List.drop_left, List.dropLast_concat]
    have a3 : (polyaVals t (.row r)).getLastD 0 = (r.2.2 : ℤ) := by
      rw [polyaVals, List.getLastD_eq_getLast?, List.getLast?_concat]; rfl
    simp only [Function.comp_apply, a1, a2, a3]
    simp [Function.comp_def]
  rw [e3, e4, List.map_map]
  have e5 : t.last.map (Int.toNat ∘ fun v : ℕ => (v : ℤ)) = t.last := by simp [Function.comp_def]
  rw [e5]

end

/-- The two-species table of size 2 of the fcc lattice. -/
example : PolyaTable.Fits { size := 2, concs := [[1, 1]], rows := [([1, 0, 1, 0, 0, 2], [1], 1), ([1, 0, 1, 1, 1, 2], [1], 1)], last := [2] } where
  nonempty := by simp
  concs := by intro c hc; simp at hc; subst hc; simp [joinStr, natStr_lt]
  hnfs := by intro r hr; simp at hr; rcases hr with rfl | rfl <;> exact ⟨rfl, by decide +kernel⟩
  counts := by intro r hr; simp at hr; rcases hr with rfl | rfl <;> simp [natStr_lt]
  last := by simp [natStr_lt]

end Phenum
