import Verif.Proof.Text
import Verif.Proof.Group
import Verif.Proof.PointGroup
import Mathlib.Data.List.Lex
/-
Lemmas about the rows of enum.out: fixed width fields, numbering.
-/
namespace Phenum

/-! ## Rows -/

theorem split_sp2 (x y : Str) : pySplit (x ++ "  ".toList ++ y) = pySplit x ++ pySplit y := by
  rw [List.append_assoc]
  show pySplit (x ++ ' ' :: ' ' :: y) = _
  rw [split_append_ws _ ws_space, split_cons_ws ws_space]

theorem split_sp4 (x y : Str) : pySplit (x ++ "    ".toList ++ y) = pySplit x ++ pySplit y := by
  rw [List.append_assoc]
  show pySplit (x ++ ' ' :: ' ' :: ' ' :: ' ' :: y) = _
  rw [split_append_ws _ ws_space, split_cons_ws ws_space, split_cons_ws ws_space, split_cons_ws ws_space]

theorem split_fields (n : ℕ) (x : Str) (l : List ℤ) (h : ∀ z ∈ l, (intStr z).length < n) :
    pySplit (x ++ fmtn l n) = pySplit x ++ l.map intStr := by
  induction l generalizing x with
  | nil => simp [fmtn]
  | cons z l ih =>
    have h1 : fmtn (z :: l) n = padLeft n (intStr z) ++ fmtn l n := rfl
    rw [h1, ← List.append_assoc, ih _ (fun w hw => h w (List.mem_cons_of_mem _ hw)), split_padLeft _ _ _ (h z List.mem_cons_self),
      split_intStr]
    simp

theorem split_fmtn (n : ℕ) (l : List ℤ) (h : ∀ z ∈ l.tail, (intStr z).length < n) : pySplit (fmtn l n) = l.map intStr := by
  cases l with
  | nil => rfl
  | cons z l =>
    have h1 : fmtn (z :: l) n = padLeft n (intStr z) ++ fmtn l n := rfl
    rw [h1, split_fields n _ l h, split_padLeft_head, split_intStr]
    rfl

theorem fmtn_length (n : ℕ) (l : List ℤ) (h : ∀ z ∈ l, (intStr z).length ≤ n) : (fmtn l n).length = n * l.length := by
  induction l with
  | nil => rfl
  | cons z l ih =>
    have h1 : fmtn (z :: l) n = padLeft n (intStr z) ++ fmtn l n := rfl
    rw [h1, List.length_append, ih (fun w hw => h w (List.mem_cons_of_mem _ hw)), padLeft, List.length_append, List.length_replicate,
      List.length_cons]
    have := h z List.mem_cons_self
    have h2 : n - (intStr z).length + (intStr z).length = n := by omega
    rw [h2, Nat.mul_add]; omega

/-- The number of characters of a number. -/
theorem intStr_length_nonneg {z : ℤ} {k : ℕ} (hk : 0 < k) (h0 : 0 ≤ z) (h : z < 10 ^ k) : (intStr z).length ≤ k := by
  obtain ⟨n, rfl⟩ := Int.eq_ofNat_of_zero_le h0
  rw [show intStr ((n : ℕ) : ℤ) = natStr n from rfl]
  exact natStr_length_le hk (by exact_mod_cast h)

theorem intStr_length_signed {z : ℤ} {k : ℕ} (hk : 0 < k) (h0 : -10 ^ k < z) (h : z < 10 ^ (k + 1)) : (intStr z).length ≤ k + 1 := by
  cases z with
  | ofNat n =>
    have h' : ((n : ℕ) : ℤ) < 10 ^ (k + 1) := h
    exact natStr_length_le (by omega) (by exact_mod_cast h')
  | negSucc n =>
    show (natStr (n + 1)).length + 1 ≤ k + 1
    have : n + 1 < 10 ^ k := by
      have h1 : (Int.negSucc n) = -((n : ℤ) + 1) := rfl
      rw [h1] at h0
      have : ((n : ℤ) + 1) < 10 ^ k := by linarith
      exact_mod_cast this
    have := natStr_length_le hk this
    omega

/-- all the numbers of a row -/
def rowNums (t s : ℕ) (x : EnumEntry) : List ℤ :=
  [(t : ℤ), 1, 1, 1, 1, (s : ℤ), x.size, 1] ++ (x.snf ++ (x.hnf ++ x.lt))

/-- The row without its line end. -/
def rowText (t s : ℕ) (x : EnumEntry) : Str :=
  padLeft 10 (natStr t) ++ padLeft 10 (natStr 1) ++ padLeft 8 (natStr 1) ++ padLeft 9 (natStr 1) ++
  padLeft 9 (natStr 1) ++ padLeft 12 (natStr s) ++ padLeft 4 (intStr x.size) ++ padLeft 6 (natStr 1) ++
  padLeft 10 (fmtn x.snf 3) ++ "  ".toList ++ padLeft 18 (fmtn x.hnf 3) ++ "  ".toList ++ padLeft 44 (fmtn x.lt 5) ++
  "    ".toList ++ x.labeling ++ "    ".toList ++ padLeft 21 x.arrowing

theorem enumOutLine_eq (t s : ℕ) (x : EnumEntry) : enumOutLine t s x = rowText t s x ++ ['\n'] := rfl

/-- Widths that the row format can hold. -/
structure EnumEntry.Fits (x : EnumEntry) : Prop where
  size : 0 ≤ x.size ∧ x.size < 1000
  snf : x.snf.length = 3 ∧ ∀ z ∈ x.snf, 0 ≤ z ∧ z < 100
  hnf : x.hnf.length = 6 ∧ ∀ z ∈ x.hnf, 0 ≤ z ∧ z < 100
  lt : x.lt.length = 9 ∧ ∀ z ∈ x.lt, -1000 < z ∧ z < 10000
  labeling : IsWord x.labeling
  arrowing : IsWord x.arrowing

theorem split_row_gen (t s : ℕ) (x : EnumEntry) (hsz : (intStr x.size).length < 4) (hs : s < 10 ^ 11) (hw : (fmtn x.snf 3).length < 10)
    (hl : IsWord x.labeling) (ha : IsWord x.arrowing) :
    pySplit (rowText t s x) = [natStr t, natStr 1, natStr 1, natStr 1, natStr 1, natStr s, intStr x.size, natStr 1] ++
      (pySplit (fmtn x.snf 3) ++ (pySplit (fmtn x.hnf 3) ++ pySplit (fmtn x.lt 5))) ++ [x.labeling, x.arrowing] := by
  have hs' : (natStr s).length < 12 := by have := natStr_length_le (k := 11) (by norm_num) hs; omega
  have h1 : (natStr 1).length = 1 := by rw [natStr_lt (by norm_num)]; rfl
  unfold rowText
  rw [List.append_assoc _ "    ".toList (padLeft 21 _), ← List.append_assoc _ "    ".toList (padLeft 21 _), split_sp4, split_padLeft_head,
    split_word ha, split_sp4, split_word hl, split_sp2, split_padLeft_head, split_sp2, split_padLeft_head, split_padLeft _ _ _ hw,
    split_padLeft _ _ _ (by omega), split_natStr,
    split_padLeft _ _ _ hsz, split_intStr, split_padLeft _ _ _ hs', split_natStr, split_padLeft _ _ _ (by omega),
    split_padLeft _ _ _ (by omega), split_padLeft _ _ _ (by omega), split_padLeft _ _ _ (by omega), split_padLeft_head, split_natStr, split_natStr]
  simp

theorem split_row (t s : ℕ) (x : EnumEntry) (hx : x.Fits) (hs : s < 10 ^ 11) :
    pySplit (rowText t s x) = (rowNums t s x).map intStr ++ [x.labeling, x.arrowing] := by
  have hsz : (intStr x.size).length < 4 := by
    have := intStr_length_nonneg (k := 3) (by norm_num) hx.size.1 (by linarith [hx.size.2]); omega
  have hsn : ∀ z ∈ x.snf, (intStr z).length < 3 := by
    intro z hz
    have := intStr_length_nonneg (k := 2) (by norm_num) (hx.snf.2 z hz).1 (by linarith [(hx.snf.2 z hz).2]); omega
  have hhn : ∀ z ∈ x.hnf, (intStr z).length < 3 := by
    intro z hz
    have := intStr_length_nonneg (k := 2) (by norm_num) (hx.hnf.2 z hz).1 (by linarith [(hx.hnf.2 z hz).2]); omega
  have hlt : ∀ z ∈ x.lt, (intStr z).length < 5 := by
    intro z hz
    have := intStr_length_signed (k := 3) (by norm_num) (by linarith [(hx.lt.2 z hz).1]) (by linarith [(hx.lt.2 z hz).2] : z < 10 ^ 4)
    omega
  have hw : (fmtn x.snf 3).length < 10 := by
    rw [fmtn_length 3 _ (fun z hz => (hsn z hz).le), hx.snf.1]; norm_num
  rw [split_row_gen t s x hsz hs hw hx.labeling hx.arrowing,
    split_fmtn 5 _ (fun z hz => hlt z (List.mem_of_mem_tail hz)),
    split_fmtn 3 _ (fun z hz => hhn z (List.mem_of_mem_tail hz)),
    split_fmtn 3 _ (fun z hz => hsn z (List.mem_of_mem_tail hz))]
  have e1 : natStr 1 = intStr 1 := rfl
  simp only [rowNums, List.map_append, List.map_cons, List.map_nil, intStr_natCast, e1]

theorem numAt_ok (l : List ℤ) (r : List Str) : (List.range l.length).mapM (numAt (l.map intStr ++ r)) = .ok l := by
  have key : ∀ (pre : List Str) (l : List ℤ), (List.range' pre.length l.length).mapM (numAt (pre ++ (l.map intStr ++ r))) = .ok l := by
    intro pre l
    induction l generalizing pre with
    | nil => rfl
    | cons z l ih =>
      rw [List.length_cons, List.range'_succ, List.mapM_cons]
      have h1 : numAt (pre ++ ((z :: l).map intStr ++ r)) pre.length = .ok z := by
        unfold numAt
        rw [pyGet_ok _ _ (by simp)]
        have : (pre ++ ((z :: l).map intStr ++ r))[pre.length]'(by simp) = intStr z := by
          rw [List.getElem_append_right (by omega)]; simp
        rw [this]
        exact parseInt_intStr z
      rw [h1]
      have h2 := ih (pre ++ [intStr z])
      rw [List.length_append, List.append_assoc] at h2
      simp only [List.map_cons, List.cons_append] at h2 ⊢
      simp only [List.length_cons, List.length_nil, List.nil_append] at h2
      rw [h2]
      rfl
  have := key [] l
  rwa [List.length_nil, ← List.range_eq_range'] at this

theorem split_ws_end (x t : Str) (h : ∀ ch ∈ t, isWs ch = true) : pySplit (x ++ t) = pySplit x := by
  cases t with
  | nil => simp
  | cons w t =>
    rw [split_append_ws _ (h w List.mem_cons_self)]
    have : ∀ t : Str, (∀ ch ∈ t, isWs ch = true) → pySplit t = [] := by
      intro t
      induction t with
      | nil => intro _; rfl
      | cons w t ih => intro ht; rw [split_cons_ws (ht w List.mem_cons_self), ih (fun c hc => ht c (List.mem_cons_of_mem _ hc))]
    rw [this t (fun c hc => h c (List.mem_cons_of_mem _ hc)), List.append_nil]

theorem split_rstrip (s : Str) : pySplit (rstrip s) = pySplit s := by
  have h : s = rstrip s ++ (s.reverse.takeWhile isWs).reverse := by
    unfold rstrip
    rw [← List.reverse_append, List.takeWhile_append_dropWhile, List.reverse_reverse]
  conv_rhs => rw [h]
  rw [split_ws_end]
  intro ch hch
  rw [List.mem_reverse] at hch
  have := List.all_takeWhile (p := isWs) (l := s.reverse)
  exact List.all_eq_true.mp this ch hch

/-- What the reader should make of a row. -/
def outRow (r : ℕ × ℕ × EnumEntry) : ReadStruct :=
  ⟨r.1, r.2.1, r.2.2.size, r.2.2.snf, r.2.2.hnf, r.2.2.lt, r.2.2.labeling, r.2.2.arrowing⟩

theorem readRow_ok (t s : ℕ) (x : EnumEntry) (hx : x.Fits) (hs : s < 10 ^ 11) :
    readRow (rstrip (rowText t s x)) = .ok (outRow (t, s, x)) := by
  unfold readRow
  rw [split_rstrip, split_row t s x hx hs]
  have hlen : (rowNums t s x).length = 26 := by simp [rowNums, hx.snf.1, hx.hnf.1, hx.lt.1]
  have h1 := numAt_ok (rowNums t s x) [x.labeling, x.arrowing]
  rw [hlen] at h1
  simp only [h1]
  have h2 : pyGet ((rowNums t s x).map intStr ++ [x.labeling, x.arrowing]) (26 : ℕ) = .ok x.labeling := by
    rw [pyGet_ok _ _ (by simp [hlen])]
    congr 1
    rw [List.getElem_append_right (by simp [hlen])]
    simp [hlen]
  have h3 : pyGet ((rowNums t s x).map intStr ++ [x.labeling, x.arrowing]) (27 : ℕ) = .ok x.arrowing := by
    rw [pyGet_ok _ _ (by simp [hlen])]
    congr 1
    rw [List.getElem_append_right (by simp [hlen])]
    simp [hlen]
  show (pyGet _ _).bind _ = _
  rw [h2]
  show (pyGet _ _).bind _ = _
  rw [h3]
  show Except.ok _ = _
  congr 1
  have d1 : (rowNums t s x).drop 8 = x.snf ++ (x.hnf ++ x.lt) := rfl
  have d2 : (rowNums t s x).drop 11 = x.hnf ++ x.lt := by
    rw [show (11 : ℕ) = 8 + 3 from rfl, ← List.drop_drop, d1, ← hx.snf.1, List.drop_left]
  have d3 : (rowNums t s x).drop 17 = x.lt := by
    rw [show (17 : ℕ) = 11 + 6 from rfl, ← List.drop_drop, d2, ← hx.hnf.1, List.drop_left]
  rw [d1, d2, d3]
  have e1 : (x.snf ++ (x.hnf ++ x.lt)).take 3 = x.snf := by rw [← hx.snf.1, List.take_left]
  have e2 : (x.hnf ++ x.lt).take 6 = x.hnf := by rw [← hx.hnf.1, List.take_left]
  have e3 : x.lt.take 9 = x.lt := by rw [← hx.lt.1, List.take_length]
  rw [e1, e2, e3]
  rfl

end Phenum
