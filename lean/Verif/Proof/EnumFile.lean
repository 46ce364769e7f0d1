import Verif.Proof.EnumOut
import Verif.Proof.OpPerm
/-
Lemmas about the whole of enum.out: decimal fractions, the header, the loop over the lines.
-/
namespace Phenum

/-! ## Decimal fractions -/

theorem npRound_near_rat (x : ℚ) : |x - (npRound x : ℚ)| ≤ 1 / 2 := by
  unfold npRound
  have h1 := Int.floor_le x
  have h2 := Int.lt_floor_add_one x
  have hf : Int.fract x = x - ⌊x⌋ := rfl
  split
  · rename_i h
    rw [hf] at h
    split
    · rw [abs_le]; constructor <;> linarith
    · push_cast; rw [abs_le]; constructor <;> linarith
  · rw [abs_sub_comm]; have := abs_sub_round x; rwa [abs_sub_comm] at this

theorem npRound_nonneg {x : ℚ} (h : 0 ≤ x) : 0 ≤ npRound x := by
  have := npRound_near_rat x
  rw [abs_le] at this
  have h1 : (-1 : ℚ) < npRound x := by linarith [this.2]
  have h2 : (-1 : ℤ) < npRound x := by exact_mod_cast h1
  omega

/-- the scaled value that is printed -/
def scaled (x : ℚ) : ℕ := (npRound (|x| * 10 ^ 7)).toNat

/-- the value that is printed -/
def read7 (x : ℚ) : ℚ := (if x < 0 then -1 else 1) * ((scaled x : ℚ) / 10 ^ 7)

theorem read7_near (x : ℚ) : |read7 x - x| ≤ 1 / 2 / 10 ^ 7 := by
  have h0 : 0 ≤ |x| * 10 ^ 7 := by positivity
  have h1 := npRound_near_rat (|x| * 10 ^ 7)
  have h2 : ((scaled x : ℕ) : ℚ) = (npRound (|x| * 10 ^ 7) : ℚ) := by
    unfold scaled
    have := Int.toNat_of_nonneg (npRound_nonneg h0)
    exact_mod_cast this
  unfold read7
  rw [h2]
  rw [abs_le] at h1 ⊢
  by_cases hx : x < 0
  · rw [if_pos hx]
    rw [abs_of_neg hx] at h1 ⊢
    constructor <;> linarith [h1.1, h1.2]
  · rw [if_neg hx]
    rw [abs_of_nonneg (not_lt.mp hx)] at h1 ⊢
    constructor <;> linarith [h1.1, h1.2]

/-- the seven decimals -/
def decimals (m : ℕ) : Str := List.replicate (7 - (natStr m).length) '0' ++ natStr m

theorem digitsVal_foldl (v : ℕ) (l : Str) :
    l.foldl (fun v ch => 10 * v + (ch.toNat - 48)) v = v * 10 ^ l.length + digitsVal l := by
  induction l generalizing v with
  | nil => simp [digitsVal]
  | cons ch l ih =>
    unfold digitsVal
    rw [List.foldl_cons, List.foldl_cons, ih, ih (10 * 0 + _), List.length_cons, pow_succ]
    ring

theorem digitsVal_two (a b : Str) : digitsVal (a ++ b) = digitsVal a * 10 ^ b.length + digitsVal b := by
  conv_lhs => unfold digitsVal
  rw [List.foldl_append, digitsVal_foldl]
  rfl

theorem digitsVal_zeros (k : ℕ) : digitsVal (List.replicate k '0') = 0 := by
  induction k with
  | zero => rfl
  | succ k ih =>
    rw [List.replicate_succ, show '0' :: List.replicate k '0' = ['0'] ++ List.replicate k '0' from rfl, digitsVal_two, ih,
      show digitsVal ['0'] = 0 from rfl, Nat.zero_mul]

theorem decimals_facts {m : ℕ} (h : m < 10 ^ 7) : (decimals m).length = 7 ∧ digitsVal (decimals m) = m ∧ ∀ ch ∈ decimals m, ch.isDigit = true := by
  have h1 := natStr_length_le (k := 7) (by norm_num) h
  refine ⟨by unfold decimals; rw [List.length_append, List.length_replicate]; omega, ?_, ?_⟩
  · unfold decimals; rw [digitsVal_two, digitsVal_zeros, digitsVal_natStr]; simp
  · intro ch hch
    unfold decimals at hch
    rcases List.mem_append.mp hch with h2 | h2
    · rw [List.eq_of_mem_replicate h2]; decide
    · exact natStr_digits _ _ h2

theorem fmt7_eq (x : ℚ) : fmt7 x = (if x < 0 then ['-'] else []) ++ (natStr (scaled x / 10 ^ 7) ++ '.' :: decimals (scaled x % 10 ^ 7)) := by
  unfold fmt7 decimals scaled
  simp

theorem parseDecimal_ok (a b : Str) (ha : a ≠ []) (hda : ∀ ch ∈ a, ch.isDigit = true) (hdb : ∀ ch ∈ b, ch.isDigit = true) :
    parseDecimal (a ++ '.' :: b) = .ok ((digitsVal (a ++ b) : ℚ) / 10 ^ b.length) := by
  have h1 : splitOn '.' (a ++ '.' :: b) = [a, b] := by
    rw [splitOn_line _ _ (fun h => (isDigit_not_minus (hda _ h)).2.2.2.2.2.2.1 rfl),
      splitOn_single _ _ (fun h => (isDigit_not_minus (hdb _ h)).2.2.2.2.2.2.1 rfl)]
  unfold parseDecimal
  rw [h1]
  simp only
  rw [if_pos]
  refine ⟨by simp [ha], List.all_eq_true.mpr ?_⟩
  intro ch hch
  rcases List.mem_append.mp hch with h | h
  · exact hda ch h
  · exact hdb ch h

theorem decimal_no_e (a b : Str) (hda : ∀ ch ∈ a, ch.isDigit = true) (hdb : ∀ ch ∈ b, ch.isDigit = true) :
    'e' ∉ a ++ '.' :: b := by
  intro h
  rw [List.mem_append, List.mem_cons] at h
  rcases h with h | h | h
  · exact (isDigit_not_minus (hda _ h)).2.2.2.2.2.2.2 rfl
  · revert h; decide
  · exact (isDigit_not_minus (hdb _ h)).2.2.2.2.2.2.2 rfl

theorem parseFloat_plain {ch : Char} {l : Str} (h1 : ch ≠ '-') (h2 : ch ≠ '+') (he : 'e' ∉ ch :: l) :
    parseFloat (ch :: l) = (parseDecimal (ch :: l)).map (fun v => 1 * v) := by
  unfold parseFloat
  split
  rename_i x sgn body heq
  split at heq
  · rename_i h; exact absurd (List.cons.inj h).1 h1
  · rename_i h; exact absurd (List.cons.inj h).1 h2
  · obtain ⟨rfl, rfl⟩ := Prod.mk.inj heq
    rw [splitOn_single _ _ he]

theorem parseFloat_neg {l : Str} (he : 'e' ∉ l) : parseFloat ('-' :: l) = (parseDecimal l).map (fun v => -1 * v) := by
  unfold parseFloat
  simp only [splitOn_single _ _ he]

theorem parseFloat_fmt7 (x : ℚ) : parseFloat (fmt7 x) = .ok (read7 x) := by
  have hm : scaled x % 10 ^ 7 < 10 ^ 7 := Nat.mod_lt _ (by norm_num)
  obtain ⟨d1, d2, d3⟩ := decimals_facts hm
  have hd := parseDecimal_ok _ _ (natStr_ne_nil (scaled x / 10 ^ 7)) (natStr_digits _) d3
  have hv : ((digitsVal (natStr (scaled x / 10 ^ 7) ++ decimals (scaled x % 10 ^ 7)) : ℕ) : ℚ) = (scaled x : ℚ) := by
    rw [digitsVal_two, d1, d2, digitsVal_natStr]
    congr 1
    exact Nat.div_add_mod' _ _
  rw [hv, d1] at hd
  have he := decimal_no_e _ _ (natStr_digits (scaled x / 10 ^ 7)) d3
  rw [fmt7_eq]
  unfold read7
  by_cases hx : x < 0
  · rw [if_pos hx, if_pos hx]
    rw [List.singleton_append]
    rw [parseFloat_neg he, hd]
    rfl
  · rw [if_neg hx, if_neg hx, List.nil_append]
    cases hn : natStr (scaled x / 10 ^ 7) with
    | nil => exact absurd hn (natStr_ne_nil _)
    | cons c l =>
      have hc := isDigit_not_minus (natStr_digits (scaled x / 10 ^ 7) c (by rw [hn]; exact List.mem_cons_self))
      rw [hn] at he hd
      rw [List.cons_append] at he hd ⊢
      rw [parseFloat_plain hc.1 hc.2.1 he, hd]
      rfl

theorem fmt7_chars (x : ℚ) : ∀ ch ∈ fmt7 x, ch.isDigit = true ∨ ch = '-' ∨ ch = '.' := by
  have hm : scaled x % 10 ^ 7 < 10 ^ 7 := Nat.mod_lt _ (by norm_num)
  obtain ⟨-, -, d3⟩ := decimals_facts hm
  intro ch hch
  rw [fmt7_eq, List.mem_append, List.mem_append, List.mem_cons] at hch
  rcases hch with h | h | h | h
  · split at h
    · rw [List.mem_singleton] at h; exact Or.inr (Or.inl h)
    · exact absurd h List.not_mem_nil
  · exact Or.inl (natStr_digits _ _ h)
  · exact Or.inr (Or.inr h)
  · exact Or.inl (d3 ch h)

theorem fmt7_word (x : ℚ) : IsWord (fmt7 x) := by
  constructor
  · rw [fmt7_eq]; simp
  · intro ch hch
    rcases fmt7_chars x ch hch with h | rfl | rfl
    · exact (isDigit_not_minus h).2.2.2.2.1
    · decide
    · decide

theorem vecLine_split (k : ℕ) (v : Fin 3 → ℚ) : pySplit (vecLine k v) = [fmt7 (v 0), fmt7 (v 1), fmt7 (v 2)] := by
  unfold vecLine
  rw [List.append_assoc _ (List.replicate 7 ' '), List.append_assoc _ (List.replicate 7 ' '),
    List.append_assoc (List.replicate k ' ' ++ fmt7 (v 0)), List.append_assoc (List.replicate 7 ' '), split_append_spaces _ _ _ (by norm_num)]
  rw [split_append_spaces _ _ _ (by norm_num), split_spaces_append, split_word (fmt7_word _), split_word (fmt7_word _), split_word (fmt7_word _)]
  rfl

theorem floatsOf_vec (k : ℕ) (v : Fin 3 → ℚ) : floatsOf (rstrip (vecLine k v)) = .ok [read7 (v 0), read7 (v 1), read7 (v 2)] := by
  unfold floatsOf
  rw [split_rstrip, vecLine_split]
  simp only [List.mapM_cons, List.mapM_nil, parseFloat_fmt7]
  rfl

theorem vecLine_chars (k : ℕ) (v : Fin 3 → ℚ) : ∀ ch ∈ vecLine k v, ch.isDigit = true ∨ ch = '-' ∨ ch = '.' ∨ ch = ' ' := by
  intro ch hch
  simp only [vecLine, List.mem_append] at hch
  rcases hch with ((((h | h) | h) | h) | h) | h
  all_goals first
    | exact Or.inr (Or.inr (Or.inr (List.eq_of_mem_replicate h)))
    | exact (fmt7_chars _ ch h).imp id (Or.imp id Or.inl)

/-! ## strip -/

theorem rstrip_of_last {s : Str} {c : Char} (h : s.getLast? = some c) (hc : isWs c = false) : rstrip s = s := by
  unfold rstrip
  obtain ⟨l, rfl⟩ : ∃ l, s = l ++ [c] := by
    rw [List.getLast?_eq_some_iff] at h; exact h
  rw [List.reverse_append, List.reverse_singleton, List.singleton_append, List.dropWhile_cons_of_neg (by simp [hc])]
  simp

theorem rstrip_word {s : Str} (h : IsWord s) (pre : Str) : rstrip (pre ++ s) = pre ++ s := by
  obtain ⟨h1, h2⟩ := h
  have : s.getLast? = some (s.getLast h1) := List.getLast?_eq_some_getLast h1
  refine rstrip_of_last (c := s.getLast h1) ?_ (h2 _ (List.getLast_mem h1))
  rw [List.getLast?_append, this]; rfl

theorem strip_spaces_word {s : Str} (h : IsWord s) (k : ℕ) : strip (List.replicate k ' ' ++ s) = s := by
  unfold strip
  rw [rstrip_word h]
  induction k with
  | zero =>
    cases hs : s with
    | nil => exact absurd hs h.1
    | cons c l =>
      have := h.2 c (by rw [hs]; exact List.mem_cons_self)
      simp [List.dropWhile_cons, this]
  | succ k ih => rw [List.replicate_succ, List.cons_append, List.dropWhile_cons_of_pos (by decide)]; exact ih

theorem head_rstrip {s : Str} (h : s.head? ≠ some '#') : (rstrip s).head? ≠ some '#' := by
  unfold rstrip
  intro hc
  apply h
  have h2 : s.reverse.dropWhile isWs <:+ s.reverse := List.dropWhile_suffix _
  have h3 : (s.reverse.dropWhile isWs).reverse <+: s := by
    have := List.reverse_prefix.mpr h2
    rwa [List.reverse_reverse] at this
  obtain ⟨t, ht⟩ := h3
  rw [← ht, List.head?_append, hc]
  rfl

/-! ## The loop -/

theorem readLoop_append (want : ℤ → Bool) (a b : List Str) (lc : ℕ) (acc : ReadSystem × List ReadStruct) :
    readLoop want lc (a ++ b) acc = (readLoop want lc a acc).bind (readLoop want (lc + a.length) b) := by
  induction a generalizing lc acc with
  | nil => rfl
  | cons x a ih =>
    rw [List.cons_append, readLoop, readLoop]
    show (readLine want lc x acc).bind _ = ((readLine want lc x acc).bind _).bind _
    cases readLine want lc x acc with
    | error e => rfl
    | ok r =>
      show readLoop want (lc + 1) (a ++ b) r = (readLoop want (lc + 1) a r).bind _
      rw [ih, List.length_cons]
      congr 2
      omega

/-- The steps of the loop for one line of the preamble: no structure is read. -/
theorem readLine_pre {want : ℤ → Bool} {lc : ℕ} {line : Str} {s s1 s2 s3 : ReadSystem} {rows : List ReadStruct}
    (hh : line.head? ≠ some '#') (h1 : readHead lc (rstrip line) s = .ok s1) (h2 : readBasis lc (rstrip line) s1 = .ok s2)
    (h3 : readRest lc (rstrip line) s2 = .ok s3) (hw : ¬ (want ((lc : ℤ) - (14 + s3.nD)) = true ∧ s3.nD ≠ 0)) :
    readLine want lc line (s, rows) = .ok (s3, rows) := by
  unfold readLine
  simp only
  rw [if_neg (head_rstrip hh)]
  simp only [h1, h2, h3, bind, Except.bind]
  rw [if_neg hw]

/-- A line of the preamble that is skipped. -/
theorem readLine_skip {want : ℤ → Bool} {lc : ℕ} {line : Str} {s : ReadSystem} {rows : List ReadStruct}
    (hh : line.head? ≠ some '#') (h1 : lc = 2 ∨ lc = 8 + s.nD ∨ (10 + s.nD ≤ lc ∧ lc ≤ 14 + s.nD)) (hn : 0 ≤ s.nD)
    (hw : ∀ i ≤ 0, want i = false) : readLine want lc line (s, rows) = .ok (s, rows) := by
  apply readLine_pre hh (s1 := s) (s2 := s)
  · unfold readHead
    rw [if_neg (by omega), if_neg (by omega), if_neg (by omega)]
  · unfold readBasis
    rw [if_neg (by omega)]
  · unfold readRest
    rw [if_neg (by omega), if_neg (by omega)]
  · rw [hw _ (by omega)]
    simp

theorem readLoop_cons {want : ℤ → Bool} {lc : ℕ} {l : Str} {ls : List Str} {acc acc' : ReadSystem × List ReadStruct}
    (h : readLine want lc l acc = .ok acc') : readLoop want lc (l :: ls) acc = readLoop want (lc + 1) ls acc' := by
  rw [readLoop, h]; rfl

theorem vecLine_head (k : ℕ) (v : Fin 3 → ℚ) : (vecLine k v).head? ≠ some '#' := by
  intro h
  have := vecLine_chars k v '#' (List.mem_of_mem_head? (by rw [h]; rfl))
  revert this; decide

/-- the numbers in the line of a vector -/
def vals7 (v : Fin 3 → ℚ) : List ℚ := [read7 (v 0), read7 (v 1), read7 (v 2)]

theorem readLine_lat {want : ℤ → Bool} {lc k : ℕ} {v : Fin 3 → ℚ} {s : ReadSystem} {rows : List ReadStruct}
    (h1 : lc = 3 ∨ lc = 4 ∨ lc = 5) (hn : s.nD = 0) :
    readLine want lc (vecLine k v) (s, rows) = .ok ({ s with plattice := s.plattice ++ [vals7 v] }, rows) := by
  apply readLine_pre (vecLine_head k v) (s1 := { s with plattice := s.plattice ++ [vals7 v] }) (s2 := { s with plattice := s.plattice ++ [vals7 v] })
  · unfold readHead
    rw [if_neg (by omega), if_pos h1, floatsOf_vec]
    rfl
  · unfold readBasis
    rw [if_neg (by simp [hn])]
  · unfold readRest
    rw [if_neg (by simp [hn]; omega), if_neg (by simp [hn]; omega)]
  · simp [hn]

theorem readLoop_basis {want : ℤ → Bool} (hw : ∀ i ≤ 0, want i = false) (k : ℕ) (vs : List (Fin 3 → ℚ)) (rest : List Str) (s : ReadSystem)
    (rows : List ReadStruct) (lc : ℕ) (h1 : 7 ≤ lc) (h2 : (lc : ℤ) + vs.length = 7 + s.nD) :
    readLoop want lc (vs.map (vecLine k) ++ rest) (s, rows) =
      readLoop want (lc + vs.length) rest ({ s with dvecs := s.dvecs ++ vs.map vals7 }, rows) := by
  induction vs generalizing lc s with
  | nil => simp
  | cons v vs ih =>
    rw [List.map_cons, List.cons_append]
    rw [List.length_cons] at h2
    push_cast at h2
    have hl : readLine want lc (vecLine k v) (s, rows) = .ok ({ s with dvecs := s.dvecs ++ [vals7 v] }, rows) := by
      apply readLine_pre (vecLine_head k v) (s1 := s) (s2 := { s with dvecs := s.dvecs ++ [vals7 v] })
      · unfold readHead
        rw [if_neg (by omega), if_neg (by omega), if_neg (by omega)]
      · unfold readBasis
        rw [if_pos (by omega), floatsOf_vec]
        rfl
      · unfold readRest
        simp only
        rw [if_neg (by omega), if_neg (by omega)]
      · simp only
        rw [hw _ (by omega)]
        simp
    rw [readLoop_cons hl, ih _ _ (by omega) (by simp only; omega)]
    simp only [List.length_cons, List.append_assoc, List.map_cons, List.singleton_append]
    rw [show lc + 1 + vs.length = lc + (vs.length + 1) by omega]

/-- What the preamble of the file becomes. -/
def sysOf (p : EnumParams) (now : Str) : ReadSystem where
  title := rstrip ("Random structure enumeration: ".toList ++ now)
  plattice := p.latVecs.map vals7
  dvecs := p.basisVecs.map vals7
  nD := p.basisVecs.length
  k := some p.nspecies
  eps := some (1 / 10 ^ 7)

theorem parse_eps : parseFloat (strip (rstrip " 1e-7".toList)) = .ok ((1 : ℚ) / 10 ^ 7) := by
  have : strip (rstrip " 1e-7".toList) = "1e-7".toList := by decide
  rw [this]
  have h1 : parseDecimal ['1'] = .ok (1 : ℚ) := by
    unfold parseDecimal
    rw [show splitOn '.' ['1'] = [['1']] from rfl]
    simp only
    rw [if_pos (by decide)]
    show Except.ok ((1 : ℕ) : ℚ) = _
    simp
  unfold parseFloat
  show (parseDecimal ['1']).bind _ = _
  rw [h1]
  show Except.ok (1 * 1 * (10 : ℚ) ^ (-7 : ℤ)) = _
  congr 1
  norm_num

theorem natLine (k n : ℕ) : parseInt (strip (rstrip (List.replicate k ' ' ++ natStr n))) = .ok (n : ℤ) := by
  rw [rstrip_word (natStr_word n), strip_spaces_word (natStr_word n), parseInt_natStr]

theorem natLine_head (k n : ℕ) (y : Str) : (List.replicate k ' ' ++ (natStr n ++ y)).head? ≠ some '#' := by
  intro h
  cases k with
  | zero =>
    cases hn : natStr n with
    | nil => exact absurd hn (natStr_ne_nil n)
    | cons c l =>
      rw [hn] at h
      simp at h
      have := natStr_digits n c (by rw [hn]; exact List.mem_cons_self)
      rw [h] at this
      revert this; decide
  | succ k => simp [List.replicate_succ] at h

theorem readLoop_header {want : ℤ → Bool} (hw : ∀ i ≤ 0, want i = false) (p : EnumParams) (now : Str) (hl : p.latVecs.length = 3)
    (hb : p.basisVecs ≠ []) (rest : List Str) :
    readLoop want 1 (headerLines p now ++ rest) ({}, []) =
      readLoop want (15 + p.basisVecs.length) rest (sysOf p now, []) := by
  have hn : (p.basisVecs.length : ℤ) ≠ 0 := by simpa using hb
  obtain ⟨v1, v2, v3, hlv⟩ : ∃ v1 v2 v3, p.latVecs = [v1, v2, v3] := by
    match h : p.latVecs, hl with
    | [a, b, c], _ => exact ⟨a, b, c, rfl⟩
  unfold headerLines
  rw [hlv]
  simp only [List.map_cons, List.map_nil, List.append_assoc, List.cons_append, List.nil_append]
  -- line 1
  rw [readLoop_cons (acc' := ({ title := rstrip ("Random structure enumeration: ".toList ++ now) }, []))]
  swap
  · apply readLine_pre (s1 := { title := rstrip ("Random structure enumeration: ".toList ++ now) })
      (s2 := { title := rstrip ("Random structure enumeration: ".toList ++ now) })
    · simp
    · rfl
    · rfl
    · rfl
    · simp
  -- line 2
  rw [readLoop_cons (readLine_skip (by cases p.bulk <;> simp) (Or.inl rfl) (by norm_num) hw)]
  -- lines 3 to 5
  rw [readLoop_cons (readLine_lat (by norm_num) rfl), readLoop_cons (readLine_lat (by norm_num) rfl), readLoop_cons (readLine_lat (by norm_num) rfl)]
  simp only [List.nil_append, List.cons_append]
  -- line 6
  rw [readLoop_cons (acc' := ({ title := rstrip ("Random structure enumeration: ".toList ++ now), plattice := [vals7 v1, vals7 v2, vals7 v3], nD := p.basisVecs.length }, []))]
  swap
  · apply readLine_pre (s1 := { title := rstrip ("Random structure enumeration: ".toList ++ now), plattice := [vals7 v1, vals7 v2, vals7 v3], nD := p.basisVecs.length }) (s2 := { title := rstrip ("Random structure enumeration: ".toList ++ now), plattice := [vals7 v1, vals7 v2, vals7 v3], nD := p.basisVecs.length })
    · simp
    · unfold readHead
      rw [if_neg (by norm_num), if_neg (by norm_num), if_pos (by norm_num)]
      have := natLine 4 p.basisVecs.length
      rw [show "    ".toList = List.replicate 4 ' ' from rfl, this]
      rfl
    · unfold readBasis
      rw [if_neg (by norm_num)]
    · unfold readRest
      simp only
      rw [if_neg (by omega), if_neg (by omega)]
    · simp only
      rw [hw _ (by omega)]
      simp
  -- basis
  rw [readLoop_basis hw]
  rotate_left
  · norm_num
  · simp only; norm_num
  simp only [List.nil_append]
  -- species
  rw [readLoop_cons (acc' := ({ title := rstrip ("Random structure enumeration: ".toList ++ now), plattice := [vals7 v1, vals7 v2, vals7 v3], dvecs := p.basisVecs.map vals7, nD := p.basisVecs.length, k := some p.nspecies }, []))]
  swap
  · apply readLine_pre (s1 := { title := rstrip ("Random structure enumeration: ".toList ++ now), plattice := [vals7 v1, vals7 v2, vals7 v3], dvecs := p.basisVecs.map vals7, nD := p.basisVecs.length }) (s2 := { title := rstrip ("Random structure enumeration: ".toList ++ now), plattice := [vals7 v1, vals7 v2, vals7 v3], dvecs := p.basisVecs.map vals7, nD := p.basisVecs.length })
    · simp
    · unfold readHead
      rw [if_neg (by omega), if_neg (by omega), if_neg (by omega)]
    · unfold readBasis
      simp only
      rw [if_neg (by push_cast; omega)]
    · unfold readRest
      simp only
      rw [if_pos (by push_cast; omega)]
      have h1 : rstrip (" ".toList ++ (natStr p.nspecies ++ "-nary case".toList)) = " ".toList ++ (natStr p.nspecies ++ "-nary case".toList) := by
        have h2 := rstrip_word (s := "case".toList) (by constructor; decide; decide) (" ".toList ++ (natStr p.nspecies ++ "-nary ".toList))
        simpa using h2
      have h2 : (splitOn '-' (" ".toList ++ (natStr p.nspecies ++ "-nary case".toList))).headD [] = List.replicate 1 ' ' ++ natStr p.nspecies := by
        have := splitOn_line '-' (" ".toList ++ natStr p.nspecies) (by
          intro h
          rw [List.mem_append] at h
          rcases h with h | h
          · revert h; decide
          · exact (isDigit_not_minus (natStr_digits _ _ h)).1 rfl) "nary case".toList
        rw [List.append_assoc] at this
        rw [show "-nary case".toList = '-' :: "nary case".toList from rfl, this]
        rfl
      rw [h1, h2, strip_spaces_word (natStr_word _), parseInt_natStr]
      rfl
    · simp only
      rw [hw _ (by push_cast; omega)]
      simp
  -- sizes
  rw [readLoop_cons (readLine_skip (by simp) (Or.inr (Or.inl (by push_cast; omega))) (by simp) hw)]
  -- tolerance
  rw [readLoop_cons (acc' := ({ title := rstrip ("Random structure enumeration: ".toList ++ now), plattice := [vals7 v1, vals7 v2, vals7 v3], dvecs := p.basisVecs.map vals7, nD := p.basisVecs.length, k := some p.nspecies, eps := some (1 / 10 ^ 7) }, []))]
  swap
  · apply readLine_pre (s1 := { title := rstrip ("Random structure enumeration: ".toList ++ now), plattice := [vals7 v1, vals7 v2, vals7 v3], dvecs := p.basisVecs.map vals7, nD := p.basisVecs.length, k := some p.nspecies }) (s2 := { title := rstrip ("Random structure enumeration: ".toList ++ now), plattice := [vals7 v1, vals7 v2, vals7 v3], dvecs := p.basisVecs.map vals7, nD := p.basisVecs.length, k := some p.nspecies })
    · decide
    · unfold readHead
      rw [if_neg (by omega), if_neg (by omega), if_neg (by omega)]
    · unfold readBasis
      simp only
      rw [if_neg (by push_cast; omega)]
    · unfold readRest
      simp only
      rw [if_neg (by push_cast; omega), if_pos (by push_cast; omega), parse_eps]
      rfl
    · simp only
      rw [hw _ (by push_cast; omega)]
      simp
  -- the remaining lines
  rw [readLoop_cons (readLine_skip (by decide) (Or.inr (Or.inr (by constructor <;> (push_cast; omega)))) (by simp) hw),
    readLoop_cons (readLine_skip (by cases p.restricted <;> decide) (Or.inr (Or.inr (by constructor <;> (push_cast; omega)))) (by simp) hw),
    readLoop_cons (readLine_skip (by decide) (Or.inr (Or.inr (by constructor <;> (push_cast; omega)))) (by simp) hw),
    readLoop_cons (readLine_skip (by decide) (Or.inr (Or.inr (by constructor <;> (push_cast; omega)))) (by simp) hw),
    readLoop_cons (readLine_skip (by decide +kernel) (Or.inr (Or.inr (by constructor <;> (push_cast; omega)))) (by simp) hw)]
  have : sysOf p now = { title := rstrip ("Random structure enumeration: ".toList ++ now), plattice := [vals7 v1, vals7 v2, vals7 v3], dvecs := p.basisVecs.map vals7, nD := p.basisVecs.length, k := some p.nspecies, eps := some (1 / 10 ^ 7) } := by
    rw [sysOf, hlv]; rfl
  rw [this]
  congr 1
  omega

end Phenum
