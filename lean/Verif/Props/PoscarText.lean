import Verif.Model.PoscarText
import Verif.Proof.EnumFile
import Verif.Proof.Reduce
/-
C84. The text of the files written by makeStr: what a program that reads a POSCAR or a config file gets.
-/
namespace Phenum
open Spec

/-! ## specification: reading the files -/

/-- What is in a POSCAR: the first line, the scale, the three vectors of the cell, the numbers of atoms of each species, the positions. -/
structure Spec.PoscarRead where
  title : Str
  scale : ℚ
  cell : List (List ℚ)
  counts : List ℕ
  atoms : List (List ℚ)
  deriving DecidableEq

/-- Reading a POSCAR line by line, with direct coordinates. -/
def Spec.readPoscarText (s : Str) : Py PoscarRead :=
  match fileLines s with
  | title :: scale :: a :: b :: c :: counts :: mode :: atoms => do
    if mode ≠ "D".toList then .error .valueError else do
    let x ← parseFloat scale
    let cell ← [a, b, c].mapM floatsOf
    let n ← (pySplit counts).mapM parseNat
    let v ← atoms.mapM floatsOf
    .ok ⟨title, x, cell, n, v⟩
  | _ => .error .valueError

/-- What is in a config file for one structure: the number of atoms, the cell, the atoms (number, species, position), the name. -/
structure Spec.ConfigRead where
  size : ℕ
  cell : List (List ℚ)
  atoms : List (ℕ × ℕ × List ℚ)
  name : Str
  deriving DecidableEq

/-- The line of an atom. -/
def Spec.readAtom (l : Str) : Py (ℕ × ℕ × List ℚ) :=
  match pySplit l with
  | i :: t :: xs => do
    let i ← parseNat i
    let t ← parseNat t
    let v ← xs.mapM parseFloat
    .ok (i, t, v)
  | _ => .error .valueError

/-- The lines of one structure between `BEGIN_CFG` and `END_CFG`; the name is what follows the word `conf_id`. -/
def Spec.readBlock : List Str → Py ConfigRead
  | begin :: size :: n :: supercell :: a :: b :: c :: head :: rest => do
    if pySplit begin ≠ ["BEGIN_CFG".toList] ∨ pySplit size ≠ ["Size".toList] ∨ pySplit supercell ≠ ["SuperCell".toList] ∨ (pySplit head).head? ≠ some "AtomData:".toList then
      .error .valueError
    else do
    let n ← parseNat ((pySplit n).headD [])
    let cell ← [a, b, c].mapM floatsOf
    let atoms ← rest.dropLast.mapM readAtom
    .ok ⟨n, cell, atoms, (rest.getLastD []).drop 20⟩
  | _ => .error .valueError

/-- The lines of the structures of a config file: each ends with `END_CFG`, and blank lines before it are skipped. -/
def Spec.cutBlocks : List Str → List Str → List (List Str)
  | [], cur => if cur = [] then [] else [cur]
  | l :: ls, cur =>
    if l = "END_CFG".toList then cur :: cutBlocks ls [] else if l = [] ∧ cur = [] then cutBlocks ls [] else cutBlocks ls (cur ++ [l])

/-- The structures of a config file. -/
def Spec.readConfigText (s : Str) : Py (List ConfigRead) := (cutBlocks (fileLines s) []).mapM readBlock

/-- `q` is `x` rounded to `d` decimals. -/
def Spec.Rounded (d : ℕ) (x : ℝ) (q : ℚ) : Prop := (∃ z : ℤ, q = z / 10 ^ d) ∧ |(q : ℝ) - x| ≤ 1 / (2 * 10 ^ d)

/-- The three coordinates rounded to `d` decimals. -/
def Spec.RoundedVec (d : ℕ) (v : V3) (l : List ℚ) : Prop := ∃ a b c, l = [a, b, c] ∧ Rounded d (v 0) a ∧ Rounded d (v 1) b ∧ Rounded d (v 2) c

/-! ## numbers -/

/-- the last decimals -/
def decimalsN (d m : ℕ) : Str := List.replicate (d - (natStr m).length) '0' ++ natStr m

noncomputable def scaledR (d : ℕ) (x : ℝ) : ℕ := (npRound (|x| * 10 ^ d)).toNat

/-- the number that is written -/
noncomputable def readFixed (d : ℕ) (x : ℝ) : ℚ := if x < 0 then -1 * ((scaledR d x : ℚ) / 10 ^ d) else 1 * ((scaledR d x : ℚ) / 10 ^ d)

theorem decimalsN_facts {d m : ℕ} (hd : 0 < d) (h : m < 10 ^ d) : (decimalsN d m).length = d ∧ digitsVal (decimalsN d m) = m ∧ ∀ ch ∈ decimalsN d m, ch.isDigit = true := by
  have h1 := natStr_length_le (k := d) hd h
  refine ⟨by unfold decimalsN; rw [List.length_append, List.length_replicate]; omega, ?_, ?_⟩
  · unfold decimalsN; rw [digitsVal_two, digitsVal_zeros, digitsVal_natStr]; simp
  · intro ch hch
    unfold decimalsN at hch
    rcases List.mem_append.mp hch with h2 | h2
    · rw [List.eq_of_mem_replicate h2]; decide
    · exact natStr_digits _ _ h2

theorem fixedStr_eq (d : ℕ) (x : ℝ) : fixedStr d x = (if x < 0 then ['-'] else []) ++ (natStr (scaledR d x / 10 ^ d) ++ '.' :: decimalsN d (scaledR d x % 10 ^ d)) := by
  unfold fixedStr decimalsN scaledR
  simp

theorem parse_fixed {d : ℕ} (hd : 0 < d) (x : ℝ) : parseFloat (fixedStr d x) = .ok (readFixed d x) := by
  have hm : scaledR d x % 10 ^ d < 10 ^ d := Nat.mod_lt _ (by positivity)
  obtain ⟨d1, d2, d3⟩ := decimalsN_facts hd hm
  have hdd := parseDecimal_ok _ _ (natStr_ne_nil (scaledR d x / 10 ^ d)) (natStr_digits _) d3
  have hv : ((digitsVal (natStr (scaledR d x / 10 ^ d) ++ decimalsN d (scaledR d x % 10 ^ d)) : ℕ) : ℚ) = (scaledR d x : ℚ) := by
    rw [digitsVal_two, d1, d2, digitsVal_natStr]
    congr 1
    exact Nat.div_add_mod' _ _
  rw [hv, d1] at hdd
  have he := decimal_no_e _ _ (natStr_digits (scaledR d x / 10 ^ d)) d3
  rw [fixedStr_eq]
  unfold readFixed
  by_cases hx : x < 0
  · rw [if_pos hx, if_pos hx, List.singleton_append, parseFloat_neg he, hdd]
    rfl
  · rw [if_neg hx, if_neg hx, List.nil_append]
    cases hn : natStr (scaledR d x / 10 ^ d) with
    | nil => exact absurd hn (natStr_ne_nil _)
    | cons c l =>
      have hc := isDigit_not_minus (natStr_digits (scaledR d x / 10 ^ d) c (by rw [hn]; exact List.mem_cons_self))
      rw [hn] at he hdd
      rw [List.cons_append] at he hdd ⊢
      rw [parseFloat_plain hc.1 hc.2.1 he, hdd]
      rfl

theorem fixedStr_chars {d : ℕ} (hd : 0 < d) (x : ℝ) : ∀ ch ∈ fixedStr d x, ch.isDigit = true ∨ ch = '-' ∨ ch = '.' := by
  have hm : scaledR d x % 10 ^ d < 10 ^ d := Nat.mod_lt _ (by positivity)
  obtain ⟨-, -, d3⟩ := decimalsN_facts hd hm
  intro ch hch
  rw [fixedStr_eq, List.mem_append, List.mem_append, List.mem_cons] at hch
  rcases hch with h | h | h | h
  · split at h
    · rw [List.mem_singleton] at h; exact Or.inr (Or.inl h)
    · exact absurd h List.not_mem_nil
  · exact Or.inl (natStr_digits _ _ h)
  · exact Or.inr (Or.inr h)
  · exact Or.inl (d3 ch h)

theorem fixedStr_word {d : ℕ} (hd : 0 < d) (x : ℝ) : IsWord (fixedStr d x) := by
  constructor
  · rw [fixedStr_eq]; simp
  · intro ch hch
    rcases fixedStr_chars hd x ch hch with h | rfl | rfl
    · exact (isDigit_not_minus h).2.2.2.2.1
    · decide
    · decide

theorem rounded_fixed (d : ℕ) (x : ℝ) : Rounded d x (readFixed d x) := by
  have h0 : (0 : ℝ) ≤ |x| * 10 ^ d := by positivity
  have hn := npRound_near (|x| * 10 ^ d)
  have hnn : 0 ≤ npRound (|x| * 10 ^ d) := by
    rw [abs_le] at hn
    have h1 : (-1 : ℝ) < npRound (|x| * 10 ^ d) := by linarith [hn.2]
    have h2 : (-1 : ℤ) < npRound (|x| * 10 ^ d) := by exact_mod_cast h1
    omega
  have hs : ((scaledR d x : ℕ) : ℝ) = (npRound (|x| * 10 ^ d) : ℝ) := by
    unfold scaledR
    have : (((npRound (|x| * 10 ^ d)).toNat : ℤ) : ℝ) = (npRound (|x| * 10 ^ d) : ℝ) := by rw [Int.toNat_of_nonneg hnn]
    exact_mod_cast this
  have hp : (0 : ℝ) < 10 ^ d := by positivity
  have key : |((scaledR d x : ℕ) : ℝ) / 10 ^ d - (|x|)| ≤ 1 / (2 * 10 ^ d) := by
    have e : ((scaledR d x : ℕ) : ℝ) / 10 ^ d - |x| = -((|x| * 10 ^ d - (npRound (|x| * 10 ^ d) : ℝ)) / 10 ^ d) := by
      rw [hs]; field_simp; ring
    rw [e, abs_neg, abs_div, abs_of_pos hp, div_le_div_iff₀ hp (by positivity)]
    nlinarith
  unfold readFixed
  by_cases hx : x < 0
  · rw [if_pos hx]
    refine ⟨⟨-(scaledR d x : ℤ), by push_cast; ring⟩, ?_⟩
    rw [abs_of_neg hx] at key
    push_cast
    rw [show (-1 : ℝ) * ((scaledR d x : ℝ) / 10 ^ d) - x = -((scaledR d x : ℝ) / 10 ^ d - -x) by ring, abs_neg]
    exact key
  · rw [if_neg hx]
    refine ⟨⟨(scaledR d x : ℤ), by push_cast; ring⟩, ?_⟩
    rw [abs_of_nonneg (not_lt.mp hx)] at key
    push_cast
    rw [one_mul]
    exact key

/-! ## lines -/

theorem signed_split {d : ℕ} (hd : 0 < d) (x : ℝ) : pySplit (fixedSigned d x) = [fixedStr d x] := by
  unfold fixedSigned
  split
  · exact split_word (fixedStr_word hd x)
  · rw [split_cons_ws ws_space, split_word (fixedStr_word hd x)]

theorem signed_chars {d : ℕ} (hd : 0 < d) (x : ℝ) : ∀ ch ∈ fixedSigned d x, ch.isDigit = true ∨ ch = '-' ∨ ch = '.' ∨ ch = ' ' := by
  intro ch hch
  unfold fixedSigned at hch
  split at hch
  · exact (fixedStr_chars hd x ch hch).imp id (Or.imp id Or.inl)
  · rcases List.mem_cons.mp hch with h | h
    · exact Or.inr (Or.inr (Or.inr h))
    · exact (fixedStr_chars hd x ch h).imp id (Or.imp id Or.inl)

theorem vecText_split {d : ℕ} (hd : 0 < d) {k : ℕ} (hk : 0 < k) (v : V3) :
    pySplit (vecText (List.replicate k ' ') d v) = [fixedStr d (v 0), fixedStr d (v 1), fixedStr d (v 2)] := by
  unfold vecText joinStr joinStr joinStr
  rw [List.append_assoc, split_append_spaces _ _ _ hk, List.append_assoc, split_append_spaces _ _ _ hk, signed_split hd, signed_split hd, signed_split hd]
  rfl

theorem vecText_chars {d : ℕ} (hd : 0 < d) (k : ℕ) (v : V3) : ∀ ch ∈ vecText (List.replicate k ' ') d v, ch.isDigit = true ∨ ch = '-' ∨ ch = '.' ∨ ch = ' ' := by
  intro ch hch
  unfold vecText joinStr joinStr joinStr at hch
  simp only [List.mem_append] at hch
  rcases hch with (h | h) | (h | h) | h
  · exact signed_chars hd _ ch h
  · exact Or.inr (Or.inr (Or.inr (List.eq_of_mem_replicate h)))
  · exact signed_chars hd _ ch h
  · exact Or.inr (Or.inr (Or.inr (List.eq_of_mem_replicate h)))
  · exact signed_chars hd _ ch h

theorem number_char {ch : Char} (h : ch.isDigit = true ∨ ch = '-' ∨ ch = '.' ∨ ch = ' ') : ch ≠ '\n' ∧ ch ≠ 'E' := by
  rcases h with h | rfl | rfl | rfl
  · refine ⟨(isDigit_not_minus h).2.2.2.2.2.1, ?_⟩
    rintro rfl
    revert h; decide
  · decide
  · decide
  · decide

/-- what is read from a line of three numbers -/
noncomputable def readVec (d : ℕ) (v : V3) : List ℚ := [readFixed d (v 0), readFixed d (v 1), readFixed d (v 2)]

theorem rounded_vec (d : ℕ) (v : V3) : RoundedVec d v (readVec d v) := ⟨_, _, _, rfl, rounded_fixed _ _, rounded_fixed _ _, rounded_fixed _ _⟩

theorem floats_vec {d : ℕ} (hd : 0 < d) {k : ℕ} (hk : 0 < k) (j : ℕ) (v : V3) : floatsOf (List.replicate j ' ' ++ vecText (List.replicate k ' ') d v) = .ok (readVec d v) := by
  unfold floatsOf
  rw [split_spaces_append, vecText_split hd hk]
  simp only [List.mapM_cons, List.mapM_nil, parse_fixed hd]
  rfl

theorem signed_nonl {d : ℕ} (hd : 0 < d) (k : ℕ) (v : V3) : '\n' ∉ vecText (List.replicate k ' ') d v := fun h => (number_char (vecText_chars hd k v _ h)).1 rfl

theorem counts_split (l : List ℕ) : pySplit (l.flatMap (fun c => natStr c ++ List.replicate 3 ' ')) = l.map natStr := by
  induction l with
  | nil => rfl
  | cons c l ih =>
    rw [List.flatMap_cons, List.append_assoc, split_append_spaces _ _ _ (by norm_num), ih, split_word (natStr_word c)]
    rfl

theorem mapM_parseNat (l : List ℕ) : (l.map natStr).mapM parseNat = .ok l := by
  induction l with
  | nil => rfl
  | cons c l ih => rw [List.map_cons, List.mapM_cons, parseNat_natStr, ih]; rfl

theorem mapM_vecs {d : ℕ} (hd : 0 < d) {k : ℕ} (hk : 0 < k) (j : ℕ) (l : List V3) :
    (l.map (fun v => List.replicate j ' ' ++ vecText (List.replicate k ' ') d v)).mapM floatsOf = .ok (l.map (readVec d)) := by
  induction l with
  | nil => rfl
  | cons v l ih => rw [List.map_cons, List.mapM_cons, floats_vec hd hk, ih]; rfl

/-! ## POSCAR -/

/-- the lines of a POSCAR -/
noncomputable def poscarLines (t : Str) (P : Poscar) : List Str :=
  [t, fixedStr 2 P.scale, List.replicate 1 ' ' ++ vecText (List.replicate 1 ' ') 8 (P.cell 0), List.replicate 1 ' ' ++ vecText (List.replicate 1 ' ') 8 (P.cell 1),
    List.replicate 1 ' ' ++ vecText (List.replicate 1 ' ') 8 (P.cell 2), List.replicate 2 ' ' ++ P.counts.flatMap (fun c => natStr c ++ List.replicate 3 ' '), "D".toList] ++
  P.atoms.map (fun v => List.replicate 1 ' ' ++ vecText (List.replicate 2 ' ') 8 v)

theorem poscarText_lines (t : Str) (P : Poscar) : poscarText (t ++ ['\n']) P = (poscarLines t P).flatMap (fun l => l ++ ['\n']) := by
  unfold poscarText poscarLines
  rw [show " ".toList = List.replicate 1 ' ' from rfl, show "  ".toList = List.replicate 2 ' ' from rfl, show "   ".toList = List.replicate 3 ' ' from rfl,
    show "D\n".toList = "D".toList ++ ['\n'] from rfl]
  simp only [List.ofFn_succ, List.ofFn_zero, List.flatten_cons, List.flatten_nil, List.flatMap_append, List.flatMap_cons, List.flatMap_nil, List.flatMap_map, List.append_assoc,
    List.replicate_one, List.singleton_append, List.append_nil, List.cons_append, Fin.isValue]
  rfl

theorem poscarLines_nonl {t : Str} (ht : '\n' ∉ t) (P : Poscar) : ∀ l ∈ poscarLines t P, '\n' ∉ l := by
  intro l hl
  have h8 : (0 : ℕ) < 8 := by norm_num
  have hsp : ∀ k, '\n' ∉ List.replicate k ' ' := fun k h => absurd (List.eq_of_mem_replicate h) (by decide)
  have hv : ∀ (j k : ℕ) (v : V3), '\n' ∉ List.replicate j ' ' ++ vecText (List.replicate k ' ') 8 v := by
    intro j k v h
    rcases List.mem_append.mp h with h | h
    · exact hsp _ h
    · exact signed_nonl h8 k v h
  unfold poscarLines at hl
  rcases List.mem_append.mp hl with hl | hl
  · simp only [List.mem_cons, List.not_mem_nil, or_false] at hl
    rcases hl with rfl | rfl | rfl | rfl | rfl | rfl | rfl
    · exact ht
    · intro h
      rcases fixedStr_chars (by norm_num) _ _ h with h | h | h
      · revert h; decide
      · revert h; decide
      · revert h; decide
    · exact hv _ _ _
    · exact hv _ _ _
    · exact hv _ _ _
    · intro h
      rcases List.mem_append.mp h with h | h
      · exact hsp _ h
      · obtain ⟨c, -, hc⟩ := List.mem_flatMap.mp h
        rcases List.mem_append.mp hc with hc | hc
        · exact (isDigit_not_minus (natStr_digits _ _ hc)).2.2.2.2.2.1 rfl
        · exact hsp _ hc
    · decide
  · obtain ⟨v, -, rfl⟩ := List.mem_map.mp hl
    exact hv _ _ _

/-- C84. The text of a POSCAR, read line by line, is: the title, the scale rounded to two decimals, the vectors of the cell rounded to eight decimals, the numbers of atoms of each
species, and the positions in the same order rounded to eight decimals, whatever the numbers are. -/
theorem C84_poscar_text (t : Str) (ht : '\n' ∉ t) (P : Poscar) : ∃ R, readPoscarText (poscarText (t ++ ['\n']) P) = .ok R ∧ R.title = t ∧ Rounded 2 P.scale R.scale ∧
    (∃ a b c, R.cell = [a, b, c] ∧ RoundedVec 8 (P.cell 0) a ∧ RoundedVec 8 (P.cell 1) b ∧ RoundedVec 8 (P.cell 2) c) ∧ R.counts = P.counts ∧
    List.Forall₂ (RoundedVec 8) P.atoms R.atoms := by
  refine ⟨⟨t, readFixed 2 P.scale, [readVec 8 (P.cell 0), readVec 8 (P.cell 1), readVec 8 (P.cell 2)], P.counts, P.atoms.map (readVec 8)⟩, ?_, rfl, rounded_fixed _ _,
    ⟨_, _, _, rfl, rounded_vec _ _, rounded_vec _ _, rounded_vec _ _⟩, rfl, ?_⟩
  · unfold readPoscarText
    rw [poscarText_lines, fileLines_eq _ (poscarLines_nonl ht P)]
    unfold poscarLines
    have h8 : (0 : ℕ) < 8 := by norm_num
    simp only [List.cons_append, List.nil_append, ne_eq, not_true_eq_false, if_false, parse_fixed (d := 2) (by norm_num), List.mapM_cons, List.mapM_nil,
      floats_vec h8 (k := 1) (by norm_num), split_spaces_append, counts_split, mapM_parseNat, mapM_vecs h8 (k := 2) (by norm_num) 1]
    rfl
  · rw [List.forall₂_map_right_iff]
    exact List.forall₂_same.mpr (fun v _ => rounded_vec 8 v)

/-! ## config files -/

/-- the line of an atom -/
noncomputable def atomLine (a : ConfigAtom) : Str :=
  List.replicate 13 ' ' ++ natStr a.id ++ List.replicate 4 ' ' ++ natStr a.typ ++ List.replicate 7 ' ' ++ vecText (List.replicate 2 ' ') 8 a.pos

/-- the lines of a structure before END_CFG -/
noncomputable def configLines (t : Str) (C : ConfigFile) : List Str :=
  ["BEGIN_CFG".toList, " Size".toList, List.replicate 4 ' ' ++ natStr C.size, " SuperCell".toList, List.replicate 3 ' ' ++ vecText (List.replicate 6 ' ') 6 (C.cell 0),
    List.replicate 3 ' ' ++ vecText (List.replicate 6 ' ') 6 (C.cell 1), List.replicate 3 ' ' ++ vecText (List.replicate 6 ' ') 6 (C.cell 2),
    "   AtomData:  id type       cartes_x      cartes_y      cartes_z".toList] ++ (C.atoms.map atomLine ++ [" Feature   conf_id  ".toList ++ t])

theorem configText_lines (t : Str) (C : ConfigFile) :
    configText t C = (configLines t C ++ ["END_CFG".toList, []]).flatMap (fun l => l ++ ['\n']) := by
  unfold configText configLines
  rw [show "  ".toList = List.replicate 2 ' ' from rfl, show "   ".toList = List.replicate 3 ' ' from rfl, show "    ".toList = List.replicate 4 ' ' from rfl,
    show "      ".toList = List.replicate 6 ' ' from rfl, show "       ".toList = List.replicate 7 ' ' from rfl, show "             ".toList = List.replicate 13 ' ' from rfl,
    show "BEGIN_CFG\n Size\n".toList = "BEGIN_CFG".toList ++ ['\n'] ++ " Size".toList ++ ['\n'] from rfl,
    show "\n SuperCell\n".toList = ['\n'] ++ " SuperCell".toList ++ ['\n'] from rfl,
    show "   AtomData:  id type       cartes_x      cartes_y      cartes_z\n".toList = "   AtomData:  id type       cartes_x      cartes_y      cartes_z".toList ++ ['\n'] from rfl,
    show "\nEND_CFG\n\n".toList = ['\n'] ++ "END_CFG".toList ++ ['\n'] ++ ['\n'] from rfl]
  generalize "BEGIN_CFG".toList = b
  generalize " Size".toList = sz
  generalize " SuperCell".toList = sc
  generalize "   AtomData:  id type       cartes_x      cartes_y      cartes_z".toList = ad
  generalize " Feature   conf_id  ".toList = ft
  generalize "END_CFG".toList = en
  have ha : ∀ a, atomLine a = List.replicate 13 ' ' ++ (natStr a.id ++ (List.replicate 4 ' ' ++ (natStr a.typ ++ (List.replicate 7 ' ' ++ vecText (List.replicate 2 ' ') 8 a.pos)))) := by
    intro a; unfold atomLine; simp only [List.append_assoc]
  simp only [List.ofFn_succ, List.ofFn_zero, List.flatten_cons, List.flatten_nil, List.flatMap_append, List.flatMap_cons, List.flatMap_nil, List.flatMap_map, List.append_assoc,
    List.append_nil, List.nil_append, List.cons_append, Fin.isValue, ha]
  rfl

theorem spaces_nonl (k : ℕ) : '\n' ∉ List.replicate k ' ' := fun h => absurd (List.eq_of_mem_replicate h) (by decide)

theorem configLines_nonl {t : Str} (ht : '\n' ∉ t) (C : ConfigFile) : ∀ l ∈ configLines t C ++ ["END_CFG".toList, []], '\n' ∉ l := by
  have hv : ∀ (j k : ℕ) (v : V3), '\n' ∉ List.replicate j ' ' ++ vecText (List.replicate k ' ') 6 v := by
    intro j k v h
    rcases List.mem_append.mp h with h | h
    · exact spaces_nonl _ h
    · exact signed_nonl (by norm_num) k v h
  have hn : ∀ n, '\n' ∉ natStr n := fun n h => (isDigit_not_minus (natStr_digits _ _ h)).2.2.2.2.2.1 rfl
  intro l hl
  unfold configLines at hl
  simp only [List.mem_append, List.mem_cons, List.not_mem_nil, or_false, List.mem_map] at hl
  rcases hl with ((rfl | rfl | rfl | rfl | rfl | rfl | rfl | rfl) | ⟨a, -, rfl⟩ | rfl) | rfl | rfl
  · decide
  · decide
  · rw [List.mem_append, not_or]; exact ⟨spaces_nonl _, hn _⟩
  · decide
  · exact hv _ _ _
  · exact hv _ _ _
  · exact hv _ _ _
  · decide
  · unfold atomLine
    simp only [List.mem_append, not_or]
    exact ⟨⟨⟨⟨⟨spaces_nonl _, hn _⟩, spaces_nonl _⟩, hn _⟩, spaces_nonl _⟩, signed_nonl (by norm_num) _ _⟩
  · rw [List.mem_append, not_or]; exact ⟨by decide, ht⟩
  · decide
  · simp

theorem configLines_other (t : Str) (C : ConfigFile) : ∀ l ∈ configLines t C, l ≠ [] ∧ l ≠ "END_CFG".toList := by
  have hs : ∀ (k : ℕ) (x : Str), List.replicate (k + 1) ' ' ++ x ≠ [] ∧ List.replicate (k + 1) ' ' ++ x ≠ "END_CFG".toList := by
    intro k x
    rw [List.replicate_succ, List.cons_append]
    refine ⟨by simp, fun h => ?_⟩
    have : some ' ' = "END_CFG".toList.head? := by rw [← h]; rfl
    exact absurd this (by decide)
  intro l hl
  unfold configLines at hl
  simp only [List.mem_append, List.mem_cons, List.not_mem_nil, or_false, List.mem_map] at hl
  rcases hl with (rfl | rfl | rfl | rfl | rfl | rfl | rfl | rfl) | ⟨a, -, rfl⟩ | rfl
  · decide
  · decide
  · exact hs 3 _
  · decide
  · exact hs 2 _
  · exact hs 2 _
  · exact hs 2 _
  · decide
  · unfold atomLine
    simp only [List.append_assoc]
    exact hs 12 _
  · refine ⟨by simp, fun h => ?_⟩
    have : some ' ' = "END_CFG".toList.head? := by rw [← h]; rfl
    exact absurd this (by decide)

theorem cutBlocks_block {b : List Str} (hb : ∀ l ∈ b, l ≠ [] ∧ l ≠ "END_CFG".toList) (rest cur : List Str) :
    cutBlocks (b ++ "END_CFG".toList :: rest) cur = (cur ++ b) :: cutBlocks rest [] := by
  induction b generalizing cur with
  | nil => rw [List.nil_append, cutBlocks, if_pos rfl, List.append_nil]
  | cons l b ih =>
    rw [List.cons_append, cutBlocks, if_neg (hb l (by simp)).2, if_neg (fun h => (hb l (by simp)).1 h.1), ih (fun x hx => hb x (by simp [hx])), List.append_assoc]
    rfl

/-- what is read for a structure -/
noncomputable def readConf (t : Str) (C : ConfigFile) : ConfigRead :=
  ⟨C.size, [readVec 6 (C.cell 0), readVec 6 (C.cell 1), readVec 6 (C.cell 2)], C.atoms.map (fun a => (a.id, a.typ, readVec 8 a.pos)), t⟩

theorem readAtom_line (a : ConfigAtom) : readAtom (atomLine a) = .ok (a.id, a.typ, readVec 8 a.pos) := by
  have h : pySplit (atomLine a) = [natStr a.id, natStr a.typ, fixedStr 8 (a.pos 0), fixedStr 8 (a.pos 1), fixedStr 8 (a.pos 2)] := by
    unfold atomLine
    simp only [List.append_assoc]
    rw [split_spaces_append, split_append_spaces _ _ _ (by norm_num), split_append_spaces _ _ _ (by norm_num), split_word (natStr_word _), split_word (natStr_word _),
      vecText_split (by norm_num) (by norm_num)]
    rfl
  unfold readAtom
  rw [h]
  simp only [parseNat_natStr, List.mapM_cons, List.mapM_nil, parse_fixed (d := 8) (by norm_num)]
  rfl

theorem readAtoms_lines (l : List ConfigAtom) : (l.map atomLine).mapM readAtom = .ok (l.map (fun a => (a.id, a.typ, readVec 8 a.pos))) := by
  induction l with
  | nil => rfl
  | cons a l ih => rw [List.map_cons, List.mapM_cons, readAtom_line, ih]; rfl

theorem readBlock_lines (t : Str) (C : ConfigFile) : readBlock (configLines t C) = .ok (readConf t C) := by
  unfold configLines
  rw [List.cons_append, List.cons_append, List.cons_append, List.cons_append, List.cons_append, List.cons_append, List.cons_append, List.cons_append, List.nil_append]
  unfold readBlock
  dsimp only
  rw [if_neg (by decide)]
  have h6 : (0 : ℕ) < 6 := by norm_num
  simp only [split_spaces_append, split_word (natStr_word _), List.headD_cons, parseNat_natStr, List.mapM_cons, List.mapM_nil, floats_vec h6 h6, List.dropLast_concat, readAtoms_lines]
  have hl : (List.map atomLine C.atoms ++ [" Feature   conf_id  ".toList ++ t]).getLastD [] = " Feature   conf_id  ".toList ++ t := by
    rw [List.getLastD_eq_getLast?, List.getLast?_append, List.getLast?_singleton]; rfl
  rw [hl]
  rfl

/-- The structure `C` with name `t` is what is read: the number of atoms, the cell to six decimals, the numbers and species of the atoms in order and their positions to eight decimals. -/
def Spec.ConfigMatches (x : Str × ConfigFile) (R : ConfigRead) : Prop :=
  R.name = x.1 ∧ R.size = x.2.size ∧ (∃ a b c, R.cell = [a, b, c] ∧ RoundedVec 6 (x.2.cell 0) a ∧ RoundedVec 6 (x.2.cell 1) b ∧ RoundedVec 6 (x.2.cell 2) c) ∧
  List.Forall₂ (fun a r => r.1 = a.id ∧ r.2.1 = a.typ ∧ RoundedVec 8 a.pos r.2.2) x.2.atoms R.atoms

theorem config_matches (t : Str) (C : ConfigFile) : ConfigMatches (t, C) (readConf t C) := by
  refine ⟨rfl, rfl, ⟨_, _, _, rfl, rounded_vec _ _, rounded_vec _ _, rounded_vec _ _⟩, ?_⟩
  unfold readConf
  simp only
  rw [List.forall₂_map_right_iff]
  exact List.forall₂_same.mpr (fun a _ => ⟨rfl, rfl, rounded_vec 8 a.pos⟩)

/-- C84. The text of a config file to which structures have been written one after the other, read from the start: these structures in this order, with the numbers rounded. -/
theorem C84_config_text (l : List (Str × ConfigFile)) (hl : ∀ x ∈ l, '\n' ∉ x.1) :
    ∃ R, readConfigText (l.flatMap (fun x => configText x.1 x.2)) = .ok R ∧ List.Forall₂ ConfigMatches l R := by
  refine ⟨l.map (fun x => readConf x.1 x.2), ?_, ?_⟩
  · unfold readConfigText
    have e : l.flatMap (fun x => configText x.1 x.2) = (l.flatMap (fun x => configLines x.1 x.2 ++ ["END_CFG".toList, []])).flatMap (fun l => l ++ ['\n']) := by
      rw [List.flatMap_assoc]
      exact List.flatMap_congr (fun x _ => configText_lines x.1 x.2)
    rw [e, fileLines_eq]
    · have hc : cutBlocks (l.flatMap (fun x => configLines x.1 x.2 ++ ["END_CFG".toList, []])) [] = l.map (fun x => configLines x.1 x.2) := by
        clear e hl
        induction l with
        | nil => rfl
        | cons x l ih =>
          rw [List.flatMap_cons, List.append_assoc, List.cons_append, cutBlocks_block (configLines_other _ _), List.nil_append, List.map_cons]
          rw [List.cons_append, List.nil_append, cutBlocks, if_neg (by decide), if_pos ⟨rfl, rfl⟩, ih]
      rw [hc]
      clear e hl hc
      induction l with
      | nil => rfl
      | cons x l ih => rw [List.map_cons, List.mapM_cons, readBlock_lines, ih]; rfl
    · intro y hy
      obtain ⟨x, hx, hy⟩ := List.mem_flatMap.mp hy
      exact configLines_nonl (hl x hx) _ y hy
  · rw [List.forall₂_map_right_iff]
    exact List.forall₂_same.mpr (fun x _ => config_matches x.1 x.2)

end Phenum
