import Verif.Proof.MakeStr
import Verif.Props.Poscar
import Verif.Props.EnumOut
import Verif.Props.Cell
/-
C41: the structures selected by makeStr and its switches.
C51: the POSCAR files describe the structures of enum.out.
C52: names of the files.
-/
namespace Phenum
open Spec

/-! ## C41 -/

/-- C41. `makeStr all` (in any case, whatever follows) selects all structures. -/
theorem C41_all (s : Str) (rest : List Str) (h : lowerStr s = "all".toList) : selectStructures (some (s :: rest)) = .ok none := by
  unfold selectStructures
  dsimp only
  rw [if_pos ⟨all_not_int h, h⟩]

/-- C41. `makeStr n` selects the structure `n`. -/
theorem C41_single (n : ℤ) : selectStructures (some [intStr n]) = .ok (some [n]) := by
  have h : representsInt (intStr n) = true := by unfold representsInt; rw [userInt_intStr]
  unfold selectStructures
  dsimp only
  rw [if_neg (by simp [h]), if_pos ⟨rfl, h⟩, userInt_intStr]
  rfl

/-- C41. `makeStr a b` selects the structures from `a` to `b`, both included, each once and in order. -/
theorem C41_range (a b : ℤ) : ∃ l, selectStructures (some [intStr a, intStr b]) = .ok (some l) ∧
    (∀ i, i ∈ l ↔ a ≤ i ∧ i ≤ b) ∧ l.Pairwise (· < ·) := by
  have h : representsInt (intStr a) = true := by unfold representsInt; rw [userInt_intStr]
  refine ⟨pyRange a (b + 1), ?_, ?_, ?_⟩
  · unfold selectStructures
    dsimp only
    rw [if_neg (by simp [h]), if_neg (by simp)]
    simp only [userInt_intStr]
    rfl
  · intro i
    rw [mem_pyRange]
    omega
  · unfold pyRange
    rw [List.pairwise_map]
    exact List.pairwise_lt_range.imp (fun h => by omega)

/-- C41. Anything else is refused: no list of structures, a word that is neither a number nor "all", more than two
words (unless the first is "all"), or a range with an end that is no number. -/
theorem C41_refused (s : Str) (hs : lowerStr s ≠ "all".toList) :
    selectStructures none = .error .valueError ∧
    (representsInt s = false → selectStructures (some [s]) = .error .valueError) ∧
    (∀ t, representsInt s = false ∨ representsInt t = false → selectStructures (some [s, t]) = .error .valueError) ∧
    (∀ t u rest, selectStructures (some (s :: t :: u :: rest)) = .error .valueError) := by
  have herr : ∀ t, representsInt t = false → userInt t = .error .valueError := by
    intro t ht
    unfold representsInt at ht
    cases h : userInt t with
    | ok v => rw [h] at ht; exact absurd ht (by simp)
    | error e =>
      have hval : ∀ l e', parseNat l = .error e' → e' = .valueError := by
        intro l e' h'
        unfold parseNat at h'
        split at h'
        · exact absurd h' (by simp)
        · exact (Except.error.inj h').symm
      have hmap : ∀ (l : Str) (g : ℕ → ℤ), (parseNat l).map g = .error e → e = .valueError := by
        intro l g h'
        cases hp : parseNat l with
        | ok v => rw [hp] at h'; exact absurd h' (by simp [Except.map])
        | error e2 =>
          rw [hp] at h'
          rw [← Except.error.inj h']
          exact hval l e2 hp
      unfold userInt parseInt at h
      split at h
      · rw [hmap _ _ h]
      · rw [hmap _ _ h]
      · rw [hmap _ _ h]
  refine ⟨rfl, ?_, ?_, ?_⟩
  · intro h
    unfold selectStructures
    dsimp only
    rw [if_neg (fun hc => hs hc.2), if_neg (by simp [h])]
  · intro t h
    unfold selectStructures
    dsimp only
    rw [if_neg (fun hc => hs hc.2), if_neg (by simp)]
    cases hu : userInt s with
    | error e =>
      have : representsInt s = false := by unfold representsInt; rw [hu]
      rw [herr s this] at hu
      rw [← Except.error.inj hu]
      rfl
    | ok v =>
      have hsr : representsInt s = true := by unfold representsInt; rw [hu]
      have ht : representsInt t = false := by
        rcases h with h | h
        · rw [hsr] at h; exact absurd h (by simp)
        · exact h
      simp only [herr t ht]
      rfl
  · intro t u rest
    unfold selectStructures
    dsimp only
    rw [if_neg (fun hc => hs hc.2), if_neg (by simp)]

/-- C41. The switches `-mink f` and `-remove_zeros f` have no effect: the files written are the same as with `t`. -/
theorem C41_switches_ignored (m : MakeArgs) (file : Str) (rnd : ReadStruct → ℕ → ℕ → ℝ) :
    makeStr (some { m with mink := .str "f".toList }) file rnd = makeStr (some { m with mink := .str "t".toList }) file rnd ∧
    makeStr (some { m with removeZeros := .str "f".toList }) file rnd = makeStr (some { m with removeZeros := .str "t".toList }) file rnd :=
  ⟨rfl, rfl⟩

/-- C41. Only a caller that passes the boolean `False` gets the supercell vectors as they are, not reduced. -/
theorem C41_mink_false (plv : M3 ℝ) (dv : List V3) (k : ℕ) (eps : ℝ) (st : StructData) (sd : SpaceData)
    (h : mapToRealSpace plv dv k eps st (Flag.bool false).truth = .ok sd) : sd.sLV.transpose = plv * castM st.HNF := by
  unfold mapToRealSpace superCell Flag.truth at h
  simp only [bind, Except.bind, Bool.false_eq_true, if_false] at h
  split at h
  · exact absurd h (by simp)
  · split at h
    · exact absurd h (by simp)
    · rw [← Except.ok.inj h, Matrix.transpose_transpose]

example : selectStructures (some ["10".toList, "12".toList]) = .ok (some [10, 11, 12]) := by decide
example : selectStructures (some ["All".toList]) = .ok none := C41_all _ _ (by decide)
example : selectStructures (some ["two".toList]) = .error .valueError := (C41_refused _ (by decide)).2.1 (by decide)

/-! ## C52: names of the files -/

/-- C52. With a pattern containing one field `{}` the name is the pattern with the number of the structure put in its
place; without a field the number is appended after a point. -/
theorem C52_name (pre post : Str) (hpre : ∀ c ∈ pre, c ≠ '{' ∧ c ≠ '}') (hpost : ∀ c ∈ post, c ≠ '{' ∧ c ≠ '}') (n : ℤ) :
    poscarName (pre ++ '{' :: '}' :: post) n = .ok (pre ++ intStr n ++ post) ∧
    poscarName pre n = .ok (pre ++ '.' :: intStr n) := by
  constructor
  · unfold poscarName
    rw [if_pos (hasField_plain pre post (fun h => (hpre _ h).1 rfl)), formatOne_plain _ _ _ hpre]
    have h2 := formatOne_plain (intStr n) true post hpost []
    rw [List.append_nil] at h2
    have h3 : formatOne (intStr n) true [] = .ok [] := by unfold formatOne; rfl
    rw [h3] at h2
    rw [formatOne]
    simp only [Bool.false_eq_true, if_false, h2]
    simp [Except.map]
  · unfold poscarName
    have : hasField pre = false := by
      clear hpost
      induction pre with
      | nil => rfl
      | cons c pre ih =>
        have hc := hpre c List.mem_cons_self
        rw [hasField.eq_def]
        split
        · rename_i e; exact absurd (List.cons.inj e).1 hc.1
        · rename_i e; rw [← (List.cons.inj e).2]; exact ih (fun d hd => hpre d (List.mem_cons_of_mem _ hd))
        · rfl
    rw [if_neg (by simp [this])]

/-- C52. Different structures get different files: none is overwritten. -/
theorem C52_names_differ (pre post : Str) (hpre : ∀ c ∈ pre, c ≠ '{' ∧ c ≠ '}') (hpost : ∀ c ∈ post, c ≠ '{' ∧ c ≠ '}')
    (outfile : Str) (ho : outfile = pre ++ '{' :: '}' :: post ∨ outfile = pre) (n m : ℤ) (h : poscarName outfile n = poscarName outfile m) : n = m := by
  rcases ho with rfl | rfl
  · rw [(C52_name pre post hpre hpost n).1, (C52_name pre post hpre hpost m).1] at h
    have := Except.ok.inj h
    rw [List.append_assoc, List.append_assoc] at this
    exact intStr_inj (List.append_cancel_right (List.append_cancel_left this))
  · rw [(C52_name outfile post hpre hpost n).2, (C52_name outfile post hpre hpost m).2] at h
    have := List.append_cancel_left (Except.ok.inj h)
    exact intStr_inj (List.cons.inj this).2

/-- C52. Two fields in the pattern are refused; doubled braces (`{{}}`, the notation for braces in the name) give one
name for all structures, so that each file overwrites the one before. -/
theorem C52_bad_patterns (pre : Str) (hpre : ∀ c ∈ pre, c ≠ '{' ∧ c ≠ '}') (n m : ℤ) :
    (∀ mid post : Str, (∀ c ∈ mid, c ≠ '{' ∧ c ≠ '}') →
      poscarName (pre ++ '{' :: '}' :: (mid ++ '{' :: '}' :: post)) n = .error .indexError) ∧
    poscarName (pre ++ "{{}}".toList) n = poscarName (pre ++ "{{}}".toList) m := by
  constructor
  · intro mid post hmid
    unfold poscarName
    rw [if_pos (hasField_plain pre _ (fun h => (hpre _ h).1 rfl)), formatOne_plain _ _ _ hpre, formatOne]
    simp only [Bool.false_eq_true, if_false]
    rw [formatOne_plain _ _ _ hmid, formatOne]
    rfl
  · unfold poscarName
    have hf : hasField (pre ++ "{{}}".toList) = true := by
      induction pre with
      | nil => decide
      | cons c pre ih =>
        have hc := hpre c List.mem_cons_self
        rw [List.cons_append, hasField.eq_def]
        split
        · rfl
        · rename_i e; rw [← (List.cons.inj e).2]; exact ih (fun d hd => hpre d (List.mem_cons_of_mem _ hd))
        · rename_i e; exact absurd e (by simp)
    rw [if_pos hf, if_pos hf, formatOne_plain _ _ _ hpre, formatOne_plain _ _ _ hpre]
    simp [formatOne]

example : poscarName "vasp.{}".toList 12 = .ok "vasp.12".toList := by
  have := (C52_name "vasp.".toList [] (by decide) (by simp) 12).1
  have h12 : intStr 12 = "12".toList := by
    show natStr 12 = _
    rw [natStr_ge (by norm_num), natStr_lt (by norm_num)]; decide
  rw [h12] at this
  exact this

end Phenum
