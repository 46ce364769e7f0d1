import Verif.Model.MakeStr
import Verif.Proof.EnumFile
import Verif.Proof.Induced
import Verif.Spec.Crystal
import Verif.Proof.PointGroup
/-
Lemmas about the program makeStr.
-/
namespace Phenum
open Spec

/-! ## Words given by the user -/

theorem strip_word {s : Str} (h : IsWord s) : strip s = s := by
  simpa using strip_spaces_word h 0

theorem userInt_intStr (z : ℤ) : userInt (intStr z) = .ok z := by
  unfold userInt
  rw [strip_word (intStr_word z), parseInt_intStr]

theorem toLower_digit {c : Char} (h : c.isDigit = true) : c.toLower = c := by
  unfold Char.toLower
  simp only [Char.isDigit, Bool.and_eq_true, decide_eq_true_eq] at h
  rw [dif_neg]
  intro hc
  have h1 := hc.1
  have h2 := h.2
  simp only [ge_iff_le, UInt32.le_iff_toNat_le] at h1 h2
  have e1 : ('A' : Char).val.toNat = 65 := rfl
  have e2 : ('9' : Char).val.toNat = 57 := rfl
  omega

theorem toLower_small {c : Char} (h : c.toNat < 65) : c.toLower = c := by
  unfold Char.toLower
  rw [dif_neg]
  intro hc
  have h1 := hc.1
  simp only [ge_iff_le, UInt32.le_iff_toNat_le] at h1
  have e1 : ('A' : Char).val.toNat = 65 := rfl
  have : c.toNat = c.val.toNat := rfl
  omega

/-- "all", in any case, is not a number. -/
theorem all_not_int {s : Str} (h : lowerStr s = "all".toList) : representsInt s = false := by
  obtain ⟨x, y, z, rfl⟩ : ∃ x y z, s = [x, y, z] := by
    have : s.length = 3 := by
      have := congrArg List.length h
      simpa [lowerStr] using this
    match s, this with
    | [x, y, z], _ => exact ⟨x, y, z, rfl⟩
  have hx : x.toLower = 'a' ∧ y.toLower = 'l' ∧ z.toLower = 'l' := by
    simpa [lowerStr] using h
  have big : ∀ c d : Char, c.toLower = d → 65 ≤ d.toNat → 65 ≤ c.toNat := by
    intro c d h1 h2
    by_contra h3
    rw [toLower_small (by omega)] at h1
    subst h1; omega
  have hx' := big _ _ hx.1 (by decide)
  have hy' := big _ _ hx.2.1 (by decide)
  have hz' := big _ _ hx.2.2 (by decide)
  have ne : ∀ c d : Char, 65 ≤ c.toNat → d.toNat < 65 → c ≠ d := by
    rintro c d h1 h2 rfl; omega
  have hws : ∀ c : Char, 65 ≤ c.toNat → isWs c = false := by
    intro c hc
    unfold isWs
    simp [ne c ' ' hc (by decide), ne c '\n' hc (by decide), ne c '\t' hc (by decide), ne c '\r' hc (by decide)]
  have hw : IsWord [x, y, z] := ⟨by simp, by
    intro c hc
    simp only [List.mem_cons, List.not_mem_nil, or_false] at hc
    rcases hc with rfl | rfl | rfl
    · exact hws _ hx'
    · exact hws _ hy'
    · exact hws _ hz'⟩
  have hdig : x.isDigit = false := by
    cases hd : x.isDigit with
    | false => rfl
    | true =>
      rw [toLower_digit hd] at hx
      rw [hx.1] at hd
      revert hd; decide
  unfold representsInt userInt
  rw [strip_word hw]
  have : parseInt [x, y, z] = .error .valueError := by
    unfold parseInt
    split
    · rename_i l e
      exact absurd (List.cons.inj e).1 (ne _ _ hx' (by decide))
    · rename_i l e
      exact absurd (List.cons.inj e).1 (ne _ _ hx' (by decide))
    · unfold parseNat
      rw [if_neg (by simp [hdig])]
      rfl
  rw [this]

/-! ## File names -/

theorem hasField_plain (pre post : Str) (h : '{' ∉ pre) : hasField (pre ++ '{' :: '}' :: post) = true := by
  induction pre with
  | nil => rfl
  | cons c pre ih =>
    have hc : c ≠ '{' := fun e => h (e ▸ List.mem_cons_self)
    rw [List.cons_append, hasField.eq_def]
    split
    · rename_i e; rfl
    · rename_i e
      rw [← (List.cons.inj e).2]
      exact ih (fun hm => h (List.mem_cons_of_mem _ hm))
    · rename_i e; exact absurd e (by simp)

theorem formatOne_plain (arg : Str) (u : Bool) (s : Str) (h : ∀ c ∈ s, c ≠ '{' ∧ c ≠ '}') (rest : Str) :
    formatOne arg u (s ++ rest) = (formatOne arg u rest).map (s ++ ·) := by
  induction s with
  | nil => simp only [List.nil_append]; cases formatOne arg u rest <;> rfl
  | cons c s ih =>
    have hc := h c List.mem_cons_self
    rw [List.cons_append, formatOne.eq_def]
    split
    · rename_i e; exact absurd e (by simp)
    · rename_i e; exact absurd (List.cons.inj e).1 hc.1
    · rename_i e; exact absurd (List.cons.inj e).1 hc.1
    · rename_i e; exact absurd (List.cons.inj e).1 hc.1
    · rename_i e; exact absurd (List.cons.inj e).1 hc.2
    · rename_i e; exact absurd (List.cons.inj e).1 hc.2
    · rename_i e
      rw [← (List.cons.inj e).1, ← (List.cons.inj e).2, ih (fun d hd => h d (List.mem_cons_of_mem _ hd))]
      generalize formatOne arg _ rest = r
      cases r <;> rfl

theorem intStr_inj {m n : ℤ} (h : intStr m = intStr n) : m = n := by
  have := parseInt_intStr m
  rw [h, parseInt_intStr] at this
  exact (Except.ok.inj this).symm

/-! ## Runs -/

theorem run_mapM_ok {α β : Type} (f : α → Run β) (g : α → β) (l : List α) (h : ∀ a ∈ l, f a = (pure (g a) : Run β)) :
    l.mapM f = (pure (l.map g) : Run (List β)) := by
  induction l with
  | nil => rfl
  | cons a l ih => rw [List.mapM_cons, h a List.mem_cons_self, ih (fun b hb => h b (List.mem_cons_of_mem _ hb))]; rfl

/-! ## Crystals -/

/-- Two lists of atoms that agree modulo the lattice give the same crystal. -/
theorem crystal_eq {K : Type} [Field K] (M : M3 K) (L1 L2 : List (ℕ × (Fin 3 → K)))
    (h12 : ∀ x ∈ L1, ∃ y ∈ L2, y.1 = x.1 ∧ x.2 - y.2 ∈ ColLattice M)
    (h21 : ∀ y ∈ L2, ∃ x ∈ L1, y.1 = x.1 ∧ x.2 - y.2 ∈ ColLattice M) :
    Crystal (ColLattice M) L1 = Crystal (ColLattice M) L2 := by
  ext a
  constructor
  · rintro ⟨b, hb, e, hl⟩
    obtain ⟨y, hy, e2, h2⟩ := h12 b hb
    refine ⟨y, hy, e2.trans e, ?_⟩
    have : a.2 - y.2 = (a.2 - b.2) + (b.2 - y.2) := by abel
    rw [this]
    exact colLat_add hl h2
  · rintro ⟨b, hb, e, hl⟩
    obtain ⟨x, hx, e2, h2⟩ := h21 b hb
    refine ⟨x, hx, e2.symm.trans e, ?_⟩
    have : a.2 - x.2 = (a.2 - b.2) - (x.2 - b.2) := by abel
    rw [this]
    exact colLat_sub hl h2

end Phenum
