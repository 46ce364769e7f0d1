import Verif.Model.Tree
import Verif.Proof.Numerics
import Verif.Spec.Labelling
import Mathlib.Data.Nat.Choose.Basic
import Mathlib.Tactic.Ring
/-
Helper lemmas about `hash`, `invhash`, `coefficients`.
-/
namespace Phenum
open Spec

theorem binomN_nat (n k : Nat) : binomN n k = n.choose k := by
  unfold binomN; rw [binomialCoefficient_nat]; rfl

theorem binomN_pred_succ (n k : Nat) : binomN (n : Int) (((k + 1 : Nat) : Int) - 1) = n.choose k := by
  rw [show (((k + 1 : Nat) : Int) - 1) = (k : Int) by omega]; exact binomN_nat n k

theorem binomN_neg (n : Int) (k : Int) (h : k < 0) : binomN n k = 0 := by
  unfold binomN; rw [binomialCoefficient_eq, if_neg (by omega)]; rfl

/-- Rank of a 0/1 list, by structural recursion. -/
def rank : List Nat → Nat
  | [] => 0
  | x :: l =>
    (if x = 0 ∧ 1 ≤ l.count 1 then (l.length).choose (l.count 1 - 1) else 0) + rank l

/-- Number of zeros followed by some 1. -/
def zb : List Nat → Nat
  | [] => 0
  | x :: l => (if x = 0 ∧ 1 ≤ l.count 1 then 1 else 0) + zb l

theorem zb_no_one (l : List Nat) (h : l.count 1 = 0) : zb l = 0 := by
  induction l with
  | nil => rfl
  | cons x l ih =>
    have h' : l.count 1 = 0 := by
      rw [List.count_cons] at h; omega
    simp [zb, h', ih h']

theorem zb_split (a b : List Nat) (h : b.count 1 = 0) : zb (a ++ 1 :: b) = a.count 0 := by
  induction a with
  | nil => simp [zb, zb_no_one b h]
  | cons x a ih =>
    rw [List.cons_append, zb, ih]
    have : 1 ≤ (a ++ 1 :: b).count 1 := by simp [List.count_append]; omega
    by_cases hx : x = 0
    · rw [if_pos ⟨hx, this⟩, hx, List.count_cons_self]; omega
    · simp [hx]

theorem rank_eq_zero_of_zb (l : List Nat) (h : zb l = 0) : rank l = 0 := by
  induction l with
  | nil => rfl
  | cons x l ih =>
    rw [zb] at h
    rw [rank]
    split at h
    · omega
    · next hc => rw [if_neg hc, ih (by omega)]

theorem pyIndex_split (x : Nat) (a b : List Nat) (h : x ∉ a) : pyIndex x (a ++ x :: b) = .ok a.length := by
  induction a with
  | nil => simp [pyIndex]
  | cons y a ih =>
    have h1 : y ≠ x := fun e => h (by simp [e])
    have h2 : x ∉ a := fun e => h (by simp [e])
    simp only [List.cons_append, pyIndex, if_neg h1, ih h2]
    rfl

theorem pyIndex_missing (x : Nat) (l : List Nat) (h : x ∉ l) : pyIndex x l = .error .valueError := by
  induction l with
  | nil => rfl
  | cons y l ih =>
    have h1 : y ≠ x := fun e => h (by simp [e])
    have h2 : x ∉ l := fun e => h (by simp [e])
    simp only [pyIndex, if_neg h1, ih h2]; rfl

theorem rank_ones (a l : List Nat) (h : 0 ∉ a) : rank (a ++ l) = rank l := by
  induction a with
  | nil => rfl
  | cons x a ih =>
    have h1 : x ≠ 0 := fun e => h (by simp [e])
    have h2 : 0 ∉ a := fun e => h (by simp [e])
    rw [List.cons_append, rank, ih h2, if_neg (by tauto)]; omega

theorem zb_ones (a l : List Nat) (h : 0 ∉ a) : zb (a ++ l) = zb l := by
  induction a with
  | nil => rfl
  | cons x a ih =>
    have h1 : x ≠ 0 := fun e => h (by simp [e])
    have h2 : 0 ∉ a := fun e => h (by simp [e])
    rw [List.cons_append, zb, ih h2, if_neg (by tauto)]; omega

theorem split_first (x : Nat) (l : List Nat) (h : x ∈ l) : ∃ a b, l = a ++ x :: b ∧ x ∉ a := by
  induction l with
  | nil => cases h
  | cons y l ih =>
    by_cases e : y = x
    · exact ⟨[], l, by simp [e], by simp⟩
    · have : x ∈ l := by
        rcases List.mem_cons.mp h with h | h
        · exact absurd h.symm e
        · exact h
      obtain ⟨a, b, h1, h2⟩ := ih this
      refine ⟨y :: a, b, by simp [h1], ?_⟩
      intro hc
      rcases List.mem_cons.mp hc with h | h
      · exact e h.symm
      · exact h2 h

theorem zb_pos_mem (l : List Nat) (h : 0 < zb l) : 0 ∈ l := by
  induction l with
  | nil => simp [zb] at h
  | cons x l ih =>
    rw [zb] at h
    by_cases hc : x = 0 ∧ 1 ≤ l.count 1
    · simp [hc.1]
    · rw [if_neg hc] at h
      exact List.mem_cons_of_mem _ (ih (by omega))

theorem hashLoop_eq (z : Nat) (li : List Nat) (m : Int) (y : Nat) (hm : m = li.length) (hz : zb li = z) :
    hashLoop z li m y = .ok (y + rank li) := by
  induction z generalizing li m y with
  | zero => rw [hashLoop, rank_eq_zero_of_zb li hz]; rfl
  | succ z ih =>
    obtain ⟨a, b, rfl, ha⟩ := split_first 0 li (zb_pos_mem li (by omega))
    rw [zb_ones _ _ ha, zb] at hz
    have hc : 1 ≤ b.count 1 := by
      by_contra hc
      rw [if_neg (by tauto), zb_no_one b (by omega)] at hz
      omega
    rw [if_pos ⟨rfl, hc⟩] at hz
    rw [hashLoop, pyIndex_split 0 a b ha]
    simp only [bind, Except.bind]
    rw [List.drop_left, show a.length + 1 = (a ++ [0]).length by simp,
      show a ++ 0 :: b = (a ++ [0]) ++ b by simp, List.drop_left]
    rw [ih b _ _ (by rw [hm]; simp) (by omega)]
    have e1 : m - ((a.length : Int) + 1) = (b.length : Int) := by rw [hm]; simp
    rw [e1, List.count_cons_of_ne (by decide)]
    obtain ⟨k, hk⟩ : ∃ k, b.count 1 = k + 1 := ⟨b.count 1 - 1, by omega⟩
    rw [hk, binomN_pred_succ, List.append_assoc, List.singleton_append, rank_ones _ _ ha, rank,
      if_pos ⟨rfl, hc⟩, hk]
    simp only [Nat.add_sub_cancel, Nat.add_assoc]

theorem hash_eq_rank (l : List Nat) (h : 1 ∈ l) : hash l = .ok (rank l) := by
  obtain ⟨a, b, hab, ha⟩ := split_first 1 l.reverse (by simpa using h)
  have hl : l = b.reverse ++ 1 :: a.reverse := by
    have := congrArg List.reverse hab
    simpa using this
  unfold hash
  rw [hab, pyIndex_split 1 a b ha]
  simp only [bind, Except.bind]
  have hlen : l.length - a.length = b.reverse.length + 1 := by
    rw [hl]; simp; omega
  rw [hlen]
  have ht : l.take (b.reverse.length + 1) = b.reverse ++ [1] := by
    rw [hl, show b.reverse ++ 1 :: a.reverse = (b.reverse ++ [1]) ++ a.reverse by simp,
      show b.reverse.length + 1 = (b.reverse ++ [1]).length by simp, List.take_left]
  rw [ht, List.count_append]
  have hz : zb l = b.reverse.count 0 := by
    conv_lhs => rw [hl]
    exact zb_split _ _ (List.count_eq_zero.mpr (by simpa using ha))
  rw [hashLoop_eq _ l _ 0 rfl (by rw [hz]; simp)]
  simp

theorem hash_no_one (l : List Nat) (h : 1 ∉ l) : hash l = .error .valueError := by
  unfold hash
  rw [pyIndex_missing 1 _ (by simpa using h)]; rfl

theorem rank_lt (l : List Nat) (hb : IsBinary l) : rank l < l.length.choose (l.count 1) := by
  induction l with
  | nil => simp [rank]
  | cons x l ih =>
    have ih := ih (fun v hv => hb v (List.mem_cons_of_mem _ hv))
    rw [rank]
    rcases hb x (by simp) with rfl | rfl
    · rw [List.count_cons_of_ne (by decide), List.length_cons]
      by_cases hc : 1 ≤ l.count 1
      · obtain ⟨k, hk⟩ : ∃ k, l.count 1 = k + 1 := ⟨l.count 1 - 1, by omega⟩
        rw [if_pos ⟨rfl, hc⟩]
        rw [hk] at ih ⊢
        rw [Nat.choose_succ_succ']
        simp only [Nat.add_sub_cancel]; omega
      · rw [if_neg (by tauto)]
        have hk : l.count 1 = 0 := by omega
        rw [hk] at ih ⊢
        simp at ih ⊢; omega
    · rw [if_neg (by simp), List.count_cons_self, List.length_cons, Nat.choose_succ_succ]
      omega

/-- `invhashRow` inverts `rank`. -/
theorem invhashRow_rank (c : Nat) (l : List Nat) (hb : IsBinary l) :
    invhashRow c l.length (rank l) (l.count 1 : Nat) = l.map (fun v => if v = 1 then c else 0) := by
  induction l with
  | nil => rfl
  | cons x l ih =>
    have hb' : IsBinary l := fun v hv => hb v (List.mem_cons_of_mem _ hv)
    have ih := ih hb'
    have hlt := rank_lt l hb'
    rw [List.length_cons, rank, invhashRow]
    rcases hb x (by simp) with rfl | rfl
    · rw [List.count_cons_of_ne (by decide)]
      by_cases hc : 1 ≤ l.count 1
      · obtain ⟨k, hk⟩ : ∃ k, l.count 1 = k + 1 := ⟨l.count 1 - 1, by omega⟩
        have e : (if (0 : Nat) = 0 ∧ 1 ≤ List.count 1 l then l.length.choose (List.count 1 l - 1) else 0)
            = l.length.choose k := by rw [if_pos ⟨rfl, hc⟩, hk]; rfl
        rw [e]
        simp only [hk, binomN_pred_succ]
        rw [if_pos (by simp)]
        simp only [Nat.add_sub_cancel_left]
        rw [← hk, ih]; simp
      · have hk : l.count 1 = 0 := by omega
        have e : (if (0 : Nat) = 0 ∧ 1 ≤ List.count 1 l then l.length.choose (List.count 1 l - 1) else 0)
            = 0 := if_neg (by tauto)
        rw [e, hk]
        have e2 : binomN (l.length : Int) (((0 : Nat) : Int) - 1) = 0 := binomN_neg _ _ (by simp)
        simp only [e2, Nat.zero_le, if_true, Nat.sub_zero, Nat.zero_add]
        rw [hk] at ih
        rw [ih]; simp
    · rw [List.count_cons_self]
      simp only [binomN_pred_succ]
      rw [if_neg (by simp : ¬ ((1 : Nat) = 0 ∧ _)), Nat.zero_add, if_neg (by omega)]
      rw [show ((List.count 1 l + 1 : Nat) : Int) - 1 = (l.count 1 : Nat) by omega, ih]; simp

/-- What `invhashRow` produces. -/
theorem invhashRow_spec (c : Nat) (l I t : Nat) (h : I < l.choose t) :
    ∃ r : List Nat, invhashRow c l I t = r.map (fun v => if v = 1 then c else 0) ∧
      r.length = l ∧ IsBinary r ∧ r.count 1 = t ∧ rank r = I := by
  induction l generalizing I t with
  | zero =>
    refine ⟨[], rfl, rfl, ?_, ?_, ?_⟩
    · intro v hv; cases hv
    · cases t with
      | zero => rfl
      | succ t => simp at h
    · cases t with
      | zero => simp at h; simp [rank, h]
      | succ t => simp at h
  | succ l ih =>
    rw [invhashRow]
    cases t with
    | zero =>
      have e2 : binomN (l : Int) (((0 : Nat) : Int) - 1) = 0 := binomN_neg _ _ (by simp)
      simp only [e2, Nat.zero_le, if_true, Nat.sub_zero]
      obtain ⟨r, h1, h2, h3, h4, h5⟩ := ih I 0 (by simpa using h)
      refine ⟨0 :: r, ?_, by simp [h2], ?_, by simpa using h4, ?_⟩
      · rw [h1]; simp
      · intro v hv
        rcases List.mem_cons.mp hv with rfl | hv
        · exact Or.inl rfl
        · exact h3 v hv
      · rw [rank, h4, h5]; simp
    | succ t =>
      simp only [binomN_pred_succ]
      rw [Nat.choose_succ_succ] at h
      by_cases hc : l.choose t ≤ I
      · rw [if_pos hc]
        obtain ⟨r, h1, h2, h3, h4, h5⟩ := ih (I - l.choose t) (t + 1) (by rw [Nat.succ_eq_add_one] at h; omega)
        refine ⟨0 :: r, ?_, by simp [h2], ?_, by simpa using h4, ?_⟩
        · rw [h1]; simp
        · intro v hv
          rcases List.mem_cons.mp hv with rfl | hv
          · exact Or.inl rfl
          · exact h3 v hv
        · rw [rank, h4, h5, h2]; simp; omega
      · rw [if_neg hc]
        obtain ⟨r, h1, h2, h3, h4, h5⟩ := ih I t (by omega)
        refine ⟨1 :: r, ?_, by simp [h2], ?_, by simpa using h4, ?_⟩
        · rw [show ((t + 1 : Nat) : Int) - 1 = (t : Int) by omega, h1]; simp
        · intro v hv
          rcases List.mem_cons.mp hv with rfl | hv
          · exact Or.inr rfl
          · exact h3 v hv
        · rw [rank, h5]; simp

end Phenum
