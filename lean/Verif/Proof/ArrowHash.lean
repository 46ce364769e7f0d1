import Verif.Model.Phonons
import Mathlib.Tactic.Ring
import Mathlib.Algebra.Order.Ring.Nat
import Mathlib.Data.Nat.Basic
import Mathlib.Algebra.BigOperators.Group.List.Basic
import Mathlib.Algebra.BigOperators.Ring.List
/-
Helper lemmas about `ahash` and `ainvhash`.
-/
namespace Phenum

theorem ahash_nil (dim : Nat) : ahash [] dim = 0 := rfl

theorem ahash_cons (x : Nat) (l : List Nat) (dim : Nat) :
    ahash (x :: l) dim = x + dim * ahash l dim := by
  unfold ahash
  rw [List.length_cons, List.range_succ_eq_map, List.map_cons, List.sum_cons, List.map_map]
  congr 1
  · simp
  · rw [← List.sum_map_mul_left]
    congr 1
    apply List.map_congr_left
    intro i _
    simp only [Function.comp, List.getD_cons_succ, Nat.succ_eq_add_one]
    rw [Nat.pow_succ]; ring

/-- base-`dim` digits, least significant first -/
def digitsB (dim : Nat) : Nat → Nat → List Nat
  | 0, _ => []
  | k + 1, a => a % dim :: digitsB dim k (a / dim)

theorem digitsB_length (dim k a : Nat) : (digitsB dim k a).length = k := by
  induction k generalizing a with
  | zero => rfl
  | succ k ih => simp [digitsB, ih]

theorem digitsB_lt (dim k a : Nat) (hd : 0 < dim) : ∀ v ∈ digitsB dim k a, v < dim := by
  induction k generalizing a with
  | zero => simp [digitsB]
  | succ k ih =>
    intro v hv
    rcases List.mem_cons.mp hv with rfl | hv
    · exact Nat.mod_lt _ hd
    · exact ih _ v hv

theorem ahash_digitsB (dim k a : Nat) (h : a < dim ^ k) : ahash (digitsB dim k a) dim = a := by
  induction k generalizing a with
  | zero => simp at h; subst h; rfl
  | succ k ih =>
    have hd : 0 < dim := by
      rcases Nat.eq_zero_or_pos dim with rfl | h'
      · simp at h
      · exact h'
    rw [digitsB, ahash_cons, ih (a / dim) (by
      rw [Nat.div_lt_iff_lt_mul hd]; rwa [Nat.pow_succ] at h)]
    exact Nat.mod_add_div a dim

theorem digitsB_ahash (dim : Nat) (l : List Nat) (h : ∀ v ∈ l, v < dim) :
    digitsB dim l.length (ahash l dim) = l := by
  induction l with
  | nil => rfl
  | cons x l ih =>
    have hx := h x (by simp)
    rw [List.length_cons, digitsB, ahash_cons, Nat.add_mul_mod_self_left, Nat.mod_eq_of_lt hx,
      Nat.add_mul_div_left _ _ (by omega), Nat.div_eq_of_lt hx, Nat.zero_add,
      ih (fun v hv => h v (List.mem_cons_of_mem _ hv))]

theorem ahash_lt (dim : Nat) (l : List Nat) (h : ∀ v ∈ l, v < dim) : ahash l dim < dim ^ l.length := by
  induction l with
  | nil => simp [ahash_nil]
  | cons x l ih =>
    have hx := h x (by simp)
    have ih := ih (fun v hv => h v (List.mem_cons_of_mem _ hv))
    rw [ahash_cons, List.length_cons, Nat.pow_succ]
    calc x + dim * ahash l dim < dim + dim * ahash l dim := by omega
      _ = dim * (ahash l dim + 1) := by ring
      _ ≤ dim * dim ^ l.length := Nat.mul_le_mul_left _ ih
      _ = dim ^ l.length * dim := by ring

theorem digitsB_snoc (dim k a : Nat) :
    digitsB dim (k + 1) a = digitsB dim k (a % dim ^ k) ++ [a / dim ^ k % dim] := by
  induction k generalizing a with
  | zero => simp [digitsB]
  | succ k ih =>
    rw [digitsB, ih (a / dim), digitsB, List.cons_append]
    have e1 : a % dim ^ (k + 1) % dim = a % dim := by
      rw [Nat.pow_succ, Nat.mul_comm, Nat.mod_mul_right_mod]
    have e2 : a % dim ^ (k + 1) / dim = a / dim % dim ^ k := by
      rw [Nat.pow_succ, Nat.mul_comm, Nat.mod_mul_right_div_self]
    have e3 : a / dim / dim ^ k = a / dim ^ (k + 1) := by
      rw [Nat.div_div_eq_div_mul, Nat.pow_succ, Nat.mul_comm]
    rw [e1, e2, e3]

theorem ainvhashLoop_eq (dim j anum : Nat) (arr : List Nat) (hj : j ≤ arr.length) (h : anum < dim ^ j) :
    ainvhashLoop dim j anum arr = digitsB dim j anum ++ arr.drop j := by
  induction j generalizing anum arr with
  | zero => simp [ainvhashLoop, digitsB]
  | succ j ih =>
    have hp : 0 < dim ^ j := by
      rcases Nat.eq_zero_or_pos (dim ^ j) with h0 | h0
      · rw [Nat.pow_succ, h0] at h; simp at h
      · exact h0
    have e : anum - dim ^ j * (anum / dim ^ j) = anum % dim ^ j :=
      (Nat.mod_eq_sub_mul_div).symm
    simp only [ainvhashLoop]
    rw [e, ih _ _ (by simp; omega) (Nat.mod_lt _ hp), digitsB_snoc, List.append_assoc]
    congr 1
    have hd : anum / dim ^ j < dim := by
      rw [Nat.div_lt_iff_lt_mul hp]; rw [Nat.pow_succ] at h; rwa [Nat.mul_comm] at h
    rw [Nat.mod_eq_of_lt hd, List.drop_set, if_neg (by omega), Nat.sub_self]
    rw [List.drop_eq_getElem_cons (by omega : j < arr.length)]
    rfl

theorem ainvhash_eq (dim k a : Nat) (h : a < dim ^ k) : ainvhash a k dim = digitsB dim k a := by
  unfold ainvhash
  rw [ainvhashLoop_eq _ _ _ _ (by simp) h]
  simp

theorem ahash_max (dim k : Nat) (hd : 0 < dim) : ahash (List.replicate k (dim - 1)) dim + 1 = dim ^ k := by
  induction k with
  | zero => rfl
  | succ k ih =>
    rw [List.replicate_succ, ahash_cons, Nat.pow_succ, ← ih]
    obtain ⟨d, rfl⟩ : ∃ d, dim = d + 1 := ⟨dim - 1, by omega⟩
    simp only [Nat.add_sub_cancel]
    ring

end Phenum
