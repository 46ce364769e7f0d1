import Verif.Model.Numerics
import Mathlib.Data.Nat.Choose.Multinomial
import Mathlib.Data.Nat.Choose.Basic
import Mathlib.Tactic.Ring
import Mathlib.Algebra.BigOperators.Group.List.Basic
namespace Phenum

theorem pyRange_foldl_mul (m : Nat) :
    (pyRange 1 ((m : Int) + 1)).foldl (fun fact i => fact * i) 1 = (m.factorial : Int) := by
  have h : ((m : Int) + 1 - 1).toNat = m := by omega
  unfold pyRange
  rw [h]
  clear h
  induction m with
  | zero => simp
  | succ m ih =>
    rw [List.range_succ, List.map_append, List.foldl_append, ih]
    simp [Nat.factorial_succ]; ring

theorem binom_loop (n j : Nat) (hj : j ≤ n) :
    ((List.range j).map (fun (i : Nat) => (n : Int) - (i : Int))).foldl
      (fun t i => (t * i).fdiv ((n : Int) - i + 1)) 1 = (n.choose j : Int) := by
  induction j with
  | zero => simp
  | succ j ih =>
    rw [List.range_succ, List.map_append, List.foldl_append, ih (by omega)]
    simp only [List.map_cons, List.map_nil, List.foldl_cons, List.foldl_nil]
    have h1 : (n : Int) - ((n : Int) - (j : Int)) + 1 = ((j + 1 : Nat) : Int) := by push_cast; ring
    have h2 : (n : Int) - (j : Int) = ((n - j : Nat) : Int) := by omega
    rw [h1, h2, Int.fdiv_eq_ediv_of_nonneg _ (by omega)]
    have h3 := Nat.choose_succ_right_eq n j
    rw [← Nat.cast_mul, ← h3]
    push_cast
    rw [Int.mul_ediv_cancel _ (by omega)]

theorem binomialCoefficient_nat (n k : Nat) :
    binomialCoefficient n k = (n.choose k : Int) := by
  unfold binomialCoefficient
  by_cases h1 : ¬ (-1 < (k : Int) ∧ (k : Int) < n + 1)
  · rw [if_pos h1, Nat.choose_eq_zero_of_lt (by omega)]; rfl
  rw [if_neg h1]
  by_cases h2 : (k : Int) = 0 ∧ (n : Int) = 0
  · rw [if_pos h2]
    have : k = 0 := by omega
    have : n = 0 := by omega
    subst_vars; rfl
  rw [if_neg h2]
  by_cases h3 : (k : Int) < n - k
  · rw [if_pos h3]
    have : ((n : Int) - ((n : Int) - (k : Int))).toNat = k := by omega
    unfold pyRangeDown
    rw [this]
    exact binom_loop n k (by omega)
  · rw [if_neg h3]
    have : ((n : Int) - (k : Int)).toNat = n - k := by omega
    unfold pyRangeDown
    rw [this, binom_loop n (n - k) (by omega), Nat.choose_symm (by omega)]

theorem binomialCoefficient_eq (n k : Int) :
    binomialCoefficient n k =
      if 0 ≤ k ∧ k ≤ n then ((n.toNat.choose k.toNat : Nat) : Int) else 0 := by
  by_cases h : 0 ≤ k ∧ k ≤ n
  · rw [if_pos h]
    have h1 : n = (n.toNat : Int) := by omega
    have h2 : k = (k.toNat : Int) := by omega
    conv_lhs => rw [h1, h2]
    exact binomialCoefficient_nat _ _
  · rw [if_neg h]
    unfold binomialCoefficient
    rw [if_pos]; omega

/-- Product of binomials telescopes. -/
theorem multinomialPairs_prod (ns : List Nat) :
    ((multinomialPairs ((ns.sum : Nat) : Int) (ns.map (fun (x : Nat) => (x : Int)))).map
      (fun b => binomialCoefficient b.1 b.2)).prod * ((ns.map Nat.factorial).prod : Nat)
      = ((ns.sum.factorial : Nat) : Int) := by
  induction ns with
  | nil => simp [multinomialPairs]
  | cons x xs ih =>
    have h1 : (((x :: xs).sum : Nat) : Int) - (x : Int) = ((xs.sum : Nat) : Int) := by
      simp [List.sum_cons]
    simp only [List.map_cons, multinomialPairs, List.prod_cons, h1, binomialCoefficient_nat]
    rw [Nat.cast_mul]
    have h2 : ((x :: xs).sum.choose x : Int) * (x.factorial : Int) * (xs.sum.factorial : Int)
        = (((x :: xs).sum.factorial : Nat) : Int) := by
      have := Nat.choose_mul_factorial_mul_factorial (n := (x :: xs).sum) (k := x)
        (by simp [List.sum_cons])
      have h3 : (x :: xs).sum - x = xs.sum := by simp [List.sum_cons]
      rw [h3] at this
      exact_mod_cast this
    rw [← h2, ← ih]
    ring

/-! ## Machine integers -/

theorem wrap64_id {x : Int} (h0 : 0 ≤ x) (h1 : x < 2 ^ 63) : wrap64 x = x := by
  unfold wrap64
  rw [Int.bmod_def]
  have : x % ((2 ^ 64 : Nat) : Int) = x := Int.emod_eq_of_lt h0 (by norm_num at h1 ⊢; omega)
  rw [this, if_pos]
  norm_num at h1 ⊢
  omega

theorem binom_loop64 (n j : Nat) (hj : j ≤ n) (hb : ∀ i, i ≤ j → i * n.choose i < 2 ^ 63) :
    ((List.range j).map (fun (i : Nat) => (n : Int) - (i : Int))).foldl
      (fun t i => (wrap64 (t * i)).fdiv ((n : Int) - i + 1)) 1 = (n.choose j : Int) := by
  induction j with
  | zero => simp
  | succ j ih =>
    rw [List.range_succ, List.map_append, List.foldl_append, ih (by omega) (fun i hi => hb i (by omega))]
    simp only [List.map_cons, List.map_nil, List.foldl_cons, List.foldl_nil]
    have h1 : (n : Int) - ((n : Int) - (j : Int)) + 1 = ((j + 1 : Nat) : Int) := by push_cast; ring
    have h2 : (n : Int) - (j : Int) = ((n - j : Nat) : Int) := by omega
    have h3 := Nat.choose_succ_right_eq n j
    rw [h1, h2, ← Nat.cast_mul, ← h3, wrap64_id (by omega) (by
      have := hb (j + 1) le_rfl
      rw [Nat.mul_comm]
      exact_mod_cast this), Int.fdiv_eq_ediv_of_nonneg _ (by omega)]
    push_cast
    rw [Int.mul_ediv_cancel _ (by omega)]

theorem choose_mono_half {n k : Nat} (hk : 2 * k ≤ n) : ∀ i, i ≤ k → n.choose i ≤ n.choose k := by
  induction k with
  | zero => intro i hi; rw [Nat.le_zero.mp hi]
  | succ k ih =>
    intro i hi
    rcases Nat.lt_or_ge i (k + 1) with h | h
    · exact le_trans (ih (by omega) i (by omega)) (Nat.choose_le_succ_of_lt_half_left (by omega))
    · rw [show i = k + 1 by omega]

theorem binomial64_nat (n k : Nat) (hb : min k (n - k) * n.choose k < 2 ^ 63) : binomial64 n k = (n.choose k : Int) := by
  unfold binomial64
  by_cases h1 : ¬ (-1 < (k : Int) ∧ (k : Int) < n + 1)
  · rw [if_pos h1, Nat.choose_eq_zero_of_lt (by omega)]; rfl
  rw [if_neg h1]
  by_cases h2 : (k : Int) = 0 ∧ (n : Int) = 0
  · rw [if_pos h2]
    have : k = 0 := by omega
    have : n = 0 := by omega
    subst_vars; rfl
  rw [if_neg h2]
  by_cases h3 : (k : Int) < n - k
  · rw [if_pos h3]
    have : ((n : Int) - ((n : Int) - (k : Int))).toNat = k := by omega
    unfold pyRangeDown
    rw [this]
    refine binom_loop64 n k (by omega) (fun i hi => lt_of_le_of_lt ?_ hb)
    rw [min_eq_left (by omega)]
    exact Nat.mul_le_mul hi (choose_mono_half (by omega) i hi)
  · rw [if_neg h3]
    have : ((n : Int) - (k : Int)).toNat = n - k := by omega
    unfold pyRangeDown
    rw [this, binom_loop64 n (n - k) (by omega), Nat.choose_symm (by omega)]
    intro i hi
    refine lt_of_le_of_lt ?_ hb
    rw [min_eq_right (by omega), ← Nat.choose_symm (n := n) (k := k) (by omega)]
    exact Nat.mul_le_mul hi (choose_mono_half (by omega) i hi)

theorem prod64 (l : List Nat) (hpos : ∀ x ∈ l, 1 ≤ x) : ∀ a : Nat, a * l.prod < 2 ^ 63 →
    (l.map (fun x : Nat => (x : Int))).foldl (fun p b => wrap64 (p * b)) (a : Int) = ((a * l.prod : Nat) : Int) := by
  induction l with
  | nil => intro a _; simp
  | cons x l ih =>
    intro a ha
    have h1 : 1 ≤ l.prod := Nat.one_le_iff_ne_zero.mpr (by
      rw [Ne, List.prod_eq_zero_iff]
      intro h
      have := hpos 0 (List.mem_cons_of_mem _ h)
      omega)
    rw [List.prod_cons, ← Nat.mul_assoc] at ha
    have h2 : a * x < 2 ^ 63 := lt_of_le_of_lt (Nat.le_mul_of_pos_right _ h1) ha
    rw [List.map_cons, List.foldl_cons, ← Nat.cast_mul, wrap64_id (by omega) (by exact_mod_cast h2),
      ih (fun y hy => hpos y (List.mem_cons_of_mem _ hy)) _ ha, List.prod_cons, Nat.mul_assoc]

/-- The binomial coefficients whose product is the multinomial coefficient. -/
def binomialsOf : List Nat → List Nat
  | [] => []
  | x :: xs => (x + xs.sum).choose x :: binomialsOf xs

theorem binomialsOf_pos (ns : List Nat) : ∀ x ∈ binomialsOf ns, 1 ≤ x := by
  induction ns with
  | nil => intro x hx; cases hx
  | cons a l ih =>
    intro x hx
    rcases List.mem_cons.mp hx with rfl | hx
    · exact Nat.choose_pos (by omega)
    · exact ih x hx

theorem binomialsOf_prod (ns : List Nat) : (binomialsOf ns).prod * (ns.map Nat.factorial).prod = ns.sum.factorial := by
  induction ns with
  | nil => rfl
  | cons x xs ih =>
    rw [binomialsOf, List.prod_cons, List.map_cons, List.prod_cons, List.sum_cons]
    have := Nat.choose_mul_factorial_mul_factorial (n := x + xs.sum) (k := x) (by omega)
    rw [Nat.add_sub_cancel_left] at this
    rw [← this, ← ih]
    ring

theorem binomialsOf_eq (ns : List Nat) : (binomialsOf ns).prod = ns.sum.factorial / (ns.map Nat.factorial).prod := by
  rw [← binomialsOf_prod ns, Nat.mul_div_cancel]
  apply List.prod_pos
  intro x hx
  obtain ⟨y, -, rfl⟩ := List.mem_map.mp hx
  exact Nat.factorial_pos y

/-- the products formed in machine integers stay small -/
def Small64 (ns : List Nat) : Prop := ∀ pre x post, ns = pre ++ x :: post → min x post.sum * (x + post.sum).choose x < 2 ^ 63

theorem Small64.tail {x : Nat} {xs : List Nat} (h : Small64 (x :: xs)) : Small64 xs :=
  fun pre y post e => h (x :: pre) y post (by rw [e]; rfl)

theorem pairs64 (ns : List Nat) (h : Small64 ns) :
    (multinomialPairs ((ns.sum : Nat) : Int) (ns.map (fun (x : Nat) => (x : Int)))).map (fun b => binomial64 b.1 b.2) =
      (binomialsOf ns).map (fun x : Nat => (x : Int)) := by
  induction ns with
  | nil => rfl
  | cons x xs ih =>
    have h1 : (((x :: xs).sum : Nat) : Int) - (x : Int) = ((xs.sum : Nat) : Int) := by simp [List.sum_cons]
    simp only [List.map_cons, multinomialPairs, h1, binomialsOf]
    rw [ih h.tail, binomial64_nat]
    · simp [List.sum_cons]
    · have := h [] x xs rfl
      rw [List.sum_cons, Nat.add_sub_cancel_left]
      exact this

theorem sum_cast (ns : List Nat) : (ns.map (fun (x : Nat) => (x : Int))).sum = ((ns.sum : Nat) : Int) := by
  induction ns with
  | nil => rfl
  | cons a l ih => rw [List.map_cons, List.sum_cons, List.sum_cons, ih, Nat.cast_add]

theorem multinomial_ok {ns : List Nat} (hne : ns ≠ []) (h : Small64 ns) (hM : ns.sum.factorial / (ns.map Nat.factorial).prod < 2 ^ 63) :
    multinomial (ns.map (fun (x : Nat) => (x : Int))) = .ok ((ns.sum.factorial / (ns.map Nat.factorial).prod : Nat) : Int) := by
  cases ns with
  | nil => exact absurd rfl hne
  | cons a l =>
    have h1 := pairs64 _ h
    rw [← sum_cast] at h1
    have h2 := prod64 (binomialsOf (a :: l)) (binomialsOf_pos _) 1 (by rw [Nat.one_mul, binomialsOf_eq]; exact hM)
    show Except.ok (((multinomialPairs ((a :: l).map (fun (x : Nat) => (x : Int))).sum ((a :: l).map (fun (x : Nat) => (x : Int)))).map
      (fun b => binomial64 b.1 b.2)).foldl (fun p b => wrap64 (p * b)) 1) = _
    rw [h1, ← binomialsOf_eq]
    congr 1
    rw [Nat.one_mul] at h2
    exact h2

theorem multinomial_some {ns : List Nat} (hne : ns ≠ []) : ∃ v, multinomial (ns.map (fun (x : Nat) => (x : Int))) = .ok v := by
  cases ns with
  | nil => exact absurd rfl hne
  | cons a l => exact ⟨_, rfl⟩

theorem choose_le_multi {ns pre : List Nat} {x : Nat} {post : List Nat} (h : ns = pre ++ x :: post) :
    (x + post.sum).choose x ≤ ns.sum.factorial / (ns.map Nat.factorial).prod := by
  rw [← binomialsOf_eq]
  subst h
  induction pre with
  | nil =>
    show _ ≤ (binomialsOf (x :: post)).prod
    rw [binomialsOf, List.prod_cons]
    exact Nat.le_mul_of_pos_right _ (List.prod_pos (fun y hy => binomialsOf_pos _ y hy))
  | cons y pre ih =>
    show _ ≤ (binomialsOf (y :: (pre ++ x :: post))).prod
    rw [binomialsOf, List.prod_cons]
    exact le_trans ih (Nat.le_mul_of_pos_left _ (Nat.choose_pos (by omega)))

theorem small64_of_sq {ns : List Nat} (h : (ns.sum.factorial / (ns.map Nat.factorial).prod) ^ 2 < 2 ^ 63) : Small64 ns := by
  intro pre x post e
  have h1 := choose_le_multi e
  refine lt_of_le_of_lt ?_ h
  rw [pow_two]
  refine Nat.mul_le_mul (le_trans ?_ h1) h1
  rcases Nat.eq_zero_or_pos x with hx | hx
  · simp [hx]
  rcases Nat.eq_zero_or_pos post.sum with hp | hp
  · simp [hp]
  · refine le_trans (min_le_left _ _) ?_
    have h2 : (x + 1).choose x ≤ (x + post.sum).choose x := Nat.choose_le_choose x (by omega)
    rw [Nat.choose_succ_self_right] at h2
    omega

theorem multinomial_modest {ns : List Nat} (hne : ns ≠ []) (h : ns.sum.factorial / (ns.map Nat.factorial).prod ≤ 100000) :
    multinomial (ns.map (fun (x : Nat) => (x : Int))) = .ok ((ns.sum.factorial / (ns.map Nat.factorial).prod : Nat) : Int) := by
  apply multinomial_ok hne
  · apply small64_of_sq
    generalize ns.sum.factorial / (ns.map Nat.factorial).prod = q at h
    calc q ^ 2 ≤ 100000 ^ 2 := Nat.pow_le_pow_left h 2
      _ < 2 ^ 63 := by norm_num
  · exact lt_of_le_of_lt h (by norm_num)

end Phenum
