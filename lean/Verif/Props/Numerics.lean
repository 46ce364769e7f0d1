import Verif.Proof.Numerics
import Mathlib.Data.Finset.Powerset
import Mathlib.Data.Nat.Choose.Bounds
/-
Properties C01 and C02: exactness of the integer helpers in phenum/numerics.py.
-/
namespace Phenum

/-- C01. For natural numbers, the result is the number of `k`-element subsets of an `n`-element set. -/
theorem C01_binomial_counts_subsets (n k : Nat) :
    binomialCoefficient n k = ((((Finset.range n).powersetCard k).card : Nat) : Int) := by
  rw [binomialCoefficient_nat, Finset.card_powersetCard, Finset.card_range]

/-- C01. For all integers outside `0 <= k <= n` the result is 0. -/
theorem C01_binomial_out_of_range (n k : Int) (h : ¬ (0 ≤ k ∧ k ≤ n)) :
    binomialCoefficient n k = 0 := by
  rw [binomialCoefficient_eq, if_neg h]

example : ¬ (0 ≤ (7 : Int) ∧ (7 : Int) ≤ 3) := by decide
example : binomialCoefficient 6 2 = 15 := by decide

/-- C01. Every floor division in the two loops is exact: whenever `i` is the next value of the loop
variable after the values `l`, the divisor divides the dividend. (`stop` is `n-k` in the first loop and
`k` in the second; both are non-negative.) -/
theorem C01_divisions_exact (n stop : Nat) (l rest : List Int) (i : Int)
    (h : pyRangeDown n stop = l ++ i :: rest) :
    ((n : Int) - i + 1) ∣ (l.foldl (fun t i => (t * i).fdiv ((n : Int) - i + 1)) 1) * i := by
  unfold pyRangeDown at h
  have hlen := congrArg List.length h
  simp only [List.length_map, List.length_range, List.length_append, List.length_cons] at hlen
  have hj : l.length < n := by omega
  have hl : l = (List.range l.length).map (fun (j : Nat) => (n : Int) - (j : Int)) := by
    have h2 := congrArg (List.take l.length) h
    rw [List.take_left' rfl, ← List.map_take, List.take_range, Nat.min_eq_left (by omega)] at h2
    exact h2.symm
  have hi : i = (n : Int) - (l.length : Int) := by
    have h3 := congrArg (fun x => x[l.length]?) h
    simp only [List.getElem?_append_right (Nat.le_refl _), Nat.sub_self,
      List.getElem?_cons_zero] at h3
    rw [List.getElem?_map, List.getElem?_range (by omega)] at h3
    simpa using h3.symm
  have hloop := binom_loop n l.length (by omega)
  rw [← hl] at hloop
  rw [hloop, hi]
  refine ⟨(n.choose (l.length + 1) : Int), ?_⟩
  have := Nat.choose_succ_right_eq n l.length
  have e : ((n.choose (l.length + 1) * (l.length + 1) : Nat) : Int)
      = ((n.choose l.length * (n - l.length) : Nat) : Int) := by rw [this]
  rw [Nat.cast_mul, Nat.cast_mul, Nat.cast_sub (by omega)] at e
  push_cast at e
  rw [show (n : Int) - (n - l.length) + 1 = l.length + 1 by ring]
  linarith

example : pyRangeDown (5 : Nat) (2 : Nat) = [5, 4] ++ 3 :: [] := by decide

/-- C02. `factorial` of a non-negative integer. -/
theorem C02_factorial (m : Nat) : factorial m = ((m.factorial : Nat) : Int) := by
  unfold factorial
  split
  · next h => have : m = 0 := by omega
              subst this; rfl
  · exact pyRange_foldl_mul m

/-- The multinomial coefficient: the number of ways to distribute `n₁` ones, `n₂` twos, ... over `n₁+n₂+...` places. -/
def Spec.multinomialCoefficient (ns : List Nat) : Nat := ns.sum.factorial / (ns.map Nat.factorial).prod

/-- C02. `multinomial` computes with 64-bit integers. It is exact if the coefficient times the number of places is below 2^63. -/
theorem C02_multinomial (ns : List Nat) (hne : ns ≠ []) (h : ns.sum * Spec.multinomialCoefficient ns < 2 ^ 63) :
    multinomial (ns.map (fun (x : Nat) => (x : Int))) = .ok (Spec.multinomialCoefficient ns : Int) ∧
      Spec.multinomialCoefficient ns * (ns.map Nat.factorial).prod = ns.sum.factorial := by
  have hM : ns.sum.factorial / (ns.map Nat.factorial).prod < 2 ^ 63 := by
    rcases Nat.eq_zero_or_pos ns.sum with h0 | h0
    · rw [h0]
      exact lt_of_le_of_lt (Nat.div_le_self _ _) (by norm_num)
    · exact lt_of_le_of_lt (Nat.le_mul_of_pos_left _ h0) h
  refine ⟨multinomial_ok hne ?_ hM, ?_⟩
  · intro pre x post e
    refine lt_of_le_of_lt (Nat.mul_le_mul ?_ (choose_le_multi e)) h
    refine le_trans (min_le_left _ _) ?_
    rw [e, List.sum_append, List.sum_cons]
    omega
  · unfold Spec.multinomialCoefficient
    rw [← binomialsOf_eq]
    exact binomialsOf_prod ns

/-- C02. It is exact for up to 20 places. -/
theorem C02_multinomial_twenty (ns : List Nat) (hne : ns ≠ []) (h : ns.sum ≤ 20) :
    multinomial (ns.map (fun (x : Nat) => (x : Int))) = .ok (Spec.multinomialCoefficient ns : Int) := by
  apply multinomial_ok hne
  · intro pre x post e
    have h1 : x + post.sum ≤ 20 := by
      rw [e, List.sum_append, List.sum_cons] at h
      omega
    calc min x post.sum * (x + post.sum).choose x ≤ 20 * 2 ^ 20 := Nat.mul_le_mul (le_trans (min_le_left _ _) (by omega))
          (le_trans (Nat.choose_le_two_pow _ _) (Nat.pow_le_pow_right (by norm_num) h1))
      _ < 2 ^ 63 := by norm_num
  · calc ns.sum.factorial / (ns.map Nat.factorial).prod ≤ ns.sum.factorial := Nat.div_le_self _ _
      _ ≤ Nat.factorial 20 := Nat.factorial_le h
      _ < 2 ^ 63 := by decide

/-- C02. Finding: it is not exact in general. For 28 and 34 atoms of two species the intermediate product overflows and the result is negative. -/
theorem C02_overflow : multinomial [28, 34] = .ok (-309196571788882236) ∧ Spec.multinomialCoefficient [28, 34] = 349615716557887465 := by
  constructor
  · decide +kernel
  · decide +kernel

/-- C02. The empty list is rejected. -/
theorem C02_multinomial_empty : multinomial [] = .error .indexError := rfl

example : ([2, 1, 3] : List Nat).sum * Spec.multinomialCoefficient [2, 1, 3] < 2 ^ 63 := by decide
example : multinomial [2, 1, 3] = .ok 60 := by decide

end Phenum
