import Verif.Model.Polya
import Verif.Spec.Polynomial
import Verif.Proof.Numerics
import Mathlib.Algebra.MvPolynomial.Coeff
import Mathlib.Algebra.BigOperators.Fin
import Mathlib.Algebra.Order.Antidiag.Finsupp
import Mathlib.Tactic.FieldSimp
import Mathlib.Tactic.Linarith
/-
`Product.coeff` computes the coefficient of a product of powers (C18).
-/
namespace Phenum
open Spec

theorem nchoosekLoop_append (n : Int) (l m : List Int) (t : Rat) :
    nchoosekLoop n (l ++ m) t = nchoosekLoop n m (nchoosekLoop n l t) := by
  induction l generalizing t with
  | nil => rfl
  | cons i l ih => exact ih _

theorem nchoosekLoop_eq (n j : Nat) (hj : j ≤ n) :
    nchoosekLoop n ((List.range j).map (fun (i : Nat) => (n : Int) - (i : Int))) 1 = (n.choose j : Rat) := by
  induction j with
  | zero => simp [nchoosekLoop]
  | succ j ih =>
    rw [List.range_succ, List.map_append, nchoosekLoop_append, ih (by omega)]
    simp only [List.map_cons, List.map_nil, nchoosekLoop]
    have h := Nat.choose_succ_right_eq n j
    have h' : ((n.choose (j + 1) : Nat) : Rat) * ((j : Rat) + 1) = (n.choose j : Rat) * ((n : Rat) - j) := by
      have := congrArg (Nat.cast (R := Rat)) h
      push_cast [Nat.cast_sub (show j ≤ n by omega)] at this
      exact this
    push_cast
    rw [div_eq_iff (by
      have : (0 : Rat) ≤ j := Nat.cast_nonneg j
      intro hc; linarith)]
    rw [← h']
    ring

/-- `nchoosek` is the binomial coefficient -/
theorem nchoosek_eq (n k : Nat) : nchoosek n k = (n.choose k : Rat) := by
  unfold nchoosek
  by_cases hk : k ≤ n
  · rw [if_neg (by omega)]
    by_cases h0 : (k : Int) = 0 ∧ (n : Int) = 0
    · rw [if_pos h0]
      have h1 : k = 0 := by omega
      have h2 : n = 0 := by omega
      simp [h1, h2]
    · rw [if_neg h0]
      unfold pyRangeDown
      by_cases h1 : (k : Int) < n - k
      · rw [if_pos h1, show ((n : Int) - (n - k)).toNat = k by omega, nchoosekLoop_eq n k hk]
      · rw [if_neg h1, show ((n : Int) - k).toNat = n - k by omega, nchoosekLoop_eq n (n - k) (by omega),
          Nat.choose_symm hk]
  · rw [if_pos (by omega), Nat.choose_eq_zero_of_lt (by omega)]
    simp

theorem foldl_mul_prod {R α : Type} [CommMonoid R] (l : List α) (f : α → R) (a : R) :
    l.foldl (fun acc i => acc * f i) a = a * (l.map f).prod := by
  induction l generalizing a with
  | nil => simp
  | cons x l ih => rw [List.foldl_cons, ih, List.map_cons, List.prod_cons, mul_assoc]

/-- the number of ways to split, as computed by `nchoosekm` -/
def multi (x : List Nat) : Nat := ((List.range x.length).map (fun i => ((x.take (i + 1)).sum).choose (x.getD i 0))).prod

theorem multi_spec (x : List Nat) (m : Nat) (hm : m ≤ x.length) :
    ((List.range m).map (fun i => ((x.take (i + 1)).sum).choose (x.getD i 0))).prod *
      ((List.range m).map (fun i => (x.getD i 0).factorial)).prod = ((x.take m).sum).factorial := by
  induction m with
  | zero => simp
  | succ m ih =>
    rw [List.range_succ, List.map_append, List.map_append, List.prod_append, List.prod_append]
    simp only [List.map_cons, List.map_nil, List.prod_cons, List.prod_nil, mul_one]
    have hs : (x.take (m + 1)).sum = (x.take m).sum + x.getD m 0 := by
      rw [List.take_add_one, List.sum_append]
      simp [List.getElem?_eq_getElem (show m < x.length by omega)]
    have h1 := Nat.choose_mul_factorial_mul_factorial (n := (x.take (m + 1)).sum) (k := x.getD m 0) (by omega)
    rw [show (x.take (m + 1)).sum - x.getD m 0 = (x.take m).sum by omega, ← ih (by omega)] at h1
    rw [← h1]
    ring

theorem list_range_prod {R : Type} [CommMonoid R] (n : Nat) (f : Nat → R) :
    ((List.range n).map f).prod = ∏ i ∈ Finset.range n, f i := by
  induction n with
  | zero => simp
  | succ n ih => rw [List.range_succ, List.map_append, List.prod_append, ih, Finset.prod_range_succ]; simp

theorem multi_eq (x : List Nat) {k : Nat} (hk : x.length = k) :
    multi x = Nat.multinomial Finset.univ (fun j : Fin k => x.getD j 0) := by
  subst hk
  have h := multi_spec x x.length le_rfl
  have h2 := Nat.multinomial_spec Finset.univ (fun j : Fin x.length => x.getD j 0)
  have e1 : ((List.range x.length).map (fun i => (x.getD i 0).factorial)).prod =
      ∏ j : Fin x.length, (x.getD j 0).factorial := by
    rw [list_range_prod, Finset.prod_range]
  have e2 : (x.take x.length).sum = ∑ j : Fin x.length, x.getD j 0 := by
    rw [List.take_length]
    conv_lhs => rw [← Fin.sum_univ_getElem x]
    apply Finset.sum_congr rfl
    intro j _
    simp
  rw [e1, e2] at h
  rw [← h2, mul_comm] at h
  exact Nat.eq_of_mul_eq_mul_left (Finset.prod_pos (fun i _ => Nat.factorial_pos _)) h


/-- the value of `nchoosekm` as a natural number -/
def nck (m : Multinom) (a : List Nat) : Nat :=
  if a.all (fun s => s % m.power = 0) then
    multi (a.map (fun s => s / m.power)) *
      ((List.range m.arrowings.length).map
        (fun i => if m.arrowings.getD i false then m.coeff ^ ((a.map (fun s => s / m.power)).getD i 0) else 1)).prod
  else 0

theorem nchoosekm_eq (m : Multinom) (a : List Nat) : m.nchoosekm a = (nck m a : Rat) := by
  unfold Multinom.nchoosekm nck
  split
  · simp only []
    rw [foldl_mul_prod, one_mul]
    have e : (fun (acc : Nat) i => if m.arrowings.getD i false then
          acc * m.coeff ^ ((a.map (fun s => s / m.power)).getD i 0) else acc) =
        fun acc i => acc * (if m.arrowings.getD i false then
          m.coeff ^ ((a.map (fun s => s / m.power)).getD i 0) else 1) := by
      funext acc i; split <;> simp
    rw [e, foldl_mul_prod, one_mul]
    simp only [nchoosek_eq]
    rw [Nat.cast_mul]
    congr 1
    unfold multi
    simp only [ Nat.cast_list_prod, List.map_map]
    rfl
  · simp

/-- validity of a factor -/
structure MnOk (k : Nat) (m : Multinom) : Prop where
  power : 1 ≤ m.power
  exponent : 1 ≤ m.exponent
  flags : m.arrowings.length = k

/-- the polynomial of a factor -/
noncomputable def mnPoly (k : Nat) (m : Multinom) : MvPolynomial (Fin k) ℕ :=
  factor k m.power m.coeff m.exponent m.arrowings

open MvPolynomial

theorem mnPoly_coeff {k : Nat} {m : Multinom} (hp : 1 ≤ m.power) (b : Fin k →₀ ℕ) :
    coeff b (mnPoly k m) =
      if (∀ j, m.power ∣ b j) ∧ ∑ j, b j = m.powersum then
        Nat.multinomial Finset.univ (fun j => b j / m.power) *
          ∏ j : Fin k, (if m.arrowings.getD j false then m.coeff else 1) ^ (b j / m.power)
      else 0 := by
  unfold mnPoly factor
  rw [Finset.sum_pow_eq_sum_piAntidiag, coeff_sum]
  have hterm : ∀ x : Fin k → ℕ, ((Nat.multinomial Finset.univ x : ℕ) : MvPolynomial (Fin k) ℕ) *
      ∏ i : Fin k, (C (if m.arrowings.getD i.1 false then m.coeff else 1) * X i ^ m.power) ^ x i =
      monomial (Finsupp.equivFunOnFinite.symm (fun j => m.power * x j))
        (Nat.multinomial Finset.univ x * ∏ j : Fin k, (if m.arrowings.getD j false then m.coeff else 1) ^ x j) := by
    intro x
    rw [monomial_eq]
    rw [Finsupp.prod_fintype _ _ (by simp)]
    simp only [mul_pow, Finset.prod_mul_distrib, ← pow_mul, map_mul, map_prod, map_pow]
    simp [mul_assoc]
  simp only [hterm, coeff_monomial]
  by_cases h : (∀ j, m.power ∣ b j) ∧ ∑ j, b j = m.powersum
  · rw [if_pos h]
    rw [Finset.sum_eq_single (fun j => b j / m.power)]
    · rw [if_pos]
      ext j
      simp [Nat.mul_div_cancel' (h.1 j)]
    · intro x _ hx
      rw [if_neg]
      intro e
      apply hx
      funext j
      rw [← e]
      simp [Nat.mul_div_cancel_left _ hp]
    · intro hx
      exfalso
      apply hx
      rw [Finset.mem_piAntidiag]
      refine ⟨?_, by simp⟩
      have : m.power * ∑ j, b j / m.power = m.power * m.exponent := by
        rw [Finset.mul_sum, show m.power * m.exponent = _ from h.2.symm]
        exact Finset.sum_congr rfl (fun j _ => Nat.mul_div_cancel' (h.1 j))
      exact Nat.eq_of_mul_eq_mul_left hp this
  · rw [if_neg h]
    apply Finset.sum_eq_zero
    intro x hx
    rw [if_neg]
    intro e
    apply h
    rw [← e]
    rw [Finset.mem_piAntidiag] at hx
    refine ⟨fun j => ⟨x j, rfl⟩, ?_⟩
    show ∑ j, m.power * x j = _
    rw [← Finset.mul_sum, hx.1]
    rfl

theorem expo_apply (k : Nat) (t : List Nat) (j : Fin k) : expo k t j = t.getD j 0 := rfl

theorem expo_sum {k : Nat} {t : List Nat} (h : t.length = k) : ∑ j, expo k t j = t.sum := by
  subst h
  conv_rhs => rw [← Fin.sum_univ_getElem t]
  apply Finset.sum_congr rfl
  intro j _
  simp [expo_apply]

/-- on exponents of the right degree the polynomial coefficient is the number computed -/
theorem mnPoly_coeff_expo' {k : Nat} {m : Multinom} (hp : 1 ≤ m.power) (hf : m.arrowings.length = k) {a : List Nat}
    (ha : a.length = k) (hs : a.sum = m.powersum) : coeff (expo k a) (mnPoly k m) = nck m a := by
  rw [mnPoly_coeff hp, expo_sum ha]
  unfold nck
  have hdvd : (∀ j, m.power ∣ expo k a j) ↔ a.all (fun s => s % m.power = 0) = true := by
    rw [List.all_eq_true]
    simp only [expo_apply, decide_eq_true_eq]
    constructor
    · intro h s hs
      obtain ⟨i, hi, rfl⟩ := List.getElem_of_mem hs
      have := h ⟨i, by omega⟩
      simp only [List.getD_eq_getElem?_getD, List.getElem?_eq_getElem hi, Option.getD_some] at this
      exact Nat.mod_eq_zero_of_dvd this
    · intro h j
      have hj : j.1 < a.length := by rw [ha]; exact j.2
      rw [List.getD_eq_getElem?_getD, List.getElem?_eq_getElem hj]
      exact Nat.dvd_of_mod_eq_zero (h _ (List.getElem_mem hj))
  by_cases h : a.all (fun s => s % m.power = 0) = true
  · rw [if_pos ⟨hdvd.mpr h, hs⟩, if_pos h]
    have hg : ∀ i, (a.map (fun s => s / m.power)).getD i 0 = a.getD i 0 / m.power := by
      intro i
      rw [List.getD_eq_getElem?_getD, List.getD_eq_getElem?_getD, List.getElem?_map]
      cases a[i]? <;> simp
    rw [multi_eq _ (k := k) (by simpa using ha)]
    simp only [hg, expo_apply]
    rw [hf, list_range_prod, Finset.prod_range]
    congr 1
    apply Finset.prod_congr rfl
    intro j _
    split <;> simp
  · rw [if_neg (fun hc => h (hdvd.mp hc.1)), if_neg h]

theorem mnPoly_coeff_expo {k : Nat} {m : Multinom} (hm : MnOk k m) {a : List Nat} (ha : a.length = k)
    (hs : a.sum = m.powersum) : coeff (expo k a) (mnPoly k m) = nck m a :=
  mnPoly_coeff_expo' hm.power hm.flags ha hs

end Phenum
