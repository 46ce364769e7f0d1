import Verif.Model.PolyaFloat
import Verif.Proof.PolyaArrows
import Verif.Proof.Numerics
/-
Exactness of the floating-point count: all numbers stay below 2^53.
-/
namespace Phenum
open Spec

section
variable {fl : Rat → Rat}

/-- integers up to 2^53 are represented exactly -/
def ExactFl (fl : Rat → Rat) : Prop := ∀ z : Nat, z ≤ 2 ^ 53 → fl z = z

variable (hfl : ExactFl fl)
include hfl

theorem toFloat_val {x : PyNum} {a : Nat} (hx : x.val = a) (ha : a ≤ 2 ^ 53) : x.toFloat fl = a := by
  cases x with
  | int z =>
    simp only [PyNum.val] at hx
    simp only [PyNum.toFloat]
    rw [hx, hfl a ha]
  | float q => exact hx

theorem mul_val {x y : PyNum} {a b : Nat} (hx : x.val = a) (hy : y.val = b) (ha : a ≤ 2 ^ 53) (hb : b ≤ 2 ^ 53)
    (hab : a * b ≤ 2 ^ 53) : (x.mul fl y).val = (a * b : Nat) := by
  have h1 := toFloat_val hfl hx ha
  have h2 := toFloat_val hfl hy hb
  have key : fl (x.toFloat fl * y.toFloat fl) = (a * b : Nat) := by
    rw [h1, h2, ← Nat.cast_mul, hfl _ hab]
  cases x <;> cases y
  · simp only [PyNum.val] at hx hy
    simp only [PyNum.mul, PyNum.val]
    push_cast
    rw [hx, hy]
  all_goals exact key

theorem add_val {x y : PyNum} {a b : Nat} (hx : x.val = a) (hy : y.val = b) (hab : a + b ≤ 2 ^ 53) :
    (x.add fl y).val = (a + b : Nat) := by
  have h1 := toFloat_val hfl hx (by omega)
  have h2 := toFloat_val hfl hy (by omega)
  have key : fl (x.toFloat fl + y.toFloat fl) = (a + b : Nat) := by
    rw [h1, h2, ← Nat.cast_add, hfl _ hab]
  cases x <;> cases y
  · simp only [PyNum.val] at hx hy
    simp only [PyNum.add, PyNum.val]
    push_cast
    rw [hx, hy]
  all_goals exact key

theorem div_val {x y : PyNum} {a b c : Nat} (hx : x.val = a) (hy : y.val = b) (hb0 : 0 < b) (hc : a = c * b)
    (ha : a ≤ 2 ^ 53) (hb : b ≤ 2 ^ 53) : (x.div fl y).val = c := by
  have h1 := toFloat_val hfl hx ha
  have h2 := toFloat_val hfl hy hb
  have hcB : c ≤ 2 ^ 53 := le_trans (by rw [hc]; exact Nat.le_mul_of_pos_right _ hb0) ha
  have hq : (a : ℚ) / b = c := by
    rw [hc, Nat.cast_mul, mul_div_cancel_right₀]
    exact_mod_cast hb0.ne'
  have key : fl (x.toFloat fl / y.toFloat fl) = c := by
    rw [h1, h2, hq, hfl _ hcB]
  cases x <;> cases y
  · simp only [PyNum.val] at hx hy
    simp only [PyNum.div, PyNum.val]
    rw [hx, hy, hq, hfl _ hcB]
  all_goals exact key

omit hfl in
theorem toInt_val {x : PyNum} {a : Nat} (hx : x.val = a) : x.toInt = a := by
  cases x with
  | int z =>
    simp only [PyNum.val] at hx
    exact_mod_cast hx
  | float q =>
    simp only [PyNum.val] at hx
    simp only [PyNum.toInt]
    rw [hx, if_pos (by positivity)]
    exact Int.floor_natCast (R := ℚ) a

theorem foldl_mul_val {ι : Type} (l : List ι) (f : ι → PyNum) (g u : ι → Nat)
    (h : ∀ i ∈ l, (f i).val = g i ∧ g i ≤ u i ∧ 1 ≤ u i) {acc : PyNum} {a A : Nat} (hacc : acc.val = a) (ha : a ≤ A)
    (hA : 1 ≤ A) (hB : A * (l.map u).prod ≤ 2 ^ 53) :
    (l.foldl (fun acc i => acc.mul fl (f i)) acc).val = (a * (l.map g).prod : Nat) := by
  induction l generalizing acc a A with
  | nil => simpa using hacc
  | cons i l ih =>
    obtain ⟨h1, h2, h3⟩ := h i (by simp)
    have hl : ∀ j ∈ l, (f j).val = g j ∧ g j ≤ u j ∧ 1 ≤ u j := fun j hj => h j (List.mem_cons_of_mem _ hj)
    have hp : 1 ≤ (l.map u).prod := Nat.one_le_iff_ne_zero.mpr (by
      rw [Ne, List.prod_eq_zero_iff]
      intro h0
      obtain ⟨j, hj, e⟩ := List.mem_map.mp h0
      have := (hl j hj).2.2
      omega)
    rw [List.map_cons, List.prod_cons, ← Nat.mul_assoc] at hB
    have hAu : A * u i ≤ 2 ^ 53 := le_trans (Nat.le_mul_of_pos_right _ hp) hB
    have hau : a * g i ≤ A * u i := Nat.mul_le_mul ha h2
    rw [List.foldl_cons, ih hl (mul_val hfl hacc h1 (le_trans (le_trans ha (Nat.le_mul_of_pos_right _ h3)) hAu)
      (le_trans (le_trans h2 (Nat.le_mul_of_pos_left _ hA)) hAu) (le_trans hau hAu)) hau
      (Nat.mul_pos hA h3) hB, List.map_cons, List.prod_cons, Nat.mul_assoc]

theorem foldl_add_val {ι : Type} (l : List ι) (f : ι → PyNum) (g : ι → Nat) (h : ∀ i ∈ l, (f i).val = g i)
    {acc : PyNum} {a : Nat} (hacc : acc.val = a) (hB : a + (l.map g).sum ≤ 2 ^ 53) :
    (l.foldl (fun acc i => acc.add fl (f i)) acc).val = (a + (l.map g).sum : Nat) := by
  induction l generalizing acc a with
  | nil => simpa using hacc
  | cons i l ih =>
    rw [List.map_cons, List.sum_cons, ← Nat.add_assoc] at hB ⊢
    rw [List.foldl_cons]
    exact ih (fun j hj => h j (List.mem_cons_of_mem _ hj)) (add_val hfl hacc (h i (by simp)) (by omega)) hB

omit hfl in
theorem nchoosekLoopF_append (n : Int) (l m : List Int) (t : PyNum) :
    nchoosekLoopF fl n (l ++ m) t = nchoosekLoopF fl n m (nchoosekLoopF fl n l t) := by
  induction l generalizing t with
  | nil => rfl
  | cons i l ih => exact ih _

theorem nchoosekLoopF_val (n j : Nat) (hj : j ≤ n) (hn : n ≤ 2 ^ 53)
    (hb : ∀ i, i ≤ j → n.choose i ≤ 2 ^ 53 ∧ i * n.choose i ≤ 2 ^ 53) :
    (nchoosekLoopF fl n ((List.range j).map (fun (i : Nat) => (n : Int) - (i : Int))) (.int 1)).val = (n.choose j : Nat) := by
  induction j with
  | zero => simp [nchoosekLoopF, PyNum.val]
  | succ j ih =>
    rw [List.range_succ, List.map_append, nchoosekLoopF_append]
    simp only [List.map_cons, List.map_nil, nchoosekLoopF]
    have h3 := Nat.choose_succ_right_eq n j
    have hb1 := hb (j + 1) le_rfl
    have h1 : (PyNum.int ((n : Int) - ((n : Int) - (j : Int)) + 1)).val = ((j + 1 : Nat) : ℚ) := by
      simp only [PyNum.val]; push_cast; ring
    have h2 : (PyNum.int ((n : Int) - (j : Int))).val = ((n - j : Nat) : ℚ) := by
      simp only [PyNum.val]; push_cast [Nat.cast_sub (show j ≤ n by omega)]; ring
    have hm := mul_val hfl (ih (by omega) (fun i hi => hb i (by omega))) h2 (hb j (by omega)).1 (by omega)
      (by rw [← h3, Nat.mul_comm]; exact hb1.2)
    exact div_val hfl hm h1 (by omega) h3.symm (by rw [← h3, Nat.mul_comm]; exact hb1.2) (by omega)

theorem nchoosekF_val (n k : Nat) (hn : n ≤ 2 ^ 53) (hk : k ≤ n) (hb1 : n.choose k ≤ 2 ^ 53)
    (hb : min k (n - k) * n.choose k ≤ 2 ^ 53) : (nchoosekF fl n k).val = (n.choose k : Nat) := by
  unfold nchoosekF
  rw [if_neg (by omega)]
  by_cases h0 : (k : Int) = 0 ∧ (n : Int) = 0
  · rw [if_pos h0]
    have h1 : k = 0 := by omega
    have h2 : n = 0 := by omega
    simp [h1, h2, PyNum.val]
  · rw [if_neg h0]
    unfold pyRangeDown
    by_cases h1 : (k : Int) < n - k
    · rw [if_pos h1, show ((n : Int) - (n - k)).toNat = k by omega]
      refine nchoosekLoopF_val hfl n k hk hn (fun i hi => ?_)
      have := choose_mono_half (n := n) (k := k) (by omega) i hi
      refine ⟨le_trans this hb1, le_trans (Nat.mul_le_mul hi this) ?_⟩
      rwa [min_eq_left (by omega)] at hb
    · rw [if_neg h1, show ((n : Int) - k).toNat = n - k by omega, nchoosekLoopF_val hfl n (n - k) (by omega) hn,
          Nat.choose_symm hk]
      intro i hi
      have := choose_mono_half (n := n) (k := n - k) (by omega) i hi
      rw [Nat.choose_symm hk] at this
      refine ⟨le_trans this hb1, le_trans (Nat.mul_le_mul hi this) ?_⟩
      rwa [min_eq_right (by omega)] at hb

omit hfl in
theorem multi_factor_pos (x : List Nat) (i : Nat) : 1 ≤ ((x.take (i + 1)).sum).choose (x.getD i 0) := by
  apply Nat.choose_pos
  by_cases h : i < x.length
  · rw [List.take_add_one, List.sum_append]
    simp [List.getElem?_eq_getElem h]
  · simp [List.getD_eq_getElem?_getD, List.getElem?_eq_none (Nat.le_of_not_lt h)]

omit hfl in
theorem multi_pos (x : List Nat) : 1 ≤ multi x := by
  unfold multi
  refine Nat.one_le_iff_ne_zero.mpr ?_
  rw [Ne, List.prod_eq_zero_iff]
  intro h0
  obtain ⟨j, -, e⟩ := List.mem_map.mp h0
  have := multi_factor_pos x j
  omega

omit hfl in
theorem factor_le_multi (x : List Nat) {i : Nat} (hi : i < x.length) : ((x.take (i + 1)).sum).choose (x.getD i 0) ≤ multi x := by
  unfold multi
  apply Nat.le_of_dvd
  · exact multi_pos x
  · exact List.dvd_prod (List.mem_map_of_mem (f := fun i => ((x.take (i + 1)).sum).choose (x.getD i 0)) (List.mem_range.mpr hi))

/-- the part of `nck` that comes from the arrows -/
def pcoeff (m : Multinom) (norm : List Nat) : Nat :=
  ((List.range m.arrowings.length).map (fun i => if m.arrowings.getD i false then m.coeff ^ (norm.getD i 0) else 1)).prod

theorem nchoosekmF_val (m : Multinom) (hp : 1 ≤ m.power) (a : List Nat)
    (h1 : max a.sum 1 * multi (a.map (fun s => s / m.power)) ≤ 2 ^ 53)
    (h2 : pcoeff m (a.map (fun s => s / m.power)) ≤ 2 ^ 53)
    (h3 : multi (a.map (fun s => s / m.power)) * pcoeff m (a.map (fun s => s / m.power)) ≤ 2 ^ 53) :
    (m.nchoosekmF fl a).val = (nck m a : Nat) := by
  unfold Multinom.nchoosekmF nck
  split
  case isFalse => simp [PyNum.val]
  case isTrue hall =>
  have hm1 := multi_pos (a.map (fun s => s / m.power))
  have hsum : a.sum ≤ 2 ^ 53 := le_trans (le_trans (le_max_left _ 1) (Nat.le_mul_of_pos_right _ hm1)) h1
  have hmB : multi (a.map (fun s => s / m.power)) ≤ 2 ^ 53 := le_trans (Nat.le_mul_of_pos_left _ (by omega)) h1
  have hnorm : normedSeqF fl m.power a = a.map (fun s => s / m.power) := by
    unfold normedSeqF
    apply List.map_congr_left
    intro s hs
    have hs' : s ≤ 2 ^ 53 := le_trans (List.single_le_sum (fun _ _ => Nat.zero_le _) s hs) hsum
    have hd : s % m.power = 0 := by
      rw [List.all_eq_true] at hall
      simpa using hall s hs
    have hq : ((s : ℚ)) / (m.power : ℚ) = ((s / m.power : Nat) : ℚ) := by
      rw [div_eq_iff (by exact_mod_cast (show m.power ≠ 0 by omega)), ← Nat.cast_mul, Nat.div_mul_cancel (Nat.dvd_of_mod_eq_zero hd)]
    have : ((PyNum.int s).div fl (.int m.power)).val = ((s / m.power : Nat) : ℚ) := by
      simp only [PyNum.div, PyNum.val]
      push_cast
      rw [hq, hfl _ (le_trans (Nat.div_le_self _ _) hs')]
    rw [toInt_val this]
    rfl
  rw [hnorm]
  simp only []
  generalize hn : a.map (fun s => s / m.power) = norm at *
  have hns : norm.sum ≤ a.sum := by
    rw [← hn]
    clear * -
    induction a with
    | nil => simp
    | cons x a ih =>
      rw [List.map_cons, List.sum_cons, List.sum_cons]
      exact Nat.add_le_add (Nat.div_le_self _ _) ih
  have hts : ∀ i, (norm.take (i + 1)).sum ≤ a.sum := by
    intro i
    refine le_trans ?_ hns
    conv_rhs => rw [← List.take_append_drop (i + 1) norm, List.sum_append]
    omega
  have hprod : ((List.range norm.length).foldl (fun (acc : PyNum) i =>
      acc.mul fl (nchoosekF fl ((norm.take (i + 1)).sum : Nat) (norm.getD i 0 : Nat))) (.int 1)).val = (1 * multi norm : Nat) := by
    refine foldl_mul_val hfl (List.range norm.length) _
      (fun i => ((norm.take (i + 1)).sum).choose (norm.getD i 0)) (fun i => ((norm.take (i + 1)).sum).choose (norm.getD i 0)) ?_
      (a := 1) (A := 1) (by simp [PyNum.val]) le_rfl le_rfl (by rw [one_mul]; exact hmB)
    intro i hi
    rw [List.mem_range] at hi
    have hf := factor_le_multi norm hi
    refine ⟨nchoosekF_val hfl _ _ (le_trans (hts i) hsum) ?_ (le_trans hf hmB) ?_, le_rfl, multi_factor_pos norm i⟩
    · rw [List.take_add_one, List.sum_append]
      simp [List.getElem?_eq_getElem hi]
    · refine le_trans (Nat.mul_le_mul ?_ hf) h1
      refine le_trans (min_le_right _ _) ?_
      have := hts i
      omega
  rw [one_mul] at hprod
  have e : (List.range m.arrowings.length).foldl (fun (acc : Nat) i => if m.arrowings.getD i false then
          acc * m.coeff ^ (norm.getD i 0) else acc) 1 = pcoeff m norm := by
    have : (fun (acc : Nat) i => if m.arrowings.getD i false then acc * m.coeff ^ (norm.getD i 0) else acc) =
        fun acc i => acc * (if m.arrowings.getD i false then m.coeff ^ (norm.getD i 0) else 1) := by
      funext acc i; split <;> simp
    rw [this, foldl_mul_prod, one_mul]
    rfl
  rw [e]
  exact mul_val hfl hprod (y := .int (pcoeff m norm : Nat)) (b := pcoeff m norm) (by simp only [PyNum.val]; push_cast; rfl) hmB h2 h3

end
end Phenum
