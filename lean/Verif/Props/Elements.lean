import Verif.Model.Elements
import Verif.Spec.Lattice
import Mathlib.Tactic.Linarith
import Mathlib.Tactic.Ring
import Mathlib.Tactic.FieldSimp
import Mathlib.Tactic.Positivity
import Mathlib.Algebra.BigOperators.Group.List.Basic
/-
C42: the lattice parameter.
-/
namespace Phenum
open Spec

theorem elementTable_pos : ∀ p ∈ elementTable, 0 < p.2 := by decide +kernel

theorem elementVolume_pos {e : String} {v : ℚ} (h : elementVolume e = .ok v) : 0 < v := by
  unfold elementVolume at h
  split at h
  · next p hp =>
    simp only [Except.ok.injEq] at h
    subst h
    exact elementTable_pos p (List.mem_reverse.mp (List.mem_of_find?_eq_some hp))
  · simp at h

/-- `a` is the lattice parameter of the element `e`: scaling the lattice by `a` gives each of the `n` atoms of the cell
the volume of the element. -/
def IsElementParam (A : M3 ℝ) (n : ℕ) (e : String) (a : ℝ) : Prop :=
  0 < a ∧ ∃ v : ℚ, elementVolume e = .ok v ∧ |(a • A).det| = n * v

theorem latParamElement_spec {A : M3 ℝ} (hA : A.det ≠ 0) {n : ℕ} (hn : 0 < n) {e : String} {v : ℚ}
    (h : elementVolume e = .ok v) : ∃ a, latParamElement A n e = .ok a ∧ IsElementParam A n e a := by
  have hv : (0 : ℝ) < v := by exact_mod_cast elementVolume_pos h
  have hn' : (0 : ℝ) < n := by exact_mod_cast hn
  have hl : 0 < |A.det / n| := abs_pos.mpr (div_ne_zero hA hn'.ne')
  refine ⟨((v : ℝ) / |A.det / n|) ^ (1 / 3 : ℝ), by simp [latParamElement, h, bind, Except.bind], by positivity, v, h, ?_⟩
  set x := (v : ℝ) / |A.det / n|
  have hx : 0 < x := by positivity
  have h3 : (x ^ (1 / 3 : ℝ)) ^ 3 = x := by
    rw [← Real.rpow_natCast, ← Real.rpow_mul hx.le]
    norm_num
  rw [Matrix.det_smul, Fintype.card_fin, h3, abs_mul, abs_of_pos hx]
  simp only [x]
  rw [abs_div, abs_of_pos hn']
  have : 0 < |A.det| := abs_pos.mpr hA
  field_simp

theorem isElementParam_unique {A : M3 ℝ} (hA : A.det ≠ 0) {n : ℕ} {e : String} {a b : ℝ}
    (ha : IsElementParam A n e a) (hb : IsElementParam A n e b) : a = b := by
  obtain ⟨ha0, v, hv, h1⟩ := ha
  obtain ⟨hb0, w, hw, h2⟩ := hb
  rw [hv] at hw
  obtain rfl := Except.ok.inj hw
  rw [← h2, Matrix.det_smul, Matrix.det_smul, Fintype.card_fin, abs_mul, abs_mul] at h1
  have h3 := mul_right_cancel₀ (abs_ne_zero.mpr hA) h1
  rw [abs_of_pos (pow_pos ha0 3), abs_of_pos (pow_pos hb0 3)] at h3
  exact (pow_left_inj₀ ha0.le hb0.le (by norm_num)).mp h3

theorem latParamLoop_spec {A : M3 ℝ} (hA : A.det ≠ 0) {n : ℕ} (hn : 0 < n) (rz : Bool) (param : String → ℝ) :
    ∀ (l : List (String × ℕ)) (s : ℝ) (t : List String), (∀ p ∈ l, IsElementParam A n p.1 (param p.1)) →
    latParamLoop A n rz l s t = .ok (s + (l.map (fun p => (p.2 : ℝ) * param p.1)).sum,
      t ++ (l.filter (fun p => decide (0 < p.2) || !rz)).map Prod.fst)
  | [], s, t, _ => by simp [latParamLoop]
  | (e, c) :: rest, s, t, h => by
    have he := h (e, c) (by simp)
    obtain ⟨-, v, hv, -⟩ := id he
    obtain ⟨a, h1, h2⟩ := latParamElement_spec hA hn hv
    have : a = param e := isElementParam_unique hA h2 he
    subst this
    unfold latParamLoop
    rw [h1]
    simp only [bind, Except.bind]
    rw [latParamLoop_spec hA hn rz param rest _ _ (fun p hp => h p (by simp [hp]))]
    congr 2
    · simp only [List.map_cons, List.sum_cons]; ring
    · by_cases hc : 0 < c
      · simp [hc]
      · cases rz <;> simp [hc]

/-- C42. The number of element names has to match the number of species. -/
theorem C42_wrong_number (els : List String) (concs : List ℕ) (h : els.length ≠ concs.length) (A : M3 ℝ) (n : ℕ) (rz : Bool) :
    latticeParameter (some els) concs A n rz = .error .valueError := by
  simp [latticeParameter, h]

/-- C42. Without element names the lattice parameter is 1. -/
theorem C42_default (concs : List ℕ) (A : M3 ℝ) (n : ℕ) (rz : Bool) :
    latticeParameter none concs A n rz = .ok (1, []) := rfl

/-- C42. Let `param e` be the lattice parameter of the element `e`. The result is the mean of the elemental lattice
parameters weighted with the concentrations, it lies between any bounds of the parameters of the elements present, and
the title lists the elements present, or all elements unless `remove_zeros` is set. -/
theorem C42_vegard (els : List String) (concs : List ℕ) (hl : els.length = concs.length) (A : M3 ℝ) (hA : A.det ≠ 0) (n : ℕ)
    (hn : 0 < n) (rz : Bool) (param : String → ℝ) (hp : ∀ e ∈ els, IsElementParam A n e (param e)) (hs : 0 < concs.sum) :
    ∃ a, latticeParameter (some els) concs A n rz =
        .ok (a, ((els.zip concs).filter (fun p => decide (0 < p.2) || !rz)).map Prod.fst) ∧
      a * concs.sum = ((els.zip concs).map (fun p => (p.2 : ℝ) * param p.1)).sum ∧
      (∀ lo hi, (∀ p ∈ els.zip concs, 0 < p.2 → lo ≤ param p.1 ∧ param p.1 ≤ hi) → lo ≤ a ∧ a ≤ hi) := by
  have hs' : (0 : ℝ) < concs.sum := by exact_mod_cast hs
  set T := ((els.zip concs).map (fun p => (p.2 : ℝ) * param p.1)).sum with hT
  have hval : T / concs.sum * concs.sum = T := by field_simp
  refine ⟨T / concs.sum, ?_, hval, ?_⟩
  · unfold latticeParameter
    simp only [hl, ne_eq, not_true_eq_false, if_false]
    rw [latParamLoop_spec hA hn rz param _ _ _ (fun p hp' => hp p.1 (List.of_mem_zip hp').1)]
    simp only [bind, Except.bind, hs.ne', if_false, zero_add, List.nil_append]
    rfl
  · intro lo hi hb
    have hsum : (((els.zip concs).map (fun p => (p.2 : ℝ))).sum) = concs.sum := by
      have : (els.zip concs).map (fun p => (p.2 : ℝ)) = concs.map (fun c : ℕ => (c : ℝ)) := by
        have h2 : (els.zip concs).map Prod.snd = concs := List.map_snd_zip (by omega)
        conv_rhs => rw [← h2]
        rw [List.map_map]
        rfl
      rw [this]
      exact (map_list_sum (Nat.castRingHom ℝ) concs).symm
    have hlo : ∀ l : List (String × ℕ), (∀ p ∈ l, 0 < p.2 → lo ≤ param p.1 ∧ param p.1 ≤ hi) →
        lo * (l.map (fun p => (p.2 : ℝ))).sum ≤ (l.map (fun p => (p.2 : ℝ) * param p.1)).sum ∧
        (l.map (fun p => (p.2 : ℝ) * param p.1)).sum ≤ hi * (l.map (fun p => (p.2 : ℝ))).sum := by
      intro l
      induction l with
      | nil => intro _; simp
      | cons p l ih =>
        intro h
        obtain ⟨i1, i2⟩ := ih (fun q hq => h q (by simp [hq]))
        simp only [List.map_cons, List.sum_cons]
        rcases Nat.eq_zero_or_pos p.2 with h0 | h0
        · rw [h0]
          simp only [Nat.cast_zero, zero_mul, zero_add]
          exact ⟨i1, i2⟩
        · obtain ⟨j1, j2⟩ := h p (by simp) h0
          have : (0 : ℝ) < p.2 := by exact_mod_cast h0
          constructor <;> nlinarith
    obtain ⟨k1, k2⟩ := hlo _ hb
    rw [hsum] at k1 k2
    exact ⟨(le_div_iff₀ hs').mpr k1, (div_le_iff₀ hs').mpr k2⟩

/-- C42. An element the table does not know is reported. -/
theorem C42_unknown (els : List String) (concs : List ℕ) (hl : els.length = concs.length) (A : M3 ℝ) (n : ℕ) (rz : Bool)
    (e : String) (he : e ∈ els) (hu : elementVolume e = .error .keyError) :
    latticeParameter (some els) concs A n rz = .error .keyError := by
  have key : ∀ (l : List (String × ℕ)) (s : ℝ) (t : List String), e ∈ l.map Prod.fst →
      latParamLoop A n rz l s t = .error .keyError := by
    intro l
    induction l with
    | nil => intro _ _ h; simp at h
    | cons p l ih =>
      intro s t h
      unfold latParamLoop latParamElement
      have hcases : ∀ x, elementVolume x = .error .keyError ∨ ∃ v, elementVolume x = .ok v := by
        intro x
        unfold elementVolume
        split
        · right; exact ⟨_, rfl⟩
        · left; rfl
      rcases hcases p.1 with h1 | ⟨v, h1⟩
      · simp [h1, bind, Except.bind]
      · simp only [h1, bind, Except.bind]
        apply ih
        rw [List.map_cons, List.mem_cons] at h
        rcases h with h | h
        · rw [← h, hu] at h1; simp at h1
        · exact h
  unfold latticeParameter
  simp only [hl, ne_eq, not_true_eq_false, if_false]
  rw [key _ _ _ (by rw [List.map_fst_zip (by omega)]; exact he)]
  rfl

/-- C42. Finding: lead is not in the table, and palladium has the volume of lead (the key `Pd` occurs twice). -/
theorem C42_lead_missing : elementVolume "Pb" = .error .keyError ∧ elementVolume "Pd" = .ok 30.3218 ∧
    ("Pd", (14.716 : ℚ)) ∈ elementTable := by
  decide +kernel

/-- A binary alloy on the simple cubic lattice. -/
example : ∃ a, latticeParameter (some ["Al", "Ni"]) [1, 3] 1 1 false = .ok (a, ["Al", "Ni"]) ∧ 2 ≤ a ∧ a ≤ 3 := by
  have hAl : elementVolume "Al" = .ok 16.6075 := by decide +kernel
  have hNi : elementVolume "Ni" = .ok 10.9036 := by decide +kernel
  obtain ⟨a, -, ha⟩ := latParamElement_spec (A := 1) (by simp) (n := 1) one_pos hAl
  obtain ⟨b, -, hb⟩ := latParamElement_spec (A := 1) (by simp) (n := 1) one_pos hNi
  have hbd : ∀ x : ℝ, ∀ v : ℚ, ∀ e, elementVolume e = .ok v → 8 ≤ v → v ≤ 27 → IsElementParam 1 1 e x → 2 ≤ x ∧ x ≤ 3 := by
    rintro x v e he h8 h27 ⟨hx, w, hw, h⟩
    rw [he] at hw
    obtain rfl := Except.ok.inj hw
    rw [Matrix.det_smul, Fintype.card_fin, Matrix.det_one, mul_one, abs_of_pos (pow_pos hx 3), Nat.cast_one, one_mul] at h
    have h8' : (8 : ℝ) ≤ v := by exact_mod_cast h8
    have h27' : (v : ℝ) ≤ 27 := by exact_mod_cast h27
    constructor
    · by_contra hc; push Not at hc
      have := pow_lt_pow_left₀ hc hx.le (n := 3) (by norm_num)
      norm_num at this; linarith
    · by_contra hc; push Not at hc
      have := pow_lt_pow_left₀ hc (by norm_num) (n := 3) (by norm_num)
      norm_num at this; linarith
  obtain ⟨r, h1, -, h3⟩ := C42_vegard ["Al", "Ni"] [1, 3] rfl 1 (by simp) 1 one_pos false
    (fun e => if e = "Al" then a else b) (by
      intro e he
      simp only [List.mem_cons, List.not_mem_nil, or_false] at he
      rcases he with rfl | rfl
      · simpa using ha
      · simpa using hb) (by simp)
  refine ⟨r, h1, h3 2 3 ?_⟩
  intro p hp _
  simp only [List.zip_cons_cons, List.zip_nil_right, List.mem_cons, List.not_mem_nil, or_false] at hp
  rcases hp with rfl | rfl
  · simpa using hbd a _ _ hAl (by norm_num) (by norm_num) ha
  · simpa using hbd b _ _ hNi (by norm_num) (by norm_num) hb

end Phenum
