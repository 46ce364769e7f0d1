import Verif.Proof.Hash
/-
Multi-colour numbering: `invhash` and the level-by-level digits are mutually inverse.
-/
namespace Phenum
open Spec

/-- Labelling with colours `col+1 .. col+k`. -/
def Lab (col : Nat) (concs x : List Nat) : Prop :=
  (∀ v ∈ x, col < v ∧ v ≤ col + concs.length) ∧
  ∀ (i : Nat) (h : i < concs.length), x.count (col + i + 1) = concs[i]

theorem lab_zero (concs x : List Nat) : IsLabelling concs x ↔ Lab 0 concs x := by
  unfold IsLabelling Lab
  simp only [Nat.zero_add]
  exact Iff.rfl

/-- digit of level `i`. -/
def digit (i : Nat) (x : List Nat) : Nat := rank (levelRow i x)

/-- digits of the levels `col, ..., col+k-1`. -/
def digitsFrom (col : Nat) : Nat → List Nat → List Nat
  | 0, _ => []
  | k + 1, x => digit col x :: digitsFrom (col + 1) k x

/-- all digits. -/
def digits (k : Nat) (x : List Nat) : List Nat := digitsFrom 0 k x

/-- Fill the zeros of the first list with the second. -/
def mergeZ : List Nat → List Nat → List Nat
  | [], _ => []
  | x :: xs, ys =>
    if x = 0 then
      match ys with
      | [] => x :: mergeZ xs []
      | y :: ys => y :: mergeZ xs ys
    else x :: mergeZ xs ys

theorem mergeZ_zero (xs : List Nat) (y : Nat) (ys : List Nat) :
    mergeZ (0 :: xs) (y :: ys) = y :: mergeZ xs ys := by simp [mergeZ]

theorem mergeZ_pos (x : Nat) (hx : x ≠ 0) (xs ys : List Nat) :
    mergeZ (x :: xs) ys = x :: mergeZ xs ys := by
  simp [mergeZ, hx]

theorem fillZeros_eq (a b : List Nat) (h : a.count 0 ≤ b.length) :
    fillZeros a b = .ok (mergeZ a b) := by
  induction a generalizing b with
  | nil => rfl
  | cons x a ih =>
    by_cases hx : x = 0
    · subst hx
      rw [List.count_cons_self] at h
      cases b with
      | nil => simp at h
      | cons y b =>
        simp only [fillZeros, if_true]
        rw [ih b (by simpa using h), mergeZ_zero]; rfl
    · rw [List.count_cons_of_ne hx] at h
      simp only [fillZeros, if_neg hx]
      rw [ih b h, mergeZ_pos x hx]; rfl

theorem mergeZ_replicate (x : List Nat) : mergeZ (List.replicate x.length 0) x = x := by
  induction x with
  | nil => rfl
  | cons y x ih => rw [List.length_cons, List.replicate_succ, mergeZ_zero, ih]

theorem mergeZ_assoc (a b c : List Nat) (h : a.count 0 = b.length) (h2 : b.count 0 = c.length) :
    mergeZ (mergeZ a b) c = mergeZ a (mergeZ b c) := by
  induction a generalizing b c with
  | nil => rfl
  | cons x a ih =>
    by_cases hx : x = 0
    · subst hx
      rw [List.count_cons_self] at h
      cases b with
      | nil => simp at h
      | cons y b =>
        rw [List.length_cons] at h
        rw [mergeZ_zero]
        by_cases hy : y = 0
        · subst hy
          rw [List.count_cons_self] at h2
          cases c with
          | nil => simp at h2
          | cons z c =>
            rw [mergeZ_zero, mergeZ_zero, mergeZ_zero, ih b c (by omega) (by simpa using h2)]
        · rw [List.count_cons_of_ne hy] at h2
          rw [mergeZ_pos y hy, mergeZ_pos y hy, mergeZ_zero, ih b c (by omega) h2]
    · rw [List.count_cons_of_ne hx] at h
      rw [mergeZ_pos x hx, mergeZ_pos x hx, mergeZ_pos x hx, ih b c h h2]

theorem mergeZ_count_zero (a b : List Nat) (h : a.count 0 = b.length) :
    (mergeZ a b).count 0 = b.count 0 := by
  induction a generalizing b with
  | nil => cases b with
    | nil => rfl
    | cons => simp at h
  | cons x a ih =>
    by_cases hx : x = 0
    · subst hx
      rw [List.count_cons_self] at h
      cases b with
      | nil => simp at h
      | cons y b =>
        rw [mergeZ_zero, List.count_cons, List.count_cons, ih b (by simpa using h)]
    · rw [List.count_cons_of_ne hx] at h
      rw [mergeZ_pos x hx, List.count_cons_of_ne hx, ih b h]

theorem mergeZ_no_zero (a : List Nat) (h : a.count 0 = 0) (b : List Nat) : mergeZ a b = a := by
  induction a generalizing b with
  | nil => rfl
  | cons x a ih =>
    have hx : x ≠ 0 := by
      rintro rfl
      simp at h
    rw [List.count_cons_of_ne hx] at h
    rw [mergeZ_pos x hx, ih h]

/-- The row of the first colour of `x`. -/
def rowOf (c : Nat) (x : List Nat) : List Nat := x.map (fun v => if v = c then c else 0)

theorem rowOf_count_zero (c : Nat) (hc : 0 < c) (x : List Nat) (h : ∀ v ∈ x, c ≤ v) :
    (rowOf c x).count 0 = (x.filter (fun v => c < v)).length := by
  induction x with
  | nil => rfl
  | cons v x ih =>
    have ih := ih (fun w hw => h w (List.mem_cons_of_mem _ hw))
    have hv := h v (by simp)
    unfold rowOf at ih ⊢
    by_cases e : v = c
    · subst e
      simp [ih, List.count_cons]; omega
    · have : c < v := by omega
      simp [e, this, ih]

theorem mergeZ_row (c : Nat) (hc : 0 < c) (x : List Nat) (h : ∀ v ∈ x, c ≤ v) :
    mergeZ (rowOf c x) (x.filter (fun v => c < v)) = x := by
  induction x with
  | nil => rfl
  | cons v x ih =>
    have ih := ih (fun w hw => h w (List.mem_cons_of_mem _ hw))
    have hv := h v (by simp)
    unfold rowOf at ih ⊢
    by_cases e : v = c
    · subst e
      rw [List.map_cons, if_pos rfl, mergeZ_pos _ (by omega), List.filter_cons_of_neg (by simp), ih]
    · have : c < v := by omega
      rw [List.map_cons, if_neg e, List.filter_cons_of_pos (by simpa using this), mergeZ_zero, ih]

theorem levelRow_full (col : Nat) (x : List Nat) (h : ∀ v ∈ x, col < v) :
    levelRow col x = x.map (fun v => if v = col + 1 then 1 else 0) := by
  unfold levelRow
  rw [List.filter_eq_self.mpr (by simpa using h)]

theorem levelRow_filter (i col : Nat) (h : col ≤ i) (x : List Nat) :
    levelRow i (x.filter (fun v => col < v)) = levelRow i x := by
  unfold levelRow
  rw [List.filter_filter]
  congr 1
  apply List.filter_congr
  intro v _
  simp only [← Bool.decide_and, decide_eq_decide]
  omega

theorem digitsFrom_filter (col c k : Nat) (h : c ≤ col) (x : List Nat) :
    digitsFrom col k (x.filter (fun v => c < v)) = digitsFrom col k x := by
  induction k generalizing col with
  | zero => rfl
  | succ k ih =>
    simp only [digitsFrom, digit]
    rw [levelRow_filter _ _ h, ih (col + 1) (by omega)]

theorem isBinary_levelRow (i : Nat) (x : List Nat) : IsBinary (levelRow i x) := by
  intro v hv
  obtain ⟨w, -, rfl⟩ := List.mem_map.mp hv
  split <;> simp

theorem levelRow_count (i : Nat) (x : List Nat) : (levelRow i x).count 1 = x.count (i + 1) := by
  induction x with
  | nil => rfl
  | cons v x ih =>
    unfold levelRow at ih ⊢
    by_cases h : i < v
    · rw [List.filter_cons_of_pos (by simpa using h), List.map_cons, List.count_cons, List.count_cons, ih]
      by_cases e : v = i + 1
      · simp [e]
      · simp [e]
    · rw [List.filter_cons_of_neg (by simpa using h), ih, List.count_cons_of_ne (by omega)]

theorem lab_tail {col c : Nat} {cs x : List Nat} (h : Lab col (c :: cs) x) :
    Lab (col + 1) cs (x.filter (fun v => col + 1 < v)) := by
  constructor
  · intro v hv
    have := List.mem_filter.mp hv
    have h1 := h.1 v this.1
    simp at this h1
    omega
  · intro i hi
    have h2 := h.2 (i + 1) (by simp; omega)
    simp only [List.getElem_cons_succ] at h2
    rw [List.count_filter (by simp), ← h2]
    congr 1; omega

theorem lab_length {col : Nat} {cs x : List Nat} (h : Lab col cs x) : x.length = cs.sum := by
  induction cs generalizing col x with
  | nil =>
    cases x with
    | nil => rfl
    | cons v x => have := h.1 v (by simp); simp at this; omega
  | cons c cs ih =>
    have h1 := ih (lab_tail h)
    have h2 := h.2 0 (by simp)
    simp at h2
    have h3 : x.length = x.count (col + 1) + (x.filter (fun v => col + 1 < v)).length := by
      have h4 := h.1
      clear h1 h2 h ih
      induction x with
      | nil => rfl
      | cons v x ih =>
        have ih := ih (fun w hw => h4 w (List.mem_cons_of_mem _ hw))
        have hv := (h4 v (by simp)).1
        by_cases e : v = col + 1
        · subst e
          rw [List.count_cons_self, List.filter_cons_of_neg (by simp), List.length_cons, ih]; omega
        · rw [List.count_cons_of_ne e, List.filter_cons_of_pos (by simp; omega), List.length_cons,
            List.length_cons, ih]; omega
    rw [h3, h1, h2]; simp

theorem invhashRow_lab {col c : Nat} {cs x : List Nat} (h : Lab col (c :: cs) x) :
    invhashRow (col + 1) x.length (digit col x) (c : Nat) = rowOf (col + 1) x := by
  have h1 : levelRow col x = x.map (fun v => if v = col + 1 then 1 else 0) :=
    levelRow_full col x (fun v hv => (h.1 v hv).1)
  have h2 : (levelRow col x).count 1 = c := by
    rw [levelRow_count]; have := h.2 0 (by simp); simpa using this
  have h3 := invhashRow_rank (col + 1) (levelRow col x) (isBinary_levelRow col x)
  rw [h2] at h3
  have h4 : (levelRow col x).length = x.length := by rw [h1]; simp
  rw [h4] at h3
  unfold digit
  rw [h3, h1, List.map_map]
  unfold rowOf
  apply List.map_congr_left
  intro v _
  by_cases e : v = col + 1 <;> simp [e]

theorem invhashLoop_lab (cs : List Nat) (col : Nat) (x new : List Nat) (h : Lab col cs x)
    (hn : new.count 0 = x.length) :
    invhashLoop (digitsFrom col cs.length x) cs (cs.sum : Nat) (col + 1) new = .ok (mergeZ new x) := by
  induction cs generalizing col x new with
  | nil =>
    have hx := lab_length h
    have : x = [] := List.length_eq_zero_iff.mp (by simpa using hx)
    subst this
    simp only [List.length_nil, digitsFrom, invhashLoop]
    rw [mergeZ_no_zero _ (by simpa using hn)]
  | cons c cs ih =>
    have hx := lab_length h
    have ht := lab_tail h
    have htl := lab_length ht
    have hge : ∀ v ∈ x, col + 1 ≤ v := fun v hv => (h.1 v hv).1
    simp only [List.length_cons, digitsFrom, invhashLoop]
    rw [show ((List.sum (c :: cs) : Nat) : Int).toNat = x.length by rw [hx]; rfl, invhashRow_lab h]
    have hl : (rowOf (col + 1) x).length = x.length := by simp [rowOf]
    rw [fillZeros_eq _ _ (by rw [hn, hl])]
    have hz : (mergeZ new (rowOf (col + 1) x)).count 0 = (x.filter (fun v => col + 1 < v)).length := by
      rw [mergeZ_count_zero _ _ (by rw [hn, hl]), rowOf_count_zero _ (by omega) _ hge]
    have := ih (col + 1) _ _ ht hz
    rw [digitsFrom_filter _ _ _ (Nat.le_refl _)] at this
    simp only [bind, Except.bind]
    rw [show ((List.sum (c :: cs) : Nat) : Int) - (c : Int) = ((cs.sum : Nat) : Int) by
      rw [List.sum_cons]; omega, this, mergeZ_assoc _ _ _ (by rw [hn, hl])
        (rowOf_count_zero _ (by omega) _ hge), mergeZ_row _ (by omega) _ hge]

theorem invhash_digits {concs x : List Nat} (h : IsLabelling concs x) :
    invhash (digits concs.length x) concs concs.sum = .ok x := by
  have h' := (lab_zero _ _).mp h
  have hl := lab_length h'
  unfold invhash digits
  rw [invhashLoop_lab concs 0 x _ h' (by simp [hl]), ← hl, mergeZ_replicate]

/-! Radix numbers -/

theorem coefficients_cons (c : Nat) (cs : List Nat) :
    coefficients (c :: cs) ((c :: cs).sum : Nat) = (c + cs.sum).choose c :: coefficients cs (cs.sum : Nat) := by
  simp only [coefficients]
  rw [binomN_nat, List.sum_cons, show (((c + cs.sum : Nat) : Int) - (c : Int)) = ((cs.sum : Nat) : Int) by omega]

theorem coefficients_length (cs : List Nat) (n : Int) : (coefficients cs n).length = cs.length := by
  induction cs generalizing n with
  | nil => rfl
  | cons c cs ih => simp [coefficients, ih]

theorem coefficients_prod (cs : List Nat) :
    (coefficients cs (cs.sum : Nat)).prod * (cs.map Nat.factorial).prod = cs.sum.factorial := by
  induction cs with
  | nil => rfl
  | cons c cs ih =>
    rw [coefficients_cons, List.prod_cons, List.map_cons, List.prod_cons, List.sum_cons,
      ← Nat.add_choose_mul_factorial_mul_factorial c cs.sum, ← ih,
      show (c + cs.sum).choose cs.sum = (c + cs.sum).choose c from (Nat.choose_symm_add).symm]
    ring

theorem digitsFrom_radix {col : Nat} {cs x : List Nat} (h : Lab col cs x) :
    IsRadixVec (coefficients cs (cs.sum : Nat)) (digitsFrom col cs.length x) := by
  induction cs generalizing col x with
  | nil => exact List.Forall₂.nil
  | cons c cs ih =>
    rw [coefficients_cons]
    simp only [List.length_cons, digitsFrom]
    refine List.Forall₂.cons ?_ ?_
    · have h1 := rank_lt _ (isBinary_levelRow col x)
      rw [levelRow_count] at h1
      have h2 := h.2 0 (by simp)
      simp at h2
      have h3 := lab_length h
      rw [h2] at h1
      have h4 : (levelRow col x).length = x.length := by
        rw [levelRow_full col x (fun v hv => (h.1 v hv).1)]; simp
      rw [h4, h3, List.sum_cons] at h1
      exact h1
    · have := ih (lab_tail h)
      rw [digitsFrom_filter _ _ _ (Nat.le_refl _)] at this
      exact this

theorem digits_radix {concs x : List Nat} (h : IsLabelling concs x) :
    IsRadixVec (coefficients concs (concs.sum : Nat)) (digits concs.length x) :=
  digitsFrom_radix ((lab_zero _ _).mp h)

/-- Combine a row for colour `c` and a labelling of the other sites. -/
theorem combine_props (c : Nat) (hc : 0 < c) (r x' : List Nat) (hr : IsBinary r)
    (hx : ∀ v ∈ x', c < v) (hl : r.count 0 = x'.length) :
    let x := mergeZ (r.map (fun v => if v = 1 then c else 0)) x'
    x.filter (fun v => c < v) = x' ∧ x.map (fun v => if v = c then 1 else 0) = r ∧
      (∀ v ∈ x, v = c ∨ v ∈ x') ∧ x.count c = r.count 1 := by
  induction r generalizing x' with
  | nil =>
    have : x' = [] := List.length_eq_zero_iff.mp (by simpa using hl.symm)
    subst this
    simp [mergeZ]
  | cons v r ih =>
    have hr' : IsBinary r := fun w hw => hr w (List.mem_cons_of_mem _ hw)
    rcases hr v (by simp) with rfl | rfl
    · cases x' with
      | nil => simp at hl
      | cons y x' =>
        have hy : c < y := hx y (by simp)
        obtain ⟨h1, h2, h3, h4⟩ := ih x' hr' (fun w hw => hx w (List.mem_cons_of_mem _ hw))
          (by simpa using hl)
        simp only [List.map_cons, if_neg (show ¬ (0 : Nat) = 1 by decide), mergeZ_zero]
        refine ⟨?_, ?_, ?_, ?_⟩
        · rw [List.filter_cons_of_pos (by simpa using hy), h1]
        · rw [if_neg (by omega), h2]
        · intro w hw
          rcases List.mem_cons.mp hw with rfl | hw
          · simp
          · rcases h3 w hw with h | h
            · exact Or.inl h
            · exact Or.inr (List.mem_cons_of_mem _ h)
        · rw [List.count_cons_of_ne (by omega), List.count_cons_of_ne (by decide), h4]
    · obtain ⟨h1, h2, h3, h4⟩ := ih x' hr' hx (by simpa using hl)
      simp only [List.map_cons, if_true, mergeZ_pos c (by omega)]
      refine ⟨?_, ?_, ?_, ?_⟩
      · rw [List.filter_cons_of_neg (by simp), h1]
      · rw [h2]
      · intro w hw
        rcases List.mem_cons.mp hw with rfl | hw
        · exact Or.inl rfl
        · exact h3 w hw
      · rw [List.count_cons_self, List.count_cons_self, h4]

theorem exists_lab (cs : List Nat) (col : Nat) (d : List Nat)
    (h : IsRadixVec (coefficients cs (cs.sum : Nat)) d) :
    ∃ x, Lab col cs x ∧ digitsFrom col cs.length x = d := by
  induction cs generalizing col d with
  | nil =>
    cases h
    exact ⟨[], ⟨by simp, by simp⟩, rfl⟩
  | cons c cs ih =>
    rw [coefficients_cons] at h
    cases h with
    | @cons d0 _ ds _ h0 hs =>
    obtain ⟨x', hx', hd'⟩ := ih (col + 1) ds hs
    obtain ⟨r, -, hr2, hr3, hr4, hr5⟩ := invhashRow_spec (col + 1) _ _ _ h0
    have hx'l := lab_length hx'
    have hcount : r.count 0 + r.count 1 = r.length := by
      clear hr2 hr4 hr5
      induction r with
      | nil => rfl
      | cons v r ih =>
        have ih := ih (fun w hw => hr3 w (List.mem_cons_of_mem _ hw))
        rcases hr3 v (by simp) with rfl | rfl
        · rw [List.count_cons_self, List.count_cons_of_ne (by decide), List.length_cons]; omega
        · rw [List.count_cons_self, List.count_cons_of_ne (by decide), List.length_cons]; omega
    have hgt : ∀ v ∈ x', col + 1 < v := fun v hv => (hx'.1 v hv).1
    obtain ⟨h1, h2, h3, h4⟩ := combine_props (col + 1) (by omega) r x' hr3 hgt (by omega)
    refine ⟨mergeZ (r.map (fun v => if v = 1 then col + 1 else 0)) x', ⟨?_, ?_⟩, ?_⟩
    · intro v hv
      rcases h3 v hv with rfl | hv
      · simp
      · have := hx'.1 v hv
        simp only [List.length_cons]; omega
    · intro i hi
      cases i with
      | zero => simp only [Nat.add_zero, List.getElem_cons_zero]; rw [h4, hr4]
      | succ i =>
        simp only [List.length_cons, Nat.add_lt_add_iff_right] at hi
        have := hx'.2 i hi
        rw [List.getElem_cons_succ, ← this, ← h1, List.count_filter (by simp), h1]
        congr 1; omega
    · simp only [List.length_cons, digitsFrom]
      congr 1
      · unfold digit
        rw [levelRow_full, h2, hr5]
        intro v hv
        rcases h3 v hv with rfl | hv
        · omega
        · have := hgt v hv; omega
      · rw [← hd', ← digitsFrom_filter _ (col + 1) _ (Nat.le_refl _) (mergeZ _ _), h1]

theorem exists_labelling {concs d : List Nat} (h : IsRadixVec (coefficients concs (concs.sum : Nat)) d) :
    ∃ x, IsLabelling concs x ∧ digits concs.length x = d := by
  obtain ⟨x, h1, h2⟩ := exists_lab concs 0 d h
  exact ⟨x, (lab_zero _ _).mpr h1, h2⟩

theorem digits_getElem? (k i : Nat) (x : List Nat) (h : i < k) : (digits k x)[i]? = some (digit i x) := by
  have key : ∀ col k i, i < k → (digitsFrom col k x)[i]? = some (digit (col + i) x) := by
    intro col k
    induction k generalizing col with
    | zero => intro i h; omega
    | succ k ih =>
      intro i h
      cases i with
      | zero => simp [digitsFrom]
      | succ i =>
        simp only [digitsFrom, List.getElem?_cons_succ]
        rw [ih (col + 1) i (by omega)]
        congr 2; omega
  have := key 0 k i h
  rwa [Nat.zero_add] at this

theorem digits_length (k : Nat) (x : List Nat) : (digits k x).length = k := by
  have key : ∀ col k, (digitsFrom col k x).length = k := by
    intro col k
    induction k generalizing col with
    | zero => rfl
    | succ k ih => simp [digitsFrom, ih]
  exact key 0 k

end Phenum
