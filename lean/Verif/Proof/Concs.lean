import Verif.Model.Concs
import Verif.Proof.Loop
import Mathlib.Tactic.Ring
import Mathlib.Tactic.Linarith
/-
The odometer of `get_concs_for_size`.
-/
namespace Phenum

/-! ### Mixed radix counters -/

/-- Number of counters: the product of `d + 1`. -/
def odoVol : List ℕ → ℕ
  | [] => 1
  | d :: ds => (d + 1) * odoVol ds

/-- Position of a counter in the enumeration. -/
def odoRank : List ℕ → List ℕ → ℕ
  | _ :: ds, c :: cs => c * odoVol ds + odoRank ds cs
  | _, _ => 0

/-- Counters within the limits. -/
abbrev OdoValid (ds cs : List ℕ) : Prop := List.Forall₂ (fun c d => c ≤ d) cs ds

theorem odoVol_pos (ds : List ℕ) : 0 < odoVol ds := by
  induction ds with
  | nil => simp [odoVol]
  | cons d ds ih => exact Nat.mul_pos (by omega) ih

theorem odoRank_lt {ds cs : List ℕ} (h : OdoValid ds cs) : odoRank ds cs < odoVol ds := by
  induction h with
  | nil => simp [odoRank, odoVol]
  | @cons c d cs ds hcd h ih =>
    simp only [odoRank, odoVol]
    have : (c + 1) * odoVol ds ≤ (d + 1) * odoVol ds := Nat.mul_le_mul_right _ (by omega)
    rw [Nat.add_mul] at this
    omega

theorem odoRank_inj {ds : List ℕ} : ∀ {cs cs' : List ℕ}, OdoValid ds cs → OdoValid ds cs' →
    odoRank ds cs = odoRank ds cs' → cs = cs' := by
  induction ds with
  | nil => intro cs cs' h h' _; cases h; cases h'; rfl
  | cons d ds ih =>
    intro cs cs' h h' e
    cases h with
    | cons hcd h =>
      cases h' with
      | cons hcd' h' =>
        rename_i c cs c' cs'
        simp only [odoRank] at e
        have l1 := odoRank_lt h
        have l2 := odoRank_lt h'
        have hc : c = c' := by
          have e1 : (odoRank ds cs + odoVol ds * c) / odoVol ds = c := by
            rw [Nat.add_mul_div_left _ _ (odoVol_pos ds), Nat.div_eq_of_lt l1, Nat.zero_add]
          have e2 : (odoRank ds cs' + odoVol ds * c') / odoVol ds = c' := by
            rw [Nat.add_mul_div_left _ _ (odoVol_pos ds), Nat.div_eq_of_lt l2, Nat.zero_add]
          rw [← e1, ← e2, Nat.add_comm, Nat.mul_comm, e, Nat.add_comm, Nat.mul_comm]
        subst hc
        rw [ih h h' (by omega)]

theorem odoRank_append {P Q : List ℕ} (h : P.length = Q.length) (cs ds : List ℕ) :
    odoRank (Q ++ ds) (P ++ cs) = odoRank Q P * odoVol ds + odoRank ds cs := by
  induction P generalizing Q with
  | nil => cases Q with
    | nil => simp [odoRank]
    | cons _ _ => simp at h
  | cons c P ih => cases Q with
    | nil => simp at h
    | cons d Q =>
      simp only [List.length_cons, Nat.add_right_cancel_iff] at h
      simp only [List.cons_append, odoRank, ih h]
      have : odoVol (Q ++ ds) = odoVol Q * odoVol ds := by
        clear ih h
        induction Q with
        | nil => simp [odoVol]
        | cons q Q ihq => simp only [List.cons_append, odoVol, ihq]; ring
      rw [this]; ring

theorem odoRank_zeros (ds : List ℕ) (n : ℕ) : odoRank ds (List.replicate n 0) = 0 := by
  induction ds generalizing n with
  | nil => cases n <;> simp [odoRank, List.replicate]
  | cons d ds ih => cases n with
    | zero => simp [odoRank]
    | succ n => simp [odoRank, List.replicate, ih]

theorem odoRank_self (ds : List ℕ) : odoRank ds ds + 1 = odoVol ds := by
  induction ds with
  | nil => rfl
  | cons d ds ih => simp only [odoRank, odoVol]; rw [Nat.add_assoc, ih]; ring

theorem odoRank_succ {P Q : List ℕ} (h : P.length = Q.length) (c d : ℕ) (S : List ℕ) :
    odoRank (Q ++ d :: S) (P ++ (c + 1) :: List.replicate S.length 0) = odoRank (Q ++ d :: S) (P ++ c :: S) + 1 := by
  rw [odoRank_append h, odoRank_append h]
  simp only [odoRank, odoRank_zeros]
  have := odoRank_self S
  have : (c + 1) * odoVol S = c * odoVol S + odoVol S := by ring
  omega

/-! ### The carry -/

/-- Labels belonging to the counters. -/
def odoLab (lo : List ℤ) (cnt : List ℕ) : List ℤ := List.zipWith (fun l (c : ℕ) => l + (c : ℤ)) lo cnt

theorem getD_mid {α : Type} (P : List α) (c : α) (S : List α) (x : α) : (P ++ c :: S).getD P.length x = c := by
  simp [List.getD]

theorem set_mid {α : Type} (P : List α) (c : α) (S : List α) (x : α) :
    (P ++ c :: S).set P.length x = P ++ x :: S := by
  simp [List.set_append]

theorem odoLab_mid {LP : List ℤ} {P : List ℕ} (h : LP.length = P.length) (l : ℤ) (LS : List ℤ) (c : ℕ) (S : List ℕ) :
    odoLab (LP ++ l :: LS) (P ++ c :: S) = odoLab LP P ++ (l + c) :: odoLab LS S := by
  unfold odoLab
  rw [List.zipWith_append h]
  rfl

theorem odoLab_length {LP : List ℤ} {P : List ℕ} (h : LP.length = P.length) : (odoLab LP P).length = P.length := by
  simp [odoLab, h]

theorem odoCarry_spec : ∀ (j : ℕ) (C D : List ℕ) (L : List ℤ), C.length = j → D.length = j → L.length = j →
    ∀ (DZ : List ℕ) (LZ : List ℤ) (z : ℕ), LZ.length = z →
    (C = D ∧ odoCarry (L ++ LZ) (D ++ DZ) j (odoLab (L ++ LZ) (C ++ List.replicate z 0), C ++ List.replicate z 0)
        = (none, odoLab (L ++ LZ) (List.replicate (j + z) 0), List.replicate (j + z) 0)) ∨
    ∃ P Q S c d, C = P ++ c :: S ∧ D = Q ++ d :: S ∧ P.length = Q.length ∧ c ≠ d ∧
      odoCarry (L ++ LZ) (D ++ DZ) j (odoLab (L ++ LZ) (C ++ List.replicate z 0), C ++ List.replicate z 0)
        = (some P.length, odoLab (L ++ LZ) (P ++ c :: List.replicate (S.length + z) 0),
            P ++ c :: List.replicate (S.length + z) 0) := by
  intro j
  induction j with
  | zero =>
    intro C D L hC hD hL DZ LZ z hz
    left
    rw [List.length_eq_zero_iff] at hC hD hL
    subst hC hD hL
    simp [odoCarry]
  | succ j ih =>
    intro C D L hC hD hL DZ LZ z hz
    rcases List.eq_nil_or_concat C with h | ⟨C', c, rfl⟩
    · rw [h] at hC; simp at hC
    rcases List.eq_nil_or_concat D with h | ⟨D', d, rfl⟩
    · rw [h] at hD; simp at hD
    rcases List.eq_nil_or_concat L with h | ⟨L', l, rfl⟩
    · rw [h] at hL; simp at hL
    simp only [List.concat_eq_append, List.length_append, List.length_cons, List.length_nil, Nat.zero_add,
      Nat.add_right_cancel_iff] at hC hD hL
    simp only [List.concat_eq_append, List.append_assoc, List.cons_append, List.nil_append]
    have g1 : (C' ++ c :: List.replicate z 0).getD j 0 = c := by rw [← hC]; exact getD_mid _ _ _ _
    have g2 : (D' ++ d :: DZ).getD j 0 = d := by rw [← hD]; exact getD_mid _ _ _ _
    have g3 : (L' ++ l :: LZ).getD j 0 = l := by rw [← hL]; exact getD_mid _ _ _ _
    by_cases hcd : c = d
    · subst hcd
      have step : odoCarry (L' ++ l :: LZ) (D' ++ c :: DZ) (j + 1)
          (odoLab (L' ++ l :: LZ) (C' ++ c :: List.replicate z 0), C' ++ c :: List.replicate z 0)
          = odoCarry (L' ++ l :: LZ) (D' ++ c :: DZ) j
          (odoLab (L' ++ l :: LZ) (C' ++ List.replicate (z + 1) 0), C' ++ List.replicate (z + 1) 0) := by
        rw [odoCarry, if_neg (by rw [g1, g2]; simp), g3, odoLab_mid (by omega)]
        have e1 : (odoLab L' C' ++ (l + (c : ℤ)) :: odoLab LZ (List.replicate z 0)).set j l
            = odoLab (L' ++ l :: LZ) (C' ++ List.replicate (z + 1) 0) := by
          have hl : (odoLab L' C').length = j := by rw [odoLab_length (by omega)]; exact hC
          rw [List.replicate_succ, odoLab_mid (by omega)]
          conv_lhs => rw [← hl]
          rw [set_mid]; simp
        have e2 : (C' ++ c :: List.replicate z 0).set j 0 = C' ++ List.replicate (z + 1) 0 := by
          conv_lhs => rw [← hC]
          rw [set_mid, List.replicate_succ]
        rw [e1, e2]
      rw [step]
      rcases ih C' D' L' hC hD hL (c :: DZ) (l :: LZ) (z + 1) (by simp [hz]) with ⟨h1, h2⟩ | ⟨P, Q, S, c', d', h1, h2, h3, h4, h5⟩
      · left
        refine ⟨by rw [h1], ?_⟩
        rw [h2, show j + (z + 1) = j + 1 + z by omega]
      · right
        refine ⟨P, Q, S ++ [c], c', d', by rw [h1]; simp, by rw [h2]; simp, h3, h4, ?_⟩
        rw [h5]
        simp only [List.length_append, List.length_cons, List.length_nil, Nat.zero_add]
        rw [show S.length + (z + 1) = S.length + 1 + z by omega]
    · right
      refine ⟨C', D', [], c, d, rfl, rfl, by omega, hcd, ?_⟩
      rw [odoCarry, if_pos (by rw [g1, g2]; exact hcd)]
      simp [hC]

/-! ### The outer loop -/

theorem OdoValid.length {ds cs : List ℕ} (h : OdoValid ds cs) : cs.length = ds.length := h.length_eq

/-- The loop visits every counter once. -/
theorem odo_total_gen (n : ℕ) (hn : n ≠ 0) (ok : List ℤ → Bool) (lo : List ℤ) (digit : List ℕ)
    (hl : lo.length = digit.length) :
    ∃ s, pyWhile (fun s => s.1) (odoStepG n ok lo digit)
        (true, { a := lo, cnt := List.replicate digit.length 0, out := [] }) = some (.ok s) ∧
      s.2.out.Nodup ∧
      ∀ a, a ∈ s.2.out ↔ ∃ cs, OdoValid digit cs ∧ a = odoLab lo cs ∧ a.sum = n ∧ ok a = true := by
  have hlabinj : ∀ cs cs', OdoValid digit cs → OdoValid digit cs' → odoLab lo cs = odoLab lo cs' → cs = cs' := by
    intro cs cs' h h' e
    have hlen := h.length
    have hlen' := h'.length
    refine List.ext_getElem (by omega) (fun i hi hi' => ?_)
    have := congrArg (fun l => l[i]?) e
    simp only [odoLab, List.getElem?_zipWith] at this
    rw [List.getElem?_eq_getElem (by omega), List.getElem?_eq_getElem hi, List.getElem?_eq_getElem hi'] at this
    simpa using this
  obtain ⟨s, h1, h2, h3⟩ := pyWhile_total (fun s => s.1) (odoStepG n ok lo digit)
    (fun s => s.2.out.Nodup ∧ (s.1 = true → OdoValid digit s.2.cnt ∧ s.2.a = odoLab lo s.2.cnt) ∧
      ∀ a, a ∈ s.2.out ↔ ∃ cs, OdoValid digit cs ∧ (s.1 = true → odoRank digit cs < odoRank digit s.2.cnt) ∧
        a = odoLab lo cs ∧ a.sum = n ∧ ok a = true)
    (fun s => if s.1 then odoVol digit - odoRank digit s.2.cnt else 0) (by
      rintro ⟨b, a, cnt, out⟩ ⟨i1, i2, i3⟩ hb
      simp only at hb
      subst hb
      simp only [forall_const] at i1 i2 i3
      obtain ⟨i2, rfl⟩ := i2
      -- what is appended
      obtain ⟨out', ho, ho'⟩ : ∃ out', (if (odoLab lo cnt).sum = (n : ℤ) then
          if n = 0 then .error .zeroDivision
          else .ok (if ok (odoLab lo cnt) then out ++ [odoLab lo cnt] else out)
        else .ok out : Py (List (List ℤ))) = .ok out' ∧ out'.Nodup ∧
          ∀ a, a ∈ out' ↔ ∃ cs, OdoValid digit cs ∧ odoRank digit cs ≤ odoRank digit cnt ∧
            a = odoLab lo cs ∧ a.sum = n ∧ ok a = true := by
        have split : ∀ a, (∃ cs, OdoValid digit cs ∧ odoRank digit cs ≤ odoRank digit cnt ∧
            a = odoLab lo cs ∧ a.sum = n ∧ ok a = true) ↔ (a ∈ out ∨ (a = odoLab lo cnt ∧ a.sum = n ∧ ok a = true)) := by
          intro a
          rw [i3]
          constructor
          · rintro ⟨cs, c1, c2, c3⟩
            rcases Nat.lt_or_eq_of_le c2 with c2 | c2
            · exact Or.inl ⟨cs, c1, c2, c3⟩
            · right
              rw [odoRank_inj c1 i2 c2] at c3
              exact c3
          · rintro (⟨cs, c1, c2, c3⟩ | h)
            · exact ⟨cs, c1, Nat.le_of_lt c2, c3⟩
            · exact ⟨cnt, i2, le_refl _, h⟩
        by_cases hsum : (odoLab lo cnt).sum = (n : ℤ)
        · by_cases hok : ok (odoLab lo cnt) = true
          · refine ⟨out ++ [odoLab lo cnt], by simp [hsum, hn, hok], ?_, ?_⟩
            · rw [List.nodup_append]
              refine ⟨i1, by simp, ?_⟩
              intro a ha b hb
              simp only [List.mem_singleton] at hb
              subst hb
              rintro rfl
              obtain ⟨cs, c1, c2, c3, -⟩ := (i3 _).1 ha
              rw [← hlabinj _ _ i2 c1 c3] at c2
              exact lt_irrefl _ c2
            · intro a
              rw [split, List.mem_append, List.mem_singleton]
              constructor
              · rintro (h | rfl)
                · exact Or.inl h
                · exact Or.inr ⟨rfl, hsum, hok⟩
              · rintro (h | h)
                · exact Or.inl h
                · exact Or.inr h.1
          · refine ⟨out, by simp [hsum, hn, hok], i1, fun a => ?_⟩
            rw [split]
            constructor
            · exact Or.inl
            · rintro (h | ⟨rfl, -, h⟩)
              · exact h
              · exact absurd h hok
        · refine ⟨out, by simp [hsum], i1, fun a => ?_⟩
          rw [split]
          constructor
          · exact Or.inl
          · rintro (h | ⟨rfl, h, -⟩)
            · exact h
            · exact absurd h hsum
      obtain ⟨ho1, ho2⟩ := ho'
      have hlen := i2.length
      have hcarry := odoCarry_spec lo.length cnt digit lo (by omega) (by omega) rfl [] [] 0 rfl
      simp only [List.append_nil, List.replicate_zero, Nat.add_zero] at hcarry
      rcases hcarry with ⟨hc1, hc2⟩ | ⟨P, Q, S, c, d, hc1, hc2, hc3, hc4, hc5⟩
      · refine ⟨(false, { a := odoLab lo (List.replicate lo.length 0), cnt := List.replicate lo.length 0, out := out' }),
          ?_, ⟨ho1, by simp, ?_⟩, ?_⟩
        · simp only [odoStepG]
          rw [ho]
          simp only [bind, Except.bind, hc2]
        · intro a
          simp only [Bool.false_eq_true, false_imp_iff, true_and]
          rw [ho2]
          constructor
          · rintro ⟨cs, c1, -, c3⟩; exact ⟨cs, c1, c3⟩
          · rintro ⟨cs, c1, c3⟩
            refine ⟨cs, c1, ?_, c3⟩
            have := odoRank_lt c1
            have h2 := odoRank_self digit
            rw [hc1]; omega
        · simp only [if_true, Bool.false_eq_true, if_false]
          have := odoRank_lt i2
          omega
      · have hcd : c < d := by
          have hv := i2
          rw [hc1, hc2] at hv
          have := List.forall₂_drop P.length hv
          rw [List.drop_left, hc3, List.drop_left] at this
          cases this with
          | cons h _ => omega
        have hrk : odoRank digit (P ++ (c + 1) :: List.replicate S.length 0) = odoRank digit cnt + 1 := by
          rw [hc1, hc2]; exact odoRank_succ hc3 c d S
        have hval : OdoValid digit (P ++ (c + 1) :: List.replicate S.length 0) := by
          have hv := i2
          rw [hc1, hc2] at hv
          rw [hc2]
          have ht := List.forall₂_take P.length hv
          rw [List.take_left, hc3, List.take_left] at ht
          have hz : List.Forall₂ (fun c d => c ≤ d) (List.replicate S.length 0) S := by
            clear * -
            induction S with
            | nil => simp
            | cons x S ih => simp only [List.length_cons, List.replicate_succ]; exact List.Forall₂.cons (Nat.zero_le _) ih
          exact List.rel_append ht (List.Forall₂.cons hcd hz)
        obtain ⟨LP, l, LS, hLeq, hLlen⟩ : ∃ LP l LS, lo = LP ++ l :: LS ∧ LP.length = P.length := by
          have hlt : P.length < lo.length := by rw [hl, ← hlen, hc1]; simp
          refine ⟨lo.take P.length, lo[P.length], lo.drop (P.length + 1), ?_, by simp; omega⟩
          rw [List.getElem_cons_drop, List.take_append_drop]
        refine ⟨(true, { a := odoLab lo (P ++ (c + 1) :: List.replicate S.length 0), cnt := P ++ (c + 1) :: List.replicate S.length 0, out := out' }), ?_, ⟨ho1, ?_, ?_⟩, ?_⟩
        · simp only [odoStepG]
          rw [ho]
          simp only [bind, Except.bind, hc5, getD_mid, set_mid]
          have e1 : lo.getD P.length 0 = l := by rw [hLeq, ← hLlen]; exact getD_mid _ _ _ _
          have e2 : (odoLab lo (P ++ c :: List.replicate S.length 0)).set P.length (l + ((c + 1 : ℕ) : ℤ))
              = odoLab lo (P ++ (c + 1) :: List.replicate S.length 0) := by
            rw [hLeq, odoLab_mid hLlen, odoLab_mid hLlen]
            conv_lhs => rw [← odoLab_length hLlen]
            rw [set_mid]
          rw [e1, e2]
        · intro _; exact ⟨hval, rfl⟩
        · intro a
          simp only [forall_const]
          rw [ho2]
          simp only [hrk, Nat.lt_succ_iff]
        · simp only [if_true, hrk]
          have := odoRank_lt hval
          omega) (true, { a := lo, cnt := List.replicate digit.length 0, out := [] }) (by
      refine ⟨by simp, fun _ => ⟨?_, ?_⟩, ?_⟩
      · induction digit with
        | nil => simp
        | cons x S ih => 
          simp only [List.length_cons, List.replicate_succ]
          refine List.Forall₂.cons (Nat.zero_le _) ?_
          clear * -
          induction S with
          | nil => simp
          | cons x S ih => simp only [List.length_cons, List.replicate_succ]; exact List.Forall₂.cons (Nat.zero_le _) ih
      · simp only [← hl]
        clear * -
        induction lo with
        | nil => simp [odoLab]
        | cons x S ih => simpa [odoLab, List.replicate_succ] using ih
      · intro a
        simp only [List.not_mem_nil, false_iff, forall_const, odoRank_zeros]
        rintro ⟨cs, -, h, -⟩
        omega)
  refine ⟨s, h1, h2.1, fun a => ?_⟩
  have := h2.2.2 a
  rw [this]
  simp only [h3, Bool.false_eq_true, false_imp_iff, true_and]

/-- The loop with the exact test visits every counter once. -/
theorem odo_total (eps : ℚ) (n : ℕ) (hn : n ≠ 0) (concs : List ConcRange) (lo : List ℤ) (digit : List ℕ)
    (hl : lo.length = digit.length) :
    ∃ s, pyWhile (fun s => s.1) (odoStep eps n concs lo digit)
        (true, { a := lo, cnt := List.replicate digit.length 0, out := [] }) = some (.ok s) ∧
      s.2.out.Nodup ∧
      ∀ a, a ∈ s.2.out ↔ ∃ cs, OdoValid digit cs ∧ a = odoLab lo cs ∧ a.sum = n ∧ concOk eps n concs a = true :=
  odo_total_gen n hn (concOk eps n concs) lo digit hl

end Phenum
