import Verif.Proof.Concs
import Mathlib.Data.List.Sort
import Mathlib.Order.Lex
import Mathlib.Data.List.Lex
/-
The odometer of `get_concs_for_size` visits the compositions in lexicographic order.
-/
namespace Phenum

theorem pyWhile_inv {S : Type} (cond : S → Bool) (step : S → Py S) (Inv : S → Prop)
    (hstep : ∀ s s', Inv s → cond s = true → step s = .ok s' → Inv s') (s s' : S) (h : Inv s)
    (hr : pyWhile cond step s = some (.ok s')) : Inv s' := by
  have key := pyWhile.partial_correctness cond step (fun s r => Inv s → ∀ s', r = .ok s' → Inv s') (by
    intro loop ih s r hs hinv s' hr'
    by_cases hc : cond s = true
    · rw [if_pos hc] at hs
      cases hst : step s with
      | error e =>
        rw [hst] at hs
        simp only [Option.some.injEq] at hs
        rw [← hs] at hr'
        cases hr'
      | ok t =>
        rw [hst] at hs
        exact ih t r hs (hstep s t hinv hc hst) s' hr'
    · rw [if_neg hc] at hs
      simp only [Option.some.injEq] at hs
      rw [← hs] at hr'
      cases hr'
      exact hinv)
  exact key s _ hr h s' rfl

theorem lex_mid {a b : ℤ} (h : a < b) (x y : List ℤ) : ∀ p : List ℤ, p ++ a :: x < p ++ b :: y
  | [] => by
    rw [List.nil_append, List.nil_append, List.cons_lt_cons_iff]
    exact Or.inl h
  | c :: p => by
    rw [List.cons_append, List.cons_append, List.cons_lt_cons_iff]
    exact Or.inr ⟨rfl, lex_mid h x y p⟩

theorem odo_sorted (n : ℕ) (ok : List ℤ → Bool) (lo : List ℤ) (digit : List ℕ) (hl : lo.length = digit.length) {s : Bool × Odo}
    (hr : pyWhile (fun s => s.1) (odoStepG n ok lo digit) (true, { a := lo, cnt := List.replicate digit.length 0, out := [] }) = some (.ok s)) :
    s.2.out.Pairwise (· < ·) := by
  refine (pyWhile_inv (fun s => s.1) (odoStepG n ok lo digit)
    (fun s => s.2.out.Pairwise (· < ·) ∧ (s.1 = true → s.2.cnt.length = digit.length ∧ s.2.a = odoLab lo s.2.cnt ∧ ∀ x ∈ s.2.out, x < s.2.a)) ?_
    _ _ ⟨List.Pairwise.nil, fun _ => ⟨by simp, ?_, by simp⟩⟩ hr).1
  · rintro ⟨b, a, cnt, out⟩ s' ⟨i1, i2⟩ hb hs
    simp only at hb
    subst hb
    simp only [forall_const] at i1 i2
    obtain ⟨i2, rfl, i3⟩ := i2
    have ho : ∀ out', (if (odoLab lo cnt).sum = (n : ℤ) then
          if n = 0 then .error .zeroDivision
          else .ok (if ok (odoLab lo cnt) then out ++ [odoLab lo cnt] else out)
        else .ok out : Py (List (List ℤ))) = .ok out' → out'.Pairwise (· < ·) ∧ ∀ x ∈ out', x ≤ odoLab lo cnt := by
      intro out' h
      have hold : out.Pairwise (· < ·) ∧ ∀ x ∈ out, x ≤ odoLab lo cnt := ⟨i1, fun x hx => (i3 x hx).le⟩
      split_ifs at h
      · cases h
        refine ⟨List.pairwise_append.mpr ⟨i1, List.pairwise_singleton _ _, ?_⟩, ?_⟩
        · intro x hx y hy
          rw [List.mem_singleton] at hy
          subst hy
          exact i3 x hx
        · intro x hx
          rcases List.mem_append.mp hx with hx | hx
          · exact (i3 x hx).le
          · rw [List.mem_singleton] at hx
            exact hx.le
      · cases h; exact hold
      · cases h; exact hold
    have hcarry := odoCarry_spec lo.length cnt digit lo (by omega) (by omega) rfl [] [] 0 rfl
    simp only [List.append_nil, List.replicate_zero, Nat.add_zero] at hcarry
    simp only [odoStepG] at hs
    generalize hov : (if (odoLab lo cnt).sum = (n : ℤ) then
          if n = 0 then .error .zeroDivision
          else .ok (if ok (odoLab lo cnt) then out ++ [odoLab lo cnt] else out)
        else .ok out : Py (List (List ℤ))) = o at hs ho
    cases o with
    | error e => simp only [bind, Except.bind] at hs; cases hs
    | ok out' =>
      obtain ⟨ho1, ho2⟩ := ho out' rfl
      simp only [bind, Except.bind] at hs
      rcases hcarry with ⟨hc1, hc2⟩ | ⟨P, Q, S, c, d, hc1, hc2, hc3, hc4, hc5⟩
      · rw [hc2] at hs
        cases hs
        exact ⟨ho1, fun h => by simp at h⟩
      · rw [hc5] at hs
        simp only [getD_mid, set_mid] at hs
        cases hs
        obtain ⟨LP, l, LS, hLeq, hLlen⟩ : ∃ LP l LS, lo = LP ++ l :: LS ∧ LP.length = P.length := by
          have hlt : P.length < lo.length := by rw [hl, ← i2, hc1]; simp
          refine ⟨lo.take P.length, lo[P.length], lo.drop (P.length + 1), ?_, by simp; omega⟩
          rw [List.getElem_cons_drop, List.take_append_drop]
        have e1 : lo.getD P.length 0 = l := by rw [hLeq, ← hLlen]; exact getD_mid _ _ _ _
        have e2 : (odoLab lo (P ++ c :: List.replicate S.length 0)).set P.length (l + ((c + 1 : ℕ) : ℤ))
            = odoLab lo (P ++ (c + 1) :: List.replicate S.length 0) := by
          rw [hLeq, odoLab_mid hLlen, odoLab_mid hLlen]
          conv_lhs => rw [← odoLab_length hLlen]
          rw [set_mid]
        refine ⟨ho1, fun _ => ⟨?_, ?_, ?_⟩⟩
        · rw [← i2, hc1]; simp
        · simp only [e1, e2]
        · intro x hx
          simp only [e1, e2]
          refine lt_of_le_of_lt (ho2 x hx) ?_
          rw [hc1, hLeq, odoLab_mid hLlen, odoLab_mid hLlen]
          exact lex_mid (by push_cast; linarith) _ _ _
  · simp only [odoLab]
    apply List.ext_getElem
    · simp [hl]
    · intro i h1 h2
      simp

/-- two lists in increasing order with the same members -/
theorem sorted_ext {l l' : List (List ℤ)} (h : l.Pairwise (· < ·)) (h' : l'.Pairwise (· < ·)) (hm : ∀ x, x ∈ l ↔ x ∈ l') : l = l' := by
  have n1 : l.Nodup := h.imp (fun h => ne_of_lt h)
  have n2 : l'.Nodup := h'.imp (fun h => ne_of_lt h)
  have hp : l.Perm l' := (List.perm_ext_iff_of_nodup n1 n2).mpr hm
  exact hp.eq_of_pairwise (fun a b _ _ h1 h2 => absurd (lt_trans h1 h2) (lt_irrefl _)) h h'

theorem concsRestricted_sorted {eps : ℚ} {size nB : ℕ} {concs : List ConcRange} {out : List (List ℤ)}
    (h : concsRestricted eps size nB concs = some (.ok out)) : out.Pairwise (· < ·) := by
  unfold concsRestricted at h
  split at h
  · cases h
  · rename_i c0 rest
    split_ifs at h with h1
    · cases h
    dsimp only at h
    split_ifs at h with h2
    · cases h
    split at h
    · cases h
    · cases h
    · rename_i s hs
      cases h
      refine odo_sorted (size * nB) (concOk eps (size * nB) (c0 :: rest)) (((c0 :: rest).map (volRow size nB c0.2.2)).map (fun r => r.1))
        (((c0 :: rest).map (volRow size nB c0.2.2)).map (fun r => (r.2 - r.1).toNat)) (by simp) (s := s) ?_
      rw [List.length_map, List.length_map]
      exact hs

theorem concsRestrictedF_sorted {fl : ℚ → ℚ} {eps : ℚ} {size nB : ℕ} {concs : List ConcRange} {out : List (List ℤ)}
    (h : concsRestrictedF fl eps size nB concs = some (.ok out)) : out.Pairwise (· < ·) := by
  unfold concsRestrictedF at h
  split at h
  · cases h
  · rename_i c0 rest
    split_ifs at h with h1
    · cases h
    dsimp only at h
    split_ifs at h with h2
    · cases h
    split at h
    · cases h
    · cases h
    · rename_i s hs
      cases h
      refine odo_sorted (size * nB) (concOkF fl eps (size * nB) (c0 :: rest)) (((c0 :: rest).map (volRowF fl size nB c0.2.2)).map (fun r => r.1))
        (((c0 :: rest).map (volRowF fl size nB c0.2.2)).map (fun r => (r.2 - r.1).toNat)) (by simp) (s := s) ?_
      rw [List.length_map, List.length_map]
      exact hs

end Phenum
