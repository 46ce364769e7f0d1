import Verif.Model.Polya
import Verif.Spec.Cycles
import Verif.Proof.Group
import Verif.Proof.Loop
import Mathlib.Data.List.Perm.Subperm
import Mathlib.Logic.Function.Iterate
import Mathlib.Data.Nat.ModEq
/-
The cycle decomposition computed by `_group_to_cyclic` (C17).
-/
namespace Phenum
open Spec

/-- the permutation as a function -/
def pf (σ : List Nat) (j : Nat) : Nat := σ.getD j 0

section
variable {n : Nat} {σ : List Nat} (hσ : σ.Perm (List.range n))
include hσ

theorem pf_get {j : Nat} (hj : j < n) : σ[j]? = some (pf σ j) := by
  have : j < σ.length := by rw [perm_range_length hσ]; exact hj
  simp [pf, this]

theorem pf_lt {j : Nat} (hj : j < n) : pf σ j < n :=
  perm_range_lt hσ _ (List.mem_of_getElem? (pf_get hσ hj))

theorem pf_inj {i j : Nat} (hi : i < n) (hj : j < n) (h : pf σ i = pf σ j) : i = j := by
  have hnd : σ.Nodup := hσ.nodup_iff.mpr List.nodup_range
  have h1 := pf_get hσ hi
  have h2 := pf_get hσ hj
  rw [h, ← h2] at h1
  exact (List.getElem?_inj (by rw [perm_range_length hσ]; exact hi) hnd).mp h1

theorem iter_lt {v : Nat} (hv : v < n) (i : Nat) : (pf σ)^[i] v < n := by
  induction i with
  | zero => exact hv
  | succ i ih => rw [Function.iterate_succ_apply']; exact pf_lt hσ ih

theorem iter_cancel {v : Nat} (hv : v < n) (i d : Nat) (h : (pf σ)^[i + d] v = (pf σ)^[i] v) : (pf σ)^[d] v = v := by
  induction i with
  | zero => simpa using h
  | succ i ih =>
    apply ih
    rw [show i + 1 + d = (i + d) + 1 by omega, Function.iterate_succ_apply', Function.iterate_succ_apply'] at h
    exact pf_inj hσ (iter_lt hσ hv _) (iter_lt hσ hv _) h

end

/-- the first `L` points of the cycle of `v` -/
def path (σ : List Nat) (v L : Nat) : List Nat := (List.range L).map (fun i => (pf σ)^[i] v)

theorem path_succ (σ : List Nat) (v L : Nat) : path σ v (L + 1) = path σ v L ++ [(pf σ)^[L] v] := by
  unfold path; rw [List.range_succ, List.map_append]; rfl

theorem mem_path {σ : List Nat} {v L j : Nat} : j ∈ path σ v L ↔ ∃ i < L, (pf σ)^[i] v = j := by
  unfold path; simp

section
variable {n : Nat} {σ : List Nat} (hσ : σ.Perm (List.range n))
include hσ

theorem path_len_le {v : Nat} (hv : v < n) {L : Nat} (h : (path σ v L).Nodup) : L ≤ n := by
  have hsub : path σ v L ⊆ List.range n := by
    intro j hj
    obtain ⟨i, -, rfl⟩ := mem_path.mp hj
    exact List.mem_range.mpr (iter_lt hσ hv i)
  have := (List.subperm_of_subset h hsub).length_le
  simpa [path] using this

theorem path_nodup_succ {v : Nat} (hv : v < n) {L : Nat} (hL : 1 ≤ L) (h : (path σ v L).Nodup)
    (hne : (pf σ)^[L] v ≠ v) : (path σ v (L + 1)).Nodup := by
  rw [path_succ]
  apply List.Nodup.append h (by simp)
  intro j hj hj'
  rw [List.mem_singleton] at hj'
  obtain ⟨i, hi, he⟩ := mem_path.mp hj
  rw [hj'] at he
  have hd := iter_cancel hσ hv i (L - i) (by rw [show i + (L - i) = L by omega]; exact he.symm)
  by_cases hi0 : i = 0
  · subst hi0; exact hne (by simpa using hd)
  · have h0 : ∃ a ∈ List.range L, ∃ b ∈ List.range L, a ≠ b ∧ (pf σ)^[a] v = (pf σ)^[b] v :=
      ⟨L - i, List.mem_range.mpr (by omega), 0, List.mem_range.mpr (by omega), by omega, by simpa using hd⟩
    obtain ⟨a, ha, b, hb, hab, e⟩ := h0
    exact hab (List.inj_on_of_nodup_map h ha hb e)

/-- the inner loop walks the cycle of `v` -/
theorem cycleFrom_ok {v : Nat} (hv : v < n) (V : List Nat) (hV : V.length = n) :
    ∃ s L, cycleFrom σ v V = some (.ok s) ∧ s.len = L ∧ 1 ≤ L ∧ (path σ v L).Nodup ∧ (pf σ)^[L] v = v ∧
      s.visited.length = n ∧ ∀ j, s.visited[j]? = some 0 ↔ V[j]? = some 0 ∧ j ∉ path σ v L := by
  unfold cycleFrom
  have h1 : pySet V v 1 = .ok (V.set v 1) := by unfold pySet; rw [if_pos (by omega)]
  have h2 : pyGet σ v = .ok (pf σ v) := by unfold pyGet; rw [pf_get hσ hv]
  rw [h1, h2]
  have hset : ∀ (W : List Nat) (w j : Nat), w < W.length → ((W.set w 1)[j]? = some 0 ↔ W[j]? = some 0 ∧ j ≠ w) := by
    intro W w j hw
    rw [List.getElem?_set]
    by_cases h : w = j
    · subst h; simp [hw]
    · rw [if_neg h]; simp [Ne.symm h]
  obtain ⟨s, hs, ⟨i1, i2, i3, i4, i5⟩, hc⟩ := pyWhile_total (fun s => decide (s.cursor ≠ v)) (cycStep σ)
    (fun s => 1 ≤ s.len ∧ (path σ v s.len).Nodup ∧ s.cursor = (pf σ)^[s.len] v ∧ s.visited.length = n ∧
      ∀ j, s.visited[j]? = some 0 ↔ V[j]? = some 0 ∧ j ∉ path σ v s.len) (fun s => n - s.len)
    (by
      rintro s ⟨i1, i2, i3, i4, i5⟩ hc
      have hne : (pf σ)^[s.len] v ≠ v := by rw [← i3]; simpa using hc
      have hnd := path_nodup_succ hσ hv i1 i2 hne
      have hle := path_len_le hσ hv hnd
      have hcl : s.cursor < n := by rw [i3]; exact iter_lt hσ hv _
      refine ⟨⟨pf σ s.cursor, s.visited.set s.cursor 1, s.len + 1⟩, ?_, ⟨by simp, hnd, ?_, by simpa using i4, ?_⟩, ?_⟩
      · unfold cycStep pySet pyGet
        rw [if_pos (by omega), pf_get hσ hcl]
        rfl
      · simp only; rw [Function.iterate_succ_apply', ← i3]
      · intro j
        simp only
        rw [hset _ _ _ (by omega), i5, path_succ, List.mem_append, List.mem_singleton, ← i3]
        tauto
      · simp only; omega)
    ⟨pf σ v, V.set v 1, 1⟩
    ⟨le_rfl, by simp [path], rfl, by simpa using hV, by
      intro j
      rw [hset _ _ _ (by omega)]
      simp [path]⟩
  refine ⟨s, s.len, hs, rfl, i1, i2, ?_, i4, i5⟩
  rw [← i3]; simpa using hc

theorem path_isCycle {v : Nat} (hv : v < n) {L : Nat} (hL : 1 ≤ L) (hc : (pf σ)^[L] v = v) :
    IsCycle σ (path σ v L) := by
  have hlen : (path σ v L).length = L := by simp [path]
  constructor
  · intro h; rw [h] at hlen; simp at hlen; omega
  · intro i hi
    rw [hlen] at hi
    have e1 : (path σ v L)[i]'(by omega) = (pf σ)^[i] v := by simp [path]
    have e2 : ∀ (m : Nat) (hm : m < (path σ v L).length), (path σ v L)[m] = (pf σ)^[m] v := by
      intro m hm; simp [path]
    rw [e1, pf_get hσ (iter_lt hσ hv i), e2]
    simp only [hlen]
    congr 1
    rw [← Function.iterate_succ_apply' (pf σ)]
    by_cases h : i + 1 = L
    · rw [Nat.succ_eq_add_one, h, Nat.mod_self, hc]; rfl
    · rw [Nat.mod_eq_of_lt (by omega)]

omit hσ in
theorem pyIndex_ok {V : List Nat} {v : Nat} (h : pyIndex 0 V = .ok v) : V[v]? = some 0 := by
  induction V generalizing v with
  | nil => simp [pyIndex] at h
  | cons a V ih =>
    simp only [pyIndex] at h
    split at h
    · rename_i ha; cases h; simp [ha]
    · cases h' : pyIndex 0 V with
      | error e => rw [h'] at h; simp [Except.map] at h
      | ok w =>
        rw [h'] at h
        simp only [Except.map, Except.ok.injEq] at h
        subst h
        simpa using ih h'

omit hσ in
theorem pyIndex_error {V : List Nat} {e : PyErr} (h : pyIndex 0 V = .error e) : 0 ∉ V := by
  induction V generalizing e with
  | nil => simp
  | cons a V ih =>
    simp only [pyIndex] at h
    split at h
    · simp at h
    · rename_i ha
      cases h' : pyIndex 0 V with
      | error e' => simp [ih h', Ne.symm ha]
      | ok w => rw [h'] at h; simp [Except.map] at h

theorem cycleLens_ok (fuel : Nat) (V D : List Nat) (hV : V.length = n) (hD : D.Nodup) (hDn : ∀ j ∈ D, j < n)
    (hVD : ∀ j, j < n → (V[j]? = some 0 ↔ j ∉ D)) (hcl : ∀ j, j < n → pf σ j ∈ D → j ∈ D)
    (hfuel : n - D.length ≤ fuel) :
    ∃ cs : List (List Nat), cycleLens σ fuel V = some (.ok (cs.map List.length)) ∧ (∀ c ∈ cs, IsCycle σ c) ∧
      (D ++ cs.flatten).Perm (List.range n) := by
  have hsub : D ⊆ List.range n := fun j hj => List.mem_range.mpr (hDn j hj)
  have hsp := List.subperm_of_subset hD hsub
  induction fuel generalizing V D with
  | zero =>
    refine ⟨[], rfl, by simp, ?_⟩
    simp only [List.flatten_nil, List.append_nil]
    exact hsp.perm_of_length_le (by simp; omega)
  | succ fuel ih =>
    simp only [cycleLens]
    cases hidx : pyIndex 0 V with
    | error e =>
      refine ⟨[], rfl, by simp, ?_⟩
      simp only [List.flatten_nil, List.append_nil]
      have h0 := pyIndex_error hidx
      apply hsp.antisymm
      apply List.subperm_of_subset List.nodup_range
      intro j hj
      rw [List.mem_range] at hj
      by_contra hc
      exact h0 (List.mem_of_getElem? ((hVD j hj).mpr hc))
    | ok v =>
      have hv0 := pyIndex_ok hidx
      have hv : v < n := by rw [← hV]; exact (List.getElem?_eq_some_iff.mp hv0).1
      have hvD := (hVD v hv).mp hv0
      obtain ⟨s, L, hs, hsl, hL, hnd, hcyc, hsv, hsV⟩ := cycleFrom_ok hσ hv V hV
      have hdis : ∀ i, (pf σ)^[i] v ∉ D := by
        intro i
        induction i with
        | zero => exact hvD
        | succ i ih => rw [Function.iterate_succ_apply']; exact fun hc => ih (hcl _ (iter_lt hσ hv i) hc)
      simp only [hs]
      have hD' : (D ++ path σ v L).Nodup := by
        apply List.Nodup.append hD hnd
        intro j hj hj'
        obtain ⟨i, -, rfl⟩ := mem_path.mp hj'
        exact hdis i hj
      have hDn' : ∀ j ∈ D ++ path σ v L, j < n := by
        intro j hj
        rcases List.mem_append.mp hj with h | h
        · exact hDn j h
        · obtain ⟨i, -, rfl⟩ := mem_path.mp h
          exact iter_lt hσ hv i
      have hsub' : D ++ path σ v L ⊆ List.range n := fun j hj => List.mem_range.mpr (hDn' j hj)
      obtain ⟨cs, h1, h2, h3⟩ := ih s.visited (D ++ path σ v L) hsv hD' hDn'
        (by
          intro j hj
          rw [hsV, hVD j hj, List.mem_append]
          tauto)
        (by
          intro j hj hm
          rw [List.mem_append] at hm ⊢
          rcases hm with hm | hm
          · exact Or.inl (hcl j hj hm)
          · right
            obtain ⟨i, hi, he⟩ := mem_path.mp hm
            rw [mem_path]
            cases i with
            | zero =>
              refine ⟨L - 1, by omega, ?_⟩
              apply pf_inj hσ (iter_lt hσ hv _) hj
              rw [← he, ← Function.iterate_succ_apply' (pf σ), Nat.succ_eq_add_one, show L - 1 + 1 = L by omega, hcyc]
              rfl
            | succ i =>
              refine ⟨i, by omega, ?_⟩
              apply pf_inj hσ (iter_lt hσ hv _) hj
              rw [← he, Function.iterate_succ_apply'])
        (by rw [List.length_append]; simp [path]; omega) hsub' (List.subperm_of_subset hD' hsub')
      refine ⟨path σ v L :: cs, ?_, ?_, ?_⟩
      · rw [h1]
        simp [hsl, path]
      · intro c hc
        rcases List.mem_cons.mp hc with rfl | hc
        · exact path_isCycle hσ hv hL hcyc
        · exact h2 c hc
      · rw [List.flatten_cons, ← List.append_assoc]
        exact h3

theorem opCycles_ok : ∃ cs : List (List Nat), opCycles σ = some (.ok (cs.map List.length)) ∧ CycleDecomp σ cs := by
  obtain ⟨cs, h1, h2, h3⟩ := cycleLens_ok hσ σ.length (List.replicate σ.length 0) [] (by simpa using perm_range_length hσ)
    (by simp) (by simp) (by
      intro j hj
      rw [List.getElem?_replicate, if_pos (by rw [perm_range_length hσ]; exact hj)]
      simp) (by simp) (by rw [perm_range_length hσ]; simp)
  refine ⟨cs, h1, ?_, h2⟩
  rw [perm_range_length hσ]
  simpa using h3

/-- the points fixed by the `r`-th power are those in cycles whose length divides `r` -/
theorem iter_cycle {c : List Nat} (hc : IsCycle σ c) (hlt : ∀ j ∈ c, j < n) (i : Nat) (hi : i < c.length) (r : Nat) :
    (pf σ)^[r] c[i] = c[(i + r) % c.length]'(Nat.mod_lt _ (by omega)) := by
  induction r with
  | zero => simp [Nat.mod_eq_of_lt hi]
  | succ r ih =>
    rw [Function.iterate_succ_apply', ih]
    have h := hc.2 ((i + r) % c.length) (Nat.mod_lt _ (by omega))
    rw [pf_get hσ (hlt _ (List.getElem_mem _)), Option.some_inj] at h
    rw [h]
    congr 1
    rw [Nat.mod_add_mod]
    rfl

theorem fixed_in_cycle {c : List Nat} (hc : IsCycle σ c) (hlt : ∀ j ∈ c, j < n) (hnd : c.Nodup) (r : Nat) :
    c.countP (fun j => decide ((pf σ)^[r] j = j)) = if r % c.length = 0 then c.length else 0 := by
  have key : ∀ j ∈ c, (pf σ)^[r] j = j ↔ r % c.length = 0 := by
    intro j hj
    obtain ⟨i, hi, rfl⟩ := List.getElem_of_mem hj
    rw [iter_cycle hσ hc hlt i hi r, hnd.getElem_inj_iff]
    constructor
    · intro h
      have : Nat.ModEq c.length (i + r) (i + 0) := by
        unfold Nat.ModEq
        rw [h, Nat.add_zero, Nat.mod_eq_of_lt hi]
      exact Nat.ModEq.add_left_cancel' i this
    · intro h
      rw [Nat.add_mod, h, Nat.add_zero, Nat.mod_mod, Nat.mod_eq_of_lt hi]
  split
  · rename_i h
    rw [List.countP_eq_length]
    intro j hj
    exact decide_eq_true ((key j hj).mpr h)
  · rename_i h
    rw [List.countP_eq_zero]
    intro j hj
    simpa using fun e => h ((key j hj).mp e)

theorem decomp_count {cs : List (List Nat)} (h : CycleDecomp σ cs) (r : Nat) :
    ((cs.map List.length).filter (fun l => decide (r % l = 0))).sum =
      (List.range n).countP (fun j => decide ((pf σ)^[r] j = j)) := by
  have hn := perm_range_length hσ
  obtain ⟨hp, hc⟩ := h
  rw [hn] at hp
  rw [← hp.countP_eq]
  have hnd : cs.flatten.Nodup := hp.nodup_iff.mpr List.nodup_range
  have hlt : ∀ j ∈ cs.flatten, j < n := fun j hj => List.mem_range.mp (hp.mem_iff.mp hj)
  clear hp
  induction cs with
  | nil => simp
  | cons c cs ih =>
    rw [List.flatten_cons] at hnd hlt
    have hnd' := List.nodup_append.mp hnd
    rw [List.flatten_cons, List.countP_append, fixed_in_cycle hσ (hc c (by simp))
      (fun j hj => hlt j (List.mem_append_left _ hj)) hnd'.1, List.map_cons]
    rw [← ih (fun c' hc' => hc c' (List.mem_cons_of_mem _ hc')) hnd'.2.1
      (fun j hj => hlt j (List.mem_append_right _ hj))]
    by_cases h0 : r % c.length = 0
    · rw [List.filter_cons_of_pos (by simpa using h0), if_pos h0, List.sum_cons]
    · rw [List.filter_cons_of_neg (by simpa using h0), if_neg h0, zero_add]

end
end Phenum
