import Verif.Props.Steps
import Verif.Proof.EnumRun
/-
Small inputs: the counts fit into the columns of polya.out.
-/
namespace Phenum
open Spec

theorem joinStr_length_le (sep : Str) (m : ℕ) : ∀ l : List Str, (∀ w ∈ l, w.length ≤ m) → (joinStr sep l).length ≤ l.length * (m + sep.length)
  | [], _ => by simp [joinStr]
  | [w], h => by
    have := h w (by simp)
    simp only [joinStr, List.length_cons, List.length_nil]
    omega
  | w :: v :: ws, h => by
    have h1 := h w (by simp)
    have h2 := joinStr_length_le sep m (v :: ws) (fun x hx => h x (by simp [hx]))
    simp only [joinStr, List.length_append, List.length_cons] at h2 ⊢
    have e : (ws.length + 1 + 1) * (m + sep.length) = (ws.length + 1) * (m + sep.length) + (m + sep.length) := by ring
    omega

theorem pyProduct_count {α : Type} (A : List α) (N : ℕ) : (pyProduct (List.replicate N A)).length = A.length ^ N := by
  induction N with
  | zero => simp [pyProduct]
  | succ N ih =>
    rw [List.replicate_succ, pyProduct, List.length_flatMap]
    simp only [List.length_map, ih, List.map_const', List.sum_replicate, smul_eq_mul]
    ring

/-- words over an alphabet -/
theorem words_le {α : Type} (A : List α) (N : ℕ) {L : List (List α)} (hnd : L.Nodup) (h : ∀ w ∈ L, w.length = N ∧ ∀ x ∈ w, x ∈ A) :
    L.length ≤ A.length ^ N := by
  rw [← pyProduct_count]
  apply List.Subperm.length_le
  apply hnd.subperm
  intro w hw
  obtain ⟨h1, h2⟩ := h w hw
  rw [mem_pyProduct, ← h1]
  clear h1 hw
  induction w with
  | nil => exact .nil
  | cons x w ih => exact .cons (h2 x (by simp)) (ih (fun y hy => h2 y (by simp [hy])))

/-- the number of configurations with at most 10 species -/
theorem composed_count {c : List ℕ} {aconcs : List ℚ} (hk : c.length ≤ 10) (hlen : c.length ≤ aconcs.length) {L : List Config} (hnd : L.Nodup)
    (h : ∀ z ∈ L, Composed c aconcs 6 z) : L.length ≤ 70 ^ c.sum := by
  have hA : ((List.range 7).flatMap (fun a : ℕ => (List.range 10).map (fun b : ℕ => ((a : ℤ) - 1, b + 1)))).length = 70 := by decide
  rw [← hA]
  apply words_le _ _ hnd
  intro z hz
  refine ⟨(composed_contents c aconcs hlen).length z (h z hz), fun p hp => ?_⟩
  have h1 := (h z hz).arrow p hp
  have h2 := (h z hz).species p hp
  have h3 : (p.1 + 1).toNat < 7 := by omega
  have h4 : p.2 - 1 < 10 := by omega
  rw [List.mem_flatMap]
  refine ⟨(p.1 + 1).toNat, List.mem_range.mpr h3, List.mem_map.mpr ⟨p.2 - 1, List.mem_range.mpr h4, ?_⟩⟩
  ext
  · show (((p.1 + 1).toNat : ℤ) - 1) = p.1
    omega
  · show p.2 - 1 + 1 = p.2
    omega

theorem hnf_entry_le {n : ℕ} (hn : 1 ≤ n) {u : M3 ℤ} (hu : u ∈ findAllHNFs n) : ∀ x ∈ hnfNumbers u, ∃ m : ℕ, m ≤ n ∧ x = m := by
  obtain ⟨a, b, c, d, e, f, hp, hb, hd, he, rfl⟩ := (mem_findAllHNFs hn u).mp hu
  have ha : a ≤ n := Nat.le_of_dvd hn ⟨c * f, by rw [← hp]; ring⟩
  have hc : c ≤ n := Nat.le_of_dvd hn ⟨a * f, by rw [← hp]; ring⟩
  have hf : f ≤ n := Nat.le_of_dvd hn ⟨a * c, by rw [← hp]; ring⟩
  intro x hx
  simp only [hnfNumbers, hnfMat, List.mem_cons, List.not_mem_nil, or_false] at hx
  rcases hx with rfl | rfl | rfl | rfl | rfl | rfl
  · exact ⟨a, ha, by simp⟩
  · exact ⟨b, by omega, by simp⟩
  · exact ⟨c, hc, by simp⟩
  · exact ⟨d, by omega, by simp⟩
  · exact ⟨e, by omega, by simp⟩
  · exact ⟨f, hf, by simp⟩

theorem hnf_count {n : ℕ} (hn : 1 ≤ n) {U : List (M3 ℤ)} (hnd : U.Nodup) (hU : ∀ u ∈ U, u ∈ findAllHNFs n) : U.length ≤ (n + 1) ^ 6 := by
  have h := words_le ((List.range (n + 1)).map (fun m : ℕ => (m : ℤ))) 6 (L := U.map hnfNumbers) (by
      apply List.Nodup.map_on _ hnd
      intro u hu v hv e
      rw [← (hnf_numbers_full hn (hU u hu)).1, e, (hnf_numbers_full hn (hU v hv)).1]) (by
      intro w hw
      obtain ⟨u, hu, rfl⟩ := List.mem_map.mp hw
      refine ⟨rfl, fun x hx => ?_⟩
      obtain ⟨m, hm, rfl⟩ := hnf_entry_le hn (hU u hu) x hx
      exact List.mem_map.mpr ⟨m, List.mem_range.mpr (by omega), rfl⟩)
  simpa using h

theorem sum_map_le {α : Type} (f : α → ℕ) (m : ℕ) : ∀ l : List α, (∀ x ∈ l, f x ≤ m) → (l.map f).sum ≤ l.length * m
  | [], _ => by simp
  | x :: l, h => by
    have h1 := h x (by simp)
    have h2 := sum_map_le f m l (fun y hy => h y (by simp [hy]))
    rw [List.map_cons, List.sum_cons, List.length_cons]
    have : (l.length + 1) * m = l.length * m + m := by ring
    omega

theorem dupLoop_nonempty {A : M3 ℝ} {rots : List (M3 ℝ)} {eps : ℝ} : ∀ (l u U : List (M3 ℤ)), dupLoop A rots eps l u = .ok U → (l ≠ [] ∨ u ≠ []) → U ≠ []
  | [], u, U, h, hne => by
    cases h
    exact hne.resolve_left (fun h => h rfl)
  | H :: l, u, U, h, _ => by
    unfold dupLoop at h
    cases hd : dupAny A rots eps H u with
    | error e => rw [hd] at h; cases h
    | ok b =>
      rw [hd] at h
      cases b with
      | true =>
        refine dupLoop_nonempty l u U h (Or.inr ?_)
        rintro rfl
        cases hd
      | false => exact dupLoop_nonempty l (u ++ [H]) U h (Or.inr (by simp))

/-- there is always a supercell -/
theorem getHNFs_nonempty {n : ℕ} (hn : 1 ≤ n) {P : M3 ℝ} {bas : List V3} {k : ℕ} {eps : ℝ} {U : List (M3 ℤ)} (h : getHNFs n P bas k eps = (pure U : Run _)) : U ≠ [] := by
  unfold getHNFs at h
  split at h
  · cases h
  obtain ⟨b, -, h⟩ := run_bind_ok h
  obtain ⟨dp, -, h⟩ := run_bind_ok h
  obtain ⟨r, h1, h⟩ := run_bind_ok h
  rw [← run_pure_inj h]
  unfold removeDuplicateLattices at h1
  obtain ⟨sg, -, h1⟩ := run_bind_ok h1
  obtain ⟨V, h2, h1⟩ := run_bind_ok h1
  obtain ⟨dg, -, h1⟩ := run_bind_ok h1
  rw [← run_pure_inj h1]
  have hne : findAllHNFs n ≠ [] := by
    refine List.ne_nil_of_mem (a := hnfMat 1 0 1 0 0 n) ?_
    rw [mem_findAllHNFs hn]
    exact ⟨1, 0, 1, 0, 0, n, by simp, by omega, by omega, by omega, rfl⟩
  have h2 := runPy_eq_pure h2
  unfold removeDuplicates at h2
  split at h2
  · cases h2; exact hne
  · exact dupLoop_nonempty _ _ _ h2 (Or.inl hne)

/-- the table of a size with at most 20 sites fits -/
theorem small_fits {n : ℕ} (hn : 1 ≤ n) (hn' : n ≤ 20) {U : List (M3 ℤ)} {C : List Conc} {cnt : M3 ℤ → Conc → ℕ} (hne : U ≠ []) (hnd : U.Nodup)
    (hU : ∀ u ∈ U, u ∈ findAllHNFs n) (hCn : C.Nodup) (hC : ∀ c ∈ C, c ≠ [] ∧ c.length ≤ 10 ∧ c.sum ≤ 20) (hcnt : ∀ u ∈ U, ∀ c ∈ C, cnt u c ≤ 70 ^ 20) :
    (countTable n U C cnt).Fits := by
  have hdig : ∀ v : ℕ, v ≤ 21 ^ 6 * 70 ^ 20 → (natStr v).length < 50 := by
    intro v hv
    have := natStr_length_le (n := v) (k := 49) (by norm_num) (lt_of_le_of_lt hv (by norm_num))
    omega
  have hfull : ∀ u ∈ U, ∀ c ∈ C, cnt (getFullHNF (hnfNumbers u)) c ≤ 70 ^ 20 := by
    intro u hu c hc
    rw [(hnf_numbers_full hn (hU u hu)).1]
    exact hcnt u hu c hc
  have hUl : U.length ≤ 21 ^ 6 := le_trans (hnf_count hn hnd hU) (Nat.pow_le_pow_left (by omega) 6)
  have hnd' : (U.map hnfNumbers).Nodup := by
    apply List.Nodup.map_on _ hnd
    intro u hu v hv e
    rw [← (hnf_numbers_full hn (hU u hu)).1, e, (hnf_numbers_full hn (hU v hv)).1]
  have hok := (C33_written_table n (U.map hnfNumbers) C (fun h c => cnt (getFullHNF h) c) hnd' hCn).1
  refine ⟨?_, ?_, ?_, ?_, ?_, ?_⟩
  · simpa [countTable, polyaTable] using hne
  · intro c hc
    obtain ⟨h1, h2, h3⟩ := hC c hc
    refine ⟨h1, ?_⟩
    have := joinStr_length_le [':'] 2 (c.map natStr) (by
      intro w hw
      obtain ⟨v, hv, rfl⟩ := List.mem_map.mp hw
      apply natStr_length_le (by norm_num)
      have := List.single_le_sum (fun _ _ => Nat.zero_le _) v hv
      omega)
    simp only [List.length_map, List.length_cons, List.length_nil] at this
    omega
  · intro r hr
    obtain ⟨h, hh, rfl⟩ := List.mem_map.mp hr
    obtain ⟨u, hu, rfl⟩ := List.mem_map.mp hh
    refine ⟨rfl, ?_⟩
    have := joinStr_length_le [' '] 2 ((hnfNumbers u).map intStr) (by
      intro w hw
      obtain ⟨v, hv, rfl⟩ := List.mem_map.mp hw
      obtain ⟨m, hm, rfl⟩ := hnf_entry_le hn (hU u hu) v hv
      rw [intStr_natCast]
      apply natStr_length_le (by norm_num)
      omega)
    have e : ((hnfNumbers u).map intStr).length = 6 := rfl
    rw [e] at this
    simp only [List.length_cons, List.length_nil] at this
    simp only
    omega
  · intro r hr
    obtain ⟨h, hh, rfl⟩ := List.mem_map.mp hr
    obtain ⟨u, hu, rfl⟩ := List.mem_map.mp hh
    refine ⟨by simp [countTable, polyaTable], fun v hv => ?_⟩
    obtain ⟨c, hc, rfl⟩ := List.mem_map.mp hv
    apply hdig
    exact le_trans (hfull u hu c hc) (by norm_num)
  · show (countTable n U C cnt).last.length = C.length
    unfold countTable
    rw [hok.colTotal]
    simp [polyaTable]
  · intro v hv
    unfold countTable at hv
    rw [hok.colTotal] at hv
    obtain ⟨j, hj, rfl⟩ := List.mem_map.mp hv
    apply hdig
    refine le_trans (sum_map_le _ (70 ^ 20) _ ?_) ?_
    · intro r hr
      obtain ⟨h, hh, rfl⟩ := List.mem_map.mp hr
      obtain ⟨u, hu, rfl⟩ := List.mem_map.mp hh
      have hj' : j < C.length := List.mem_range.mp hj
      rw [getD_lt (by simpa using hj'), List.getElem_map]
      exact hfull u hu _ (List.getElem_mem hj')
    · simp only [polyaTable, List.length_map]
      exact Nat.mul_le_mul_right _ hUl

end Phenum
