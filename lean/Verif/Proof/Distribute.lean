import Verif.Proof.Distribution
import Mathlib.Tactic.FieldSimp
import Mathlib.Tactic.Positivity
import Mathlib.Data.Rat.Floor
import Mathlib.Algebra.Order.Field.Rat
/-
The random distribution: invariants of the passes.
-/
namespace Phenum
open Spec

theorem share_nonneg (m g l : ℕ) : 0 ≤ share m g l := by unfold share; positivity

theorem drawCount_cases {v r : ℚ} (hv : 0 ≤ v) (hr : 0 ≤ r) : ⌊v⌋₊ ≤ drawCount v r ∧ drawCount v r ≤ ⌈v⌉₊ := by
  have h0 : 0 ≤ ⌊v⌋ := Int.floor_nonneg.mpr hv
  have h1 : ((⌊v⌋₊ : ℕ) : ℤ) = ⌊v⌋ := Int.natCast_floor_eq_floor hv
  have h2 : ((⌈v⌉₊ : ℕ) : ℤ) = ⌈v⌉ := Int.natCast_ceil_eq_ceil hv
  have h3 : ⌊v⌋ ≤ ⌈v⌉ := Int.floor_le_ceil v
  unfold drawCount
  by_cases h : r < Int.fract v
  · rw [if_pos h]
    have : ⌊v⌋ + 1 ≤ ⌈v⌉ := by
      have hf : 0 < Int.fract v := lt_of_le_of_lt hr h
      have : (⌊v⌋ : ℚ) < v := by unfold Int.fract at hf; linarith
      have : ⌊v⌋ < ⌈v⌉ := Int.lt_ceil.mpr this
      omega
    omega
  · rw [if_neg h]
    omega

theorem drawCount_int {k : ℕ} {r : ℚ} (hr : 0 ≤ r) : drawCount (k : ℚ) r = k := by
  have h := drawCount_cases (v := (k : ℚ)) (r := r) (by positivity) hr
  rw [Nat.floor_natCast, Nat.ceil_natCast] at h
  omega

/-- What a partial result satisfies. -/
structure DInv (n B : ℕ) (Q : DKey → ℕ → Prop) (st : ℕ × List (DKey × ℕ)) : Prop where
  total : st.1 = (st.2.map (·.2)).sum
  nodup : (st.2.map (·.1)).Nodup
  good : ∀ p ∈ st.2, 0 < p.2 ∧ Q p.1 p.2
  bound : st.1 ≤ (n - 1) + B

theorem dictBump_keys {d : List (DKey × ℕ)} {k : DKey} {v : ℕ} :
    (dictBump d k v).map (·.1) = if k ∈ d.map (·.1) then d.map (·.1) else d.map (·.1) ++ [k] := by
  induction d with
  | nil => rfl
  | cons p d ih =>
    rw [dictBump]
    by_cases h : p.1 = k
    · rw [if_pos h]; simp [h]
    · rw [if_neg h, List.map_cons, ih]
      have h' : ¬ k = p.1 := fun e => h e.symm
      by_cases hk : k ∈ d.map (·.1)
      · rw [if_pos hk, if_pos (by rw [List.map_cons]; exact List.mem_cons_of_mem _ hk)]; rfl
      · rw [if_neg hk, if_neg (by rw [List.map_cons, List.mem_cons, not_or]; exact ⟨h', hk⟩)]; rfl

theorem dictBump_sum {d : List (DKey × ℕ)} {k : DKey} {v : ℕ} :
    ((dictBump d k v).map (·.2)).sum = (d.map (·.2)).sum + v := by
  induction d with
  | nil => simp [dictBump]
  | cons p d ih =>
    rw [dictBump]
    split
    · simp; omega
    · simp only [List.map_cons, List.sum_cons, ih]; omega

theorem dictBump_mem {d : List (DKey × ℕ)} {k : DKey} {v : ℕ} {p : DKey × ℕ} (h : p ∈ dictBump d k v) :
    p ∈ d ∨ (∃ w, (k, w) ∈ d ∧ p = (k, w + v)) ∨ p = (k, v) := by
  induction d with
  | nil => right; right; simpa [dictBump] using h
  | cons q d ih =>
    rw [dictBump] at h
    split at h
    · next e =>
      rcases List.mem_cons.mp h with h | h
      · right; left; exact ⟨q.2, by simp [← e], by rw [h, e]⟩
      · left; exact List.mem_cons_of_mem _ h
    · rcases List.mem_cons.mp h with h | h
      · left; rw [h]; simp
      · rcases ih h with h | ⟨w, h, e⟩ | h
        · left; simp [h]
        · right; left; exact ⟨w, by simp [h], e⟩
        · right; right; exact h

theorem vinsert_inv {n B : ℕ} {Q : DKey → ℕ → Prop} {st st' : ℕ × List (DKey × ℕ)} {k : DKey} {v : ℕ} (hI : DInv n B Q st)
    (h : vinsert k v n st = some st') (hv : v ≤ B) (hQ0 : 0 < v → Q k v) (hQ1 : ∀ w, Q k w → 0 < v → Q k (w + v)) : DInv n B Q st' := by
  unfold vinsert at h
  split at h
  · next hlt =>
    split at h
    · next hpos =>
      obtain rfl := Option.some.inj h
      refine ⟨?_, ?_, ?_, ?_⟩
      · simp only [dictBump_sum, hI.total]
      · simp only [dictBump_keys]
        split
        · exact hI.nodup
        · next hk => exact List.nodup_append.mpr ⟨hI.nodup, by simp, by
            intro a ha b hb; rw [List.mem_singleton] at hb; subst hb; rintro rfl; exact hk ha⟩
      · intro p hp
        rcases dictBump_mem hp with h | ⟨w, h, rfl⟩ | rfl
        · exact hI.good p h
        · have := hI.good _ h
          exact ⟨by simp only at this ⊢; omega, hQ1 w this.2 hpos⟩
        · exact ⟨hpos, hQ0 hpos⟩
      · simp only; omega
    · obtain rfl := Option.some.inj h
      exact hI
  · simp at h

theorem vinsert_fst {n : ℕ} {st st' : ℕ × List (DKey × ℕ)} {k : DKey} {v : ℕ} (h : vinsert k v n st = some st') : st'.1 = st.1 + v := by
  unfold vinsert at h
  split at h
  · split at h
    · obtain rfl := Option.some.inj h; rfl
    · obtain rfl := Option.some.inj h; omega
  · simp at h

theorem vinsert_none {n : ℕ} {st : ℕ × List (DKey × ℕ)} {k : DKey} {v : ℕ} (h : vinsert k v n st = none) : n ≤ st.1 := by
  unfold vinsert at h
  split at h
  · split at h <;> simp at h
  · omega

/-- a predicate on (key, count) kept by adding draws of the remaining shares -/
theorem passLoop_inv {m n g B : ℕ} {Q : DKey → ℕ → Prop} : ∀ (rel : List (DKey × ℕ)) (draws : ℕ → ℚ) (st : ℕ × List (DKey × ℕ)),
    (∀ i, 0 ≤ draws i) →
    (∀ p ∈ rel, ⌈share m g p.2⌉₊ ≤ B) →
    (∀ p ∈ rel, ∀ v, 0 < v → v ≤ ⌈share m g p.2⌉₊ → Q p.1 v ∧ ∀ w, Q p.1 w → Q p.1 (w + v)) →
    DInv n B Q st → DInv n B Q (passLoop m n g rel draws st).1
  | [], _, _, _, _, _, h => h
  | (k, l) :: rest, draws, st, hd, hB, hQ, hI => by
    rw [passLoop]
    have hc := drawCount_cases (share_nonneg m g l) (hd 0)
    split
    · exact hI
    · next st' he =>
      have hQ' := hQ (k, l) (by simp)
      exact passLoop_inv rest _ st' (fun i => hd (i + 1)) (fun p hp => hB p (by simp [hp])) (fun p hp => hQ p (by simp [hp]))
        (vinsert_inv hI he (le_trans hc.2 (hB (k, l) (by simp))) (fun h => (hQ' _ h hc.2).1) (fun w hw h => (hQ' _ h hc.2).2 w hw))

theorem passLoop_lower {m n g : ℕ} : ∀ (rel : List (DKey × ℕ)) (draws : ℕ → ℚ) (st : ℕ × List (DKey × ℕ)),
    (∀ i, 0 ≤ draws i) →
    n ≤ (passLoop m n g rel draws st).1.1 ∨ st.1 + (rel.map (fun p => ⌊share m g p.2⌋₊)).sum ≤ (passLoop m n g rel draws st).1.1
  | [], _, _, _ => by right; simp [passLoop]
  | (k, l) :: rest, draws, st, hd => by
    rw [passLoop]
    have hc := drawCount_cases (share_nonneg m g l) (hd 0)
    split
    · next he => exact Or.inl (vinsert_none he)
    · next st' he =>
      rcases passLoop_lower (m := m) (n := n) (g := g) rest (fun i => draws (i + 1)) st' (fun i => hd (i + 1)) with h | h
      · exact Or.inl h
      · right
        have := vinsert_fst he
        simp only [List.map_cons, List.sum_cons]
        omega

theorem recountLoop_lower {n g : ℕ} {rel : List (DKey × ℕ)} : ∀ (k : ℕ) (draws : ℕ → ℚ) (st : ℕ × List (DKey × ℕ)),
    (∀ i, 0 ≤ draws i) → st.1 ≤ (recountLoop n g rel k draws st).1 ∨ n ≤ (recountLoop n g rel k draws st).1
  | 0, _, _, _ => by left; simp [recountLoop]
  | k + 1, draws, st, hd => by
    rw [recountLoop]
    split
    · next hlt =>
      simp only
      rcases passLoop_lower (m := n - st.1) (n := n) (g := g) rel draws st hd with h | h <;>
        rcases recountLoop_lower (n := n) (g := g) (rel := rel) k (fun i => draws (i + (passLoop (n - st.1) n g rel draws st).2)) (passLoop (n - st.1) n g rel draws st).1
          (fun i => hd _) with h' | h' <;> omega
    · left; simp

theorem share_mono {m m' g l l' : ℕ} (h : m ≤ m') (hl : l ≤ l') : share m g l ≤ share m' g l' := by
  unfold share
  have h1 : (m : ℚ) ≤ m' := by exact_mod_cast h
  have h2 : (l : ℚ) ≤ l' := by exact_mod_cast hl
  gcongr

theorem recountLoop_inv {n g B : ℕ} {rel : List (DKey × ℕ)} (lim : DKey → ℕ) (hlim : ∀ p ∈ rel, p.2 = lim p.1)
    (hB : ∀ p ∈ rel, ⌈share n g p.2⌉₊ ≤ B) :
    ∀ (k j : ℕ) (draws : ℕ → ℚ) (st : ℕ × List (DKey × ℕ)), (∀ i, 0 ≤ draws i) → (rel.map (·.1)).Nodup →
    DInv n B (fun key v => key ∈ rel.map (·.1) ∧ v ≤ j * ⌈share n g (lim key)⌉₊) st →
    DInv n B (fun key v => key ∈ rel.map (·.1) ∧ v ≤ (j + k) * ⌈share n g (lim key)⌉₊) (recountLoop n g rel k draws st)
  | 0, j, draws, st, _, _, hI => hI
  | k + 1, j, draws, st, hd, hnd, hI => by
    have weaken : ∀ {i i' : ℕ} {st}, i ≤ i' → DInv n B (fun key v => key ∈ rel.map (·.1) ∧ v ≤ i * ⌈share n g (lim key)⌉₊) st →
        DInv n B (fun key v => key ∈ rel.map (·.1) ∧ v ≤ i' * ⌈share n g (lim key)⌉₊) st := by
      intro i i' st hii h
      exact ⟨h.total, h.nodup, fun p hp => ⟨(h.good p hp).1, (h.good p hp).2.1, le_trans (h.good p hp).2.2 (Nat.mul_le_mul_right _ hii)⟩, h.bound⟩
    rw [recountLoop]
    split
    · have h1 : DInv n B (fun key v => key ∈ rel.map (·.1) ∧ v ≤ (j + 1) * ⌈share n g (lim key)⌉₊) (passLoop (n - st.1) n g rel draws st).1 := by
        -- every key is met once in the pass
        have key : ∀ (rest : List (DKey × ℕ)) (draws : ℕ → ℚ) (s : ℕ × List (DKey × ℕ)), (∀ i, 0 ≤ draws i) →
            (∀ p ∈ rest, p ∈ rel) → (rest.map (·.1)).Nodup →
            DInv n B (fun key v => key ∈ rel.map (·.1) ∧ v ≤ (if key ∈ rest.map (·.1) then j else j + 1) * ⌈share n g (lim key)⌉₊) s →
            DInv n B (fun key v => key ∈ rel.map (·.1) ∧ v ≤ (j + 1) * ⌈share n g (lim key)⌉₊) (passLoop (n - st.1) n g rest draws s).1 := by
          intro rest
          induction rest with
          | nil => intro draws s _ _ _ h; simpa [passLoop] using h
          | cons p rest ih =>
            obtain ⟨k0, l⟩ := p
            intro draws s hd hs hn h
            rw [List.map_cons, List.nodup_cons] at hn
            rw [passLoop]
            have hc := drawCount_cases (share_nonneg (n - st.1) g l) (hd 0)
            have hkr := hs (k0, l) (by simp)
            have hl : l = lim k0 := hlim _ hkr
            have hcl : drawCount (share (n - st.1) g l) (draws 0) ≤ ⌈share n g (lim k0)⌉₊ := by
              refine le_trans hc.2 (Nat.ceil_le_ceil ?_)
              rw [← hl]
              exact share_mono (Nat.sub_le _ _) le_rfl
            -- relax the bound of the other keys
            split
            · refine ⟨h.total, h.nodup, fun p hp => ⟨(h.good p hp).1, (h.good p hp).2.1, le_trans (h.good p hp).2.2 (Nat.mul_le_mul_right _ ?_)⟩, h.bound⟩
              split <;> omega
            · next s' he =>
              refine ih _ s' (fun i => hd (i + 1)) (fun p hp => hs p (by simp [hp])) hn.2 ?_
              have hfst := vinsert_fst he
              unfold vinsert at he
              split at he
              · next hlt =>
                have hbound : s'.1 ≤ n - 1 + B := by
                  have : ⌈share n g (lim k0)⌉₊ ≤ B := by have := hB _ hkr; rw [← hl]; exact this
                  omega
                have hother : ∀ p ∈ s.2, p.1 ≠ k0 → p.2 ≤ (if p.1 ∈ rest.map (·.1) then j else j + 1) * ⌈share n g (lim p.1)⌉₊ := by
                  intro p hp hne
                  have := (h.good p hp).2.2
                  simp only [List.map_cons, List.mem_cons, hne, false_or] at this
                  exact this
                have hmono : ∀ p ∈ s.2, p.2 ≤ (if p.1 ∈ rest.map (·.1) then j else j + 1) * ⌈share n g (lim p.1)⌉₊ := by
                  intro p hp
                  by_cases hne : p.1 = k0
                  · have h3 := (h.good p hp).2.2
                    rw [if_pos (by rw [List.map_cons, hne]; exact List.mem_cons_self)] at h3
                    refine le_trans h3 (Nat.mul_le_mul_right _ ?_)
                    split <;> omega
                  · exact hother p hp hne
                split at he
                · next hpos =>
                  obtain rfl := Option.some.inj he
                  refine ⟨?_, ?_, ?_, hbound⟩
                  · simp only [dictBump_sum, h.total]
                  · simp only [dictBump_keys]
                    split
                    · exact h.nodup
                    · next hk => exact List.nodup_append.mpr ⟨h.nodup, by simp, by
                        intro a ha b hb; rw [List.mem_singleton] at hb; subst hb; rintro rfl; exact hk ha⟩
                  · intro p hp
                    rcases dictBump_mem hp with h2 | ⟨w, h2, rfl⟩ | rfl
                    · exact ⟨(h.good p h2).1, (h.good p h2).2.1, hmono p h2⟩
                    · have h3 := (h.good _ h2)
                      refine ⟨by simp only at h3 ⊢; omega, h3.2.1, ?_⟩
                      have h4 := h3.2.2
                      rw [if_pos (by rw [List.map_cons]; exact List.mem_cons_self)] at h4
                      simp only at h4 ⊢
                      rw [if_neg hn.1, Nat.add_mul, Nat.one_mul]
                      omega
                    · refine ⟨hpos, List.mem_map.mpr ⟨_, hkr, rfl⟩, ?_⟩
                      simp only
                      rw [if_neg hn.1, Nat.add_mul, Nat.one_mul]
                      omega
                · obtain rfl := Option.some.inj he
                  exact ⟨h.total, h.nodup, fun p hp => ⟨(h.good p hp).1, (h.good p hp).2.1, hmono p hp⟩, h.bound⟩
              · simp at he
        refine key rel draws st hd (fun _ h => h) hnd ?_
        refine ⟨hI.total, hI.nodup, fun p hp => ⟨(hI.good p hp).1, (hI.good p hp).2.1, ?_⟩, hI.bound⟩
        rw [if_pos (hI.good p hp).2.1]
        exact (hI.good p hp).2.2
      have := recountLoop_inv lim hlim hB k (j + 1) (fun i => draws (i + (passLoop (n - st.1) n g rel draws st).2)) _ (fun i => hd _) hnd h1
      rw [show j + (k + 1) = j + 1 + k by omega]
      exact this
    · exact weaken (by omega) hI

/-- integral shares: one pass gives every type its share -/
theorem passLoop_exact {n g : ℕ} (c : DKey × ℕ → ℕ) : ∀ (rel : List (DKey × ℕ)) (draws : ℕ → ℚ) (d : List (DKey × ℕ)) (tot : ℕ),
    (∀ i, 0 ≤ draws i) → (∀ p ∈ rel, share n g p.2 = (c p : ℚ)) → ((d ++ rel).map (·.1)).Nodup → tot + (rel.map c).sum = n →
    (passLoop n n g rel draws (tot, d)).1 = (n, d ++ (rel.map (fun p => (p.1, c p))).filter (fun p => decide (0 < p.2)))
  | [], _, d, tot, _, _, _, h => by
    simp only [List.map_nil, List.sum_nil, Nat.add_zero] at h
    simp [passLoop, h]
  | p :: rest, draws, d, tot, hd, hc, hnd, hs => by
    obtain ⟨k, l⟩ := p
    simp only [List.map_cons, List.sum_cons] at hs
    rw [passLoop, hc (k, l) (by simp), drawCount_int (hd 0)]
    have hnd' : ((d ++ rest).map (·.1)).Nodup := by
      rw [List.map_append, List.map_cons] at hnd
      rw [List.map_append]
      exact hnd.sublist (List.Sublist.append_left (List.sublist_cons_self _ _) _)
    split
    · next he =>
      have hn := vinsert_none he
      simp only at hn
      have h0 : c (k, l) = 0 ∧ (rest.map c).sum = 0 := by omega
      have hall : ∀ p ∈ (k, l) :: rest, c p = 0 := by
        intro p hp
        rcases List.mem_cons.mp hp with rfl | hp
        · exact h0.1
        · exact List.sum_eq_zero_iff.mp h0.2 _ (List.mem_map_of_mem hp)
      have : ((((k, l) :: rest).map (fun p => (p.1, c p))).filter (fun p => decide (0 < p.2))) = [] := by
        rw [List.filter_eq_nil_iff]
        intro q hq
        obtain ⟨p, hp, rfl⟩ := List.mem_map.mp hq
        simp [hall p hp]
      rw [this, List.append_nil]
      simp only [Prod.mk.injEq, and_true]
      omega
    · next st' he =>
      unfold vinsert at he
      split at he
      · split at he
        · next hlt hpos =>
          obtain rfl := Option.some.inj he
          simp only
          rw [dictBump_new (by
            intro hm
            rw [List.map_append, List.nodup_append] at hnd
            exact hnd.2.2 _ hm k (by simp) rfl)]
          rw [passLoop_exact c rest (fun i => draws (i + 1)) _ _ (fun i => hd (i + 1)) (fun p hp => hc p (by simp [hp])) (by simpa using hnd) (by omega)]
          rw [List.map_cons, List.filter_cons_of_pos (by simpa using hpos)]
          simp
        · next hlt hpos =>
          obtain rfl := Option.some.inj he
          simp only
          rw [passLoop_exact c rest (fun i => draws (i + 1)) _ _ (fun i => hd (i + 1)) (fun p hp => hc p (by simp [hp])) hnd' (by omega)]
          rw [List.map_cons, List.filter_cons_of_neg (by simpa using hpos)]
      · simp at he

theorem recountLoop_done {n g : ℕ} {rel : List (DKey × ℕ)} {k : ℕ} {draws : ℕ → ℚ} {st : ℕ × List (DKey × ℕ)} (h : n ≤ st.1) :
    recountLoop n g rel k draws st = st := by
  cases k with
  | zero => rfl
  | succ k => rw [recountLoop, if_neg (by omega)]

theorem sortShares_perm (n g : ℕ) (rel : List (DKey × ℕ)) : (sortShares n g rel).Perm rel := List.perm_insertionSort _ _

/-- the integer parts of the shares miss less than one per type that has structures -/
theorem sum_floor_share {n g : ℕ} (rel : List (DKey × ℕ)) (hg : (rel.map (·.2)).sum = g) (hpos : 0 < g) :
    n ≤ (rel.map (fun p => ⌊share n g p.2⌋₊)).sum + ((rel.filter (fun p => decide (0 < p.2))).length - 1) := by
  have h1 : (n : ℚ) = (rel.map (fun p => share n g p.2)).sum := by
    have e : ∀ L : List (DKey × ℕ), (L.map (fun p => share n g p.2)).sum = ((L.map (·.2)).sum : ℕ) / (g : ℚ) * n := by
      intro L
      induction L with
      | nil => simp
      | cons p L ih => rw [List.map_cons, List.sum_cons, ih]; unfold share; simp; ring
    rw [e, hg]
    have : (g : ℚ) ≠ 0 := by positivity
    field_simp
  have h2 : ∀ L : List (DKey × ℕ), (∀ p ∈ L, p.2 ≤ g) →
      ((L.map (fun p => share n g p.2)).sum ≤ ((L.map (fun p => ⌊share n g p.2⌋₊)).sum : ℕ) + ((L.filter (fun p => decide (0 < p.2))).length : ℕ)) ∧
      (0 < (L.filter (fun p => decide (0 < p.2))).length → (L.map (fun p => share n g p.2)).sum < ((L.map (fun p => ⌊share n g p.2⌋₊)).sum : ℕ) + ((L.filter (fun p => decide (0 < p.2))).length : ℕ)) := by
    intro L hL
    induction L with
    | nil => simp
    | cons p L ih =>
      obtain ⟨i1, i2⟩ := ih (fun q hq => hL q (by simp [hq]))
      rw [List.map_cons, List.sum_cons, List.map_cons, List.sum_cons]
      by_cases hp : 0 < p.2
      · rw [List.filter_cons_of_pos (by simpa using hp), List.length_cons]
        have := Nat.lt_floor_add_one (share n g p.2)
        push_cast
        constructor
        · push_cast at i1; linarith
        · intro _; push_cast at i1; linarith
      · have h0 : p.2 = 0 := by omega
        rw [List.filter_cons_of_neg (by simpa using hp)]
        have : share n g p.2 = 0 := by simp [share, h0]
        rw [this]
        have h0' : ⌊(0 : ℚ)⌋₊ = 0 := Nat.floor_zero
        rw [h0', zero_add, Nat.zero_add]
        exact ⟨i1, i2⟩
  have hle : ∀ p ∈ rel, p.2 ≤ g := by
    intro p hp
    rw [← hg]
    exact List.single_le_sum (by simp) _ (List.mem_map_of_mem hp)
  have hne : 0 < (rel.filter (fun p => decide (0 < p.2))).length := by
    rcases Nat.eq_zero_or_pos (rel.filter (fun p : DKey × ℕ => decide (0 < p.2))).length with h | h
    · exfalso
      rw [List.length_eq_zero_iff, List.filter_eq_nil_iff] at h
      have : (rel.map (·.2)).sum = 0 := by
        rw [List.sum_eq_zero_iff]
        intro x hx
        obtain ⟨p, hp, rfl⟩ := List.mem_map.mp hx
        have := h p hp
        simpa using this
      omega
    · exact h
  have := (h2 rel hle).2 hne
  rw [← h1] at this
  have : n < (rel.map (fun p => ⌊share n g p.2⌋₊)).sum + (rel.filter (fun p => decide (0 < p.2))).length := by exact_mod_cast this
  omega

end Phenum
