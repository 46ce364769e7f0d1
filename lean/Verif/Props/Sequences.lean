import Verif.Model.SequenceCount
import Verif.Proof.PolyaExact
/-
C100: the class `Sequence`: the sequences of exponents, their number, and the expansion that does not use append.
-/
namespace Phenum
open Spec

/-- The exponents of one term of `(x_1^p + ... + x_k^p)^e` that matter for the targets: multiples of `p`, the first one being `root`, the others at most
the targets, with a sum of at most `p*e`. -/
def Spec.RelevantSequence (p e root : ℕ) (targets : List ℕ) (s : List ℕ) : Prop :=
  s.length = targets.length ∧ s.head? = some root ∧ (∀ x ∈ s, p ∣ x) ∧ (∀ i, 1 ≤ i → s.getD i 0 ≤ targets.getD i 0) ∧ s.sum ≤ p * e

theorem seqKids_eq (m : Multinom) (t root used : ℕ) : seqKids m.possible m.powersum t root used = kidsOf m t root used := rfl

theorem kids_ne {m : Multinom} (hp : 1 ≤ m.power) (he : 1 ≤ m.exponent) {t root used : ℕ} (hr : m.power ∣ root) (hu : m.power ∣ used) (hru : root ≤ used)
    (hup : used ≤ m.powersum) : kidsOf m t root used ≠ [] := by
  have : 0 ∈ kidsOf m t root used := (mem_kidsOf hp he hr hu hru 0).mpr ⟨dvd_zero _, by omega, by omega⟩
  exact List.ne_nil_of_mem this

theorem expand_cons {m : Multinom} (hp : 1 ≤ m.power) (he : 1 ≤ m.exponent) {t : ℕ} {ts : List ℕ} {root used : ℕ} (hr : m.power ∣ root)
    (hu : m.power ∣ used) (hru : root ≤ used) (hup : used ≤ m.powersum) :
    seqExpand m.possible m.powersum (t :: ts) root used =
      (kidsOf m t root used).flatMap (fun k => (seqExpand m.possible m.powersum ts k (used + k)).map (fun s => root :: s)) := by
  rw [seqExpand_cons, if_neg (by simpa using kids_ne hp he hr hu hru hup), List.map_flatMap]

theorem expand_pos {m : Multinom} (hp : 1 ≤ m.power) (he : 1 ≤ m.exponent) {ts : List ℕ} {root used : ℕ} (hr : m.power ∣ root)
    (hu : m.power ∣ used) (hru : root ≤ used) (hup : used ≤ m.powersum) :
    0 < (seqExpand m.possible m.powersum ts root used).length := by
  apply List.length_pos_of_mem (a := root :: List.replicate ts.length 0)
  rw [mem_seqExpand hp he ts hr hu hru hup]
  refine ⟨_, rfl, ?_, ?_, by simpa using hup⟩
  · intro x hx
    rw [List.eq_of_mem_replicate hx]
    exact dvd_zero _
  · clear hup hru hu hr
    induction ts with
    | nil => exact List.Forall₂.nil
    | cons t ts ih => exact List.Forall₂.cons (Nat.zero_le _) ih

theorem kidcount_eq {m : Multinom} (hp : 1 ≤ m.power) (he : 1 ≤ m.exponent) : ∀ (ts : List ℕ) {t root used : ℕ}, m.power ∣ root →
    m.power ∣ used → root ≤ used → used ≤ m.powersum →
    seqKidcount m.possible m.powersum (t :: ts) root used = (seqExpand m.possible m.powersum (t :: ts) root used).length := by
  intro ts
  induction ts with
  | nil =>
    intro t root used hr hu hru hup
    rw [expand_cons hp he hr hu hru hup, seqKidcount]
    simp only [seqKidcount, List.map_const', List.sum_replicate, smul_zero, if_true, seqKids_eq]
    simp [seqExpand]
  | cons t' ts ih =>
    intro t root used hr hu hru hup
    rw [expand_cons hp he hr hu hru hup, seqKidcount]
    have hk : ∀ k ∈ kidsOf m t root used, m.power ∣ k ∧ k ≤ t ∧ used + k ≤ m.powersum := fun k hk => (mem_kidsOf hp he hr hu hru k).mp hk
    have h1 : ((seqKids m.possible m.powersum t root used).map (fun k => seqKidcount m.possible m.powersum (t' :: ts) k (used + k))).sum =
        ((kidsOf m t root used).flatMap (fun k => (seqExpand m.possible m.powersum (t' :: ts) k (used + k)).map (fun s => root :: s))).length := by
      rw [List.length_flatMap, seqKids_eq]
      congr 1
      apply List.map_congr_left
      intro k hkm
      obtain ⟨a, b, c⟩ := hk k hkm
      rw [List.length_map]
      exact ih a (Dvd.dvd.add hu a) (by omega) c
    have h2 : 0 < ((kidsOf m t root used).flatMap (fun k => (seqExpand m.possible m.powersum (t' :: ts) k (used + k)).map (fun s => root :: s))).length := by
      rw [← expand_cons hp he hr hu hru hup]
      exact expand_pos hp he hr hu hru hup
    simp only [h1]
    rw [if_neg (by omega)]

/-- C100. The sequences for a factor of the polynomial: `expand` lists exactly the relevant ones, each once. -/
theorem C100_expand (p e root : ℕ) (c : ℕ) (arrowings : List Bool) (t : ℕ) (ts : List ℕ) (hp : 1 ≤ p) (he : 1 ≤ e) (hr : p ∣ root) (hle : root ≤ p * e) :
    (seqExpand (⟨p, c, arrowings, e⟩ : Multinom).possible (p * e) ts root root).Nodup ∧
      ∀ s, s ∈ seqExpand (⟨p, c, arrowings, e⟩ : Multinom).possible (p * e) ts root root ↔ RelevantSequence p e root (t :: ts) s := by
  refine ⟨seqExpand_nodup (m := ⟨p, c, arrowings, e⟩) hp ts root root, ?_⟩
  intro s
  have h := mem_seqExpand (m := ⟨p, c, arrowings, e⟩) hp he ts hr hr le_rfl hle s
  refine h.trans ?_
  constructor
  · rintro ⟨r, rfl, h1, h2, h3⟩
    refine ⟨by simp [h2.length_eq], rfl, ?_, ?_, by rw [List.sum_cons]; exact h3⟩
    · intro x hx
      rcases List.mem_cons.mp hx with rfl | hx
      · exact hr
      · exact h1 x hx
    · intro i hi
      obtain ⟨i, rfl⟩ : ∃ j, i = j + 1 := ⟨i - 1, by omega⟩
      rw [List.getD_cons_succ, List.getD_cons_succ]
      rw [List.forall₂_iff_get] at h2
      obtain ⟨h4, h5⟩ := h2
      by_cases hi' : i < r.length
      · have := h5 i hi' (by omega)
        simpa [List.getD_eq_getElem?_getD, hi', show i < ts.length by omega] using this
      · rw [List.getD_eq_default _ _ (by omega)]
        exact Nat.zero_le _
  · rintro ⟨h1, h2, h3, h4, h5⟩
    cases s with
    | nil => simp at h1
    | cons x r =>
      obtain rfl : x = root := by simpa using h2
      refine ⟨r, rfl, fun y hy => h3 y (List.mem_cons_of_mem _ hy), ?_, by rw [List.sum_cons] at h5; exact h5⟩
      rw [List.forall₂_iff_get]
      have hl : r.length = ts.length := by simpa using h1
      refine ⟨hl, ?_⟩
      intro i hi hi'
      have := h4 (i + 1) (by omega)
      rw [List.getD_cons_succ, List.getD_cons_succ] at this
      simpa [List.getD_eq_getElem?_getD, hi, hi'] using this

/-- C100: for two or more variables `kidcount` is the number of these sequences. -/
theorem C100_kidcount (p e root : ℕ) (c : ℕ) (arrowings : List Bool) (t' : ℕ) (ts : List ℕ) (hp : 1 ≤ p) (he : 1 ≤ e) (hr : p ∣ root) (hle : root ≤ p * e) :
    seqKidcount (⟨p, c, arrowings, e⟩ : Multinom).possible (p * e) (t' :: ts) root root =
      (seqExpand (⟨p, c, arrowings, e⟩ : Multinom).possible (p * e) (t' :: ts) root root).length :=
  kidcount_eq (m := ⟨p, c, arrowings, e⟩) hp he ts hr hr le_rfl hle

/-! ### expansion without append -/

theorem setCell_mid {A C : List (List ℕ)} {row : List ℕ} {col : ℕ} (hc : col < row.length) (val : ℕ) :
    setCell (A ++ row :: C) A.length col val = .ok (A ++ row.set col val :: C) := by
  unfold setCell
  simp [hc]

theorem setCells_mid (col val : ℕ) : ∀ (B A C : List (List ℕ)), (∀ row ∈ B, col < row.length) →
    setCells (A ++ B ++ C) col val A.length B.length = .ok (A ++ B.map (fun row => row.set col val) ++ C)
  | [], A, C, _ => rfl
  | row :: B, A, C, h => by
    rw [List.length_cons, setCells, List.append_assoc, List.cons_append, setCell_mid (h row (by simp))]
    simp only [bind, Except.bind]
    have := setCells_mid col val B (A ++ [row.set col val]) C (fun r hr => h r (List.mem_cons_of_mem _ hr))
    simp only [List.append_assoc, List.length_append, List.length_singleton, List.singleton_append, List.map_cons] at this ⊢
    exact this

/-- the rows with their last entries replaced -/
def patched (c : ℕ) (B E : List (List ℕ)) : List (List ℕ) := List.zipWith (fun row e => row.take c ++ e) B E

theorem patched_length {c : ℕ} {B E : List (List ℕ)} (h : B.length = E.length) : (patched c B E).length = E.length := by
  unfold patched; rw [List.length_zipWith]; omega

theorem patched_rows {vc c : ℕ} : ∀ {B E : List (List ℕ)}, (∀ row ∈ B, row.length = vc) → (∀ s ∈ E, s.length + c = vc) →
    ∀ row ∈ patched c B E, row.length = vc
  | [], _, _, _ => by simp [patched]
  | _ :: _, [], _, _ => by simp [patched]
  | row :: B, e :: E, hB, hE => by
    intro r hr
    unfold patched at hr
    rw [List.zipWith_cons_cons] at hr
    rcases List.mem_cons.mp hr with rfl | hr
    · have h1 := hB row (by simp)
      have h2 := hE e (by simp)
      rw [List.length_append, List.length_take]; omega
    · exact patched_rows (fun r hr => hB r (List.mem_cons_of_mem _ hr)) (fun s hs => hE s (List.mem_cons_of_mem _ hs)) r hr

theorem patched_set {vc c root : ℕ} : ∀ {B E : List (List ℕ)}, (∀ row ∈ B, row.length = vc) → c < vc →
    (patched (c + 1) B E).map (fun row => row.set c root) = patched c B (E.map (fun s => root :: s))
  | [], _, _, _ => by simp [patched]
  | _ :: _, [], _, _ => by simp [patched]
  | row :: B, e :: E, hB, hc => by
    have ih := patched_set (root := root) (B := B) (E := E) (fun r hr => hB r (List.mem_cons_of_mem _ hr)) hc
    unfold patched at ih ⊢
    rw [List.zipWith_cons_cons, List.map_cons, List.map_cons, List.zipWith_cons_cons, ih]
    congr 1
    have h1 := hB row (by simp)
    rw [List.take_succ_eq_append_getElem (by omega), List.append_assoc]
    have : (row.take c).length = c := by rw [List.length_take]; omega
    rw [List.set_append_right _ _ (by omega)]
    simp [this]

theorem patched_append {c : ℕ} {B1 B2 E1 E2 : List (List ℕ)} (h : B1.length = E1.length) :
    patched c (B1 ++ B2) (E1 ++ E2) = patched c B1 E1 ++ patched c B2 E2 := by
  unfold patched
  exact List.zipWith_append h

theorem fill_eq {m : Multinom} (hp : 1 ≤ m.power) (he : 1 ≤ m.exponent) (vc : ℕ) : ∀ (ts : List ℕ) {root used : ℕ} (c : ℕ), m.power ∣ root →
    m.power ∣ used → root ≤ used → used ≤ m.powersum → ts.length + 1 + c = vc → ∀ (A B C : List (List ℕ)), (∀ row ∈ B, row.length = vc) →
    B.length = (seqExpand m.possible m.powersum ts root used).length →
    seqFill m.possible m.powersum vc ts root used (A ++ B ++ C) A.length (c + 1) =
      .ok (A ++ patched c B (seqExpand m.possible m.powersum ts root used) ++ C) := by
  intro ts
  induction ts with
  | nil =>
    intro root used c hr hu hru hup hvc A B C hB hlen
    simp only [seqExpand, List.length_singleton] at hlen ⊢
    obtain ⟨row, rfl⟩ := List.length_eq_one_iff.mp hlen
    have h1 := hB row (by simp)
    simp only [List.length_nil, Nat.zero_add] at hvc
    unfold seqFill
    rw [List.append_assoc, List.singleton_append, Nat.add_sub_cancel, setCell_mid (by omega)]
    unfold patched
    rw [List.zipWith_cons_cons, List.zipWith_nil_left, List.append_assoc, List.singleton_append]
    congr 3
    obtain ⟨l, x, rfl⟩ : ∃ l x, row = l ++ [x] := ⟨row.dropLast, row.getLast (by intro e; subst e; simp at h1; omega), (List.dropLast_append_getLast _).symm⟩
    have : l.length = c := by simp at h1; omega
    subst this
    simp
  | cons t ts ih =>
    intro root used c hr hu hru hup hvc A B C hB hlen
    have hpos := expand_pos hp he (ts := t :: ts) hr hu hru hup
    have hcount := kidcount_eq hp he ts (t := t) hr hu hru hup
    have hk : ∀ k ∈ kidsOf m t root used, m.power ∣ k ∧ k ≤ t ∧ used + k ≤ m.powersum := fun k hk => (mem_kidsOf hp he hr hu hru k).mp hk
    have hne : seqKidcount m.possible m.powersum (t :: ts) root used ≠ 0 := by omega
    rw [seqFill]
    simp only [if_neg hne, seqKids_eq]
    rw [expand_cons hp he hr hu hru hup] at hlen ⊢
    rw [List.length_cons] at hvc
    have loop : ∀ (K : List ℕ), (∀ k ∈ K, m.power ∣ k ∧ k ≤ t ∧ used + k ≤ m.powersum) → ∀ (A B : List (List ℕ)), (∀ row ∈ B, row.length = vc) →
        B.length = (K.flatMap (fun k => (seqExpand m.possible m.powersum ts k (used + k)).map (fun s => root :: s))).length →
        K.foldlM (fun (st : List (List ℕ) × ℕ) k => do
          let seqs ← seqFill m.possible m.powersum vc ts k (used + k) st.1 st.2 (c + 1 + 1)
          let n := seqKidcount m.possible m.powersum ts k (used + k) + (if c + 1 + 1 = vc then 1 else 0)
          let seqs ← setCells seqs (c + 1 - 1) root st.2 n
          pure (seqs, st.2 + n)) (A ++ B ++ C, A.length) =
        (.ok (A ++ patched c B (K.flatMap (fun k => (seqExpand m.possible m.powersum ts k (used + k)).map (fun s => root :: s))) ++ C, A.length + B.length) :
          Py (List (List ℕ) × ℕ)) := by
      intro K
      induction K with
      | nil =>
        intro _ A B hB hlen
        simp only [List.flatMap_nil, List.length_nil, List.length_eq_zero_iff] at hlen
        subst hlen
        rfl
      | cons k K ihK =>
        intro hk A B hB hlen
        obtain ⟨k1, k2, k3⟩ := hk k (by simp)
        rw [List.flatMap_cons, List.length_append, List.length_map] at hlen
        set E := seqExpand m.possible m.powersum ts k (used + k) with hE
        obtain ⟨B1, B2, rfl, hB1⟩ : ∃ B1 B2, B = B1 ++ B2 ∧ B1.length = E.length :=
          ⟨B.take E.length, B.drop E.length, (List.take_append_drop _ _).symm, by rw [List.length_take]; omega⟩
        have hB1r : ∀ row ∈ B1, row.length = vc := fun r hr => hB r (List.mem_append_left _ hr)
        have hB2r : ∀ row ∈ B2, row.length = vc := fun r hr => hB r (List.mem_append_right _ hr)
        have hn : seqKidcount m.possible m.powersum ts k (used + k) + (if c + 1 + 1 = vc then 1 else 0) = E.length := by
          cases ts with
          | nil =>
            have : c + 1 + 1 = vc := by simp at hvc; omega
            rw [if_pos this, hE]; rfl
          | cons t' ts =>
            rw [if_neg (by simp at hvc; omega), hE]
            exact kidcount_eq hp he ts k1 (Dvd.dvd.add hu k1) (by omega) k3
        have hfill := ih (root := k) (used := used + k) (c + 1) k1 (Dvd.dvd.add hu k1) (by omega) k3 (by omega) A B1 (B2 ++ C) hB1r hB1
        rw [← hE] at hfill
        have hEl : ∀ s ∈ E, s.length + (c + 1) = vc := by
          intro s hs
          rw [seqExpand_len m ts k (used + k) s hs]; omega
        have hset := setCells_mid c root (patched (c + 1) B1 E) A (B2 ++ C)
          (fun row hrow => by rw [patched_rows hB1r hEl row hrow]; omega)
        rw [patched_length hB1, patched_set hB1r (by omega)] at hset
        rw [List.foldlM_cons]
        simp only [hn, Nat.add_sub_cancel]
        rw [show A ++ (B1 ++ B2) ++ C = A ++ B1 ++ (B2 ++ C) by simp, hfill]
        simp only [bind, Except.bind]
        rw [hset]
        simp only [pure, Except.pure]
        have hlp : (patched c B1 (E.map (fun s => root :: s))).length = E.length := by
          rw [patched_length (by rw [List.length_map]; exact hB1), List.length_map]
        have := ihK (fun k' hk' => hk k' (List.mem_cons_of_mem _ hk')) (A ++ patched c B1 (E.map (fun s => root :: s))) B2 hB2r
          (by rw [List.length_append] at hlen; omega)
        simp only [List.length_append, hlp, Nat.add_sub_cancel, bind, Except.bind, pure, Except.pure] at this
        rw [show A ++ patched c B1 (E.map (fun s => root :: s)) ++ (B2 ++ C) = A ++ patched c B1 (E.map (fun s => root :: s)) ++ B2 ++ C by simp, this,
          List.flatMap_cons, ← hE, patched_append (by rw [List.length_map]; exact hB1), List.length_append, hB1]
        simp [Nat.add_assoc]
    rw [loop _ hk A B hB hlen]
    rfl

/-- C100: for two or more variables `expand_noappend([], 0, 1)` returns the list of `expand`; for a single variable it raises ValueError, although there is
one sequence. -/
theorem C100_noappend (p e root : ℕ) (c : ℕ) (arrowings : List Bool) (ts : List ℕ) (hp : 1 ≤ p) (he : 1 ≤ e) (hr : p ∣ root) (hle : root ≤ p * e) :
    seqNoappend (⟨p, c, arrowings, e⟩ : Multinom).possible (p * e) ts root [] 0 1 =
      if ts = [] then .error .valueError else .ok (seqExpand (⟨p, c, arrowings, e⟩ : Multinom).possible (p * e) ts root root) := by
  cases ts with
  | nil => rfl
  | cons t ts =>
    have hcount := C100_kidcount p e root c arrowings t ts hp he hr hle
    have hpos := expand_pos (m := ⟨p, c, arrowings, e⟩) hp he (ts := t :: ts) hr hr le_rfl hle
    have hps : (⟨p, c, arrowings, e⟩ : Multinom).powersum = p * e := rfl
    rw [hps] at hpos
    unfold seqNoappend
    rw [if_pos (by rfl), hcount, if_neg (by omega), if_neg (by simp)]
    have := fill_eq (m := ⟨p, c, arrowings, e⟩) hp he ((t :: ts).length + 1) (t :: ts) 0 hr hr le_rfl hle rfl []
      (List.replicate (seqExpand (⟨p, c, arrowings, e⟩ : Multinom).possible (p * e) (t :: ts) root root).length (List.replicate ((t :: ts).length + 1) 0)) []
      (by intro row hrow; rw [List.eq_of_mem_replicate hrow, List.length_replicate]) (by rw [List.length_replicate, hps])
    simp only [List.nil_append, List.append_nil, List.length_nil, Nat.zero_add, hps] at this
    rw [this]
    congr 1
    unfold patched
    simp only [List.take_zero, List.nil_append]
    apply List.ext_getElem
    · simp
    · intro i h1 h2
      simp

/-- two variables besides the first, targets 2 and 4, cycles of length 2, three of them -/
example : seqNoappend [0, 2, 4, 6] 6 [2, 4] 2 [] 0 1 = .ok [[2, 0, 0], [2, 0, 2], [2, 0, 4], [2, 2, 0], [2, 2, 2]] ∧
    seqKidcount [0, 2, 4, 6] 6 [2, 4] 2 2 = 5 ∧ RelevantSequence 2 3 2 [4, 2, 4] [2, 2, 2] := by
  refine ⟨?_, ?_, ?_⟩
  · exact (C100_noappend 2 3 2 0 [] [2, 4] (by decide) (by decide) (by decide) (by decide)).trans (by decide)
  · exact (C100_kidcount 2 3 2 0 [] 2 [4] (by decide) (by decide) (by decide) (by decide)).trans (by decide)
  · exact ((C100_expand 2 3 2 0 [] 4 [2, 4] (by decide) (by decide) (by decide) (by decide)).2 _).mp (by decide)

end Phenum
