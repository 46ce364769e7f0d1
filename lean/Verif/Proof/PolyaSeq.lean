import Verif.Proof.PolyaCoeff
/-
The sequences explored by `Product.coeff`.
-/
namespace Phenum
open Spec MvPolynomial

theorem possible_mem (m : Multinom) (hp : 1 ≤ m.power) (x : Nat) :
    x ∈ m.possible ↔ m.power ∣ x ∧ x ≤ m.powersum := by
  unfold Multinom.possible Multinom.powersum
  simp only [List.mem_map, List.mem_range]
  constructor
  · rintro ⟨j, hj, rfl⟩
    exact ⟨⟨j, rfl⟩, Nat.mul_le_mul_left _ (by omega)⟩
  · rintro ⟨⟨j, rfl⟩, h⟩
    exact ⟨j, Nat.lt_succ_of_le (Nat.le_of_mul_le_mul_left h hp), rfl⟩

theorem possible_nodup (m : Multinom) (hp : 1 ≤ m.power) : m.possible.Nodup := by
  unfold Multinom.possible
  apply List.Nodup.map _ List.nodup_range
  intro a b h
  exact Nat.eq_of_mul_eq_mul_left hp h

theorem possible_one (m : Multinom) (he : 1 ≤ m.exponent) : m.possible.getD 1 0 = m.power := by
  unfold Multinom.possible
  rw [List.getD_eq_getElem?_getD, List.getElem?_map, List.getElem?_range (by omega)]
  simp

/-- the values tried for the next variable -/
def kidsOf (m : Multinom) (t root used : Nat) : List Nat :=
  (m.possible.filter (fun p =>
      decide (root ≤ p ∧ p - root ≤ t ∧ ((p : Int) - root).natAbs ≤ (m.powersum : Int) - used ∧
        ((p : Int) - used).natAbs % (m.possible.getD 1 0) = 0))).map (fun p => p - root)

theorem mem_kidsOf {m : Multinom} (hp : 1 ≤ m.power) (he : 1 ≤ m.exponent) {t root used : Nat}
    (hr : m.power ∣ root) (hu : m.power ∣ used) (hru : root ≤ used) (x : Nat) :
    x ∈ kidsOf m t root used ↔ m.power ∣ x ∧ x ≤ t ∧ used + x ≤ m.powersum := by
  unfold kidsOf
  simp only [List.mem_map, List.mem_filter, possible_mem m hp, possible_one m he, decide_eq_true_eq]
  constructor
  · rintro ⟨p, ⟨⟨h1, h2⟩, h3, h4, h5, h6⟩, rfl⟩
    refine ⟨Nat.dvd_sub h1 hr, h4, ?_⟩
    omega
  · rintro ⟨h1, h2, h3⟩
    refine ⟨x + root, ⟨⟨Dvd.dvd.add h1 hr, by omega⟩, by omega, by omega, by omega, ?_⟩, by omega⟩
    apply Nat.mod_eq_zero_of_dvd
    rw [← Int.natCast_dvd]
    apply dvd_sub
    · exact_mod_cast Dvd.dvd.add h1 hr
    · exact_mod_cast hu

theorem kidsOf_nodup {m : Multinom} (hp : 1 ≤ m.power) (t root used : Nat) : (kidsOf m t root used).Nodup := by
  unfold kidsOf
  apply List.Nodup.map_on _ ((possible_nodup m hp).filter _)
  intro a ha b hb h
  simp only [List.mem_filter, decide_eq_true_eq] at ha hb
  omega

theorem seqExpand_cons (m : Multinom) (t : Nat) (ts : List Nat) (root used : Nat) :
    seqExpand m.possible m.powersum (t :: ts) root used =
      if (kidsOf m t root used).isEmpty then [root :: List.replicate (ts.length + 1) 0]
      else ((kidsOf m t root used).flatMap
        (fun k => seqExpand m.possible m.powersum ts k (used + k))).map (fun s => root :: s) := rfl

theorem mem_seqExpand {m : Multinom} (hp : 1 ≤ m.power) (he : 1 ≤ m.exponent) (ts : List Nat) {root used : Nat}
    (hr : m.power ∣ root) (hu : m.power ∣ used) (hru : root ≤ used) (hup : used ≤ m.powersum) (s : List Nat) :
    s ∈ seqExpand m.possible m.powersum ts root used ↔
      ∃ r, s = root :: r ∧ (∀ x ∈ r, m.power ∣ x) ∧ List.Forall₂ (· ≤ ·) r ts ∧ used + r.sum ≤ m.powersum := by
  induction ts generalizing root used s with
  | nil =>
    simp only [seqExpand, List.mem_singleton]
    constructor
    · rintro rfl
      exact ⟨[], rfl, by simp, List.Forall₂.nil, by simpa using hup⟩
    · rintro ⟨r, rfl, -, h, -⟩
      rw [List.forall₂_nil_right_iff] at h
      rw [h]
  | cons t ts ih =>
    rw [seqExpand_cons]
    have hne : (kidsOf m t root used).isEmpty = false := by
      have : 0 ∈ kidsOf m t root used := (mem_kidsOf hp he hr hu hru 0).mpr ⟨dvd_zero _, by omega, by omega⟩
      cases hk : kidsOf m t root used with
      | nil => rw [hk] at this; simp at this
      | cons => rfl
    rw [hne, if_neg (by simp)]
    simp only [List.mem_map, List.mem_flatMap]
    constructor
    · rintro ⟨s', ⟨k, hk, hs'⟩, rfl⟩
      obtain ⟨hk1, hk2, hk3⟩ := (mem_kidsOf hp he hr hu hru k).mp hk
      obtain ⟨r, rfl, h1, h2, h3⟩ := (ih hk1 (Dvd.dvd.add hu hk1) (by omega) hk3 s').mp hs'
      refine ⟨k :: r, rfl, ?_, List.Forall₂.cons hk2 h2, ?_⟩
      · intro x hx
        rcases List.mem_cons.mp hx with rfl | hx
        · exact hk1
        · exact h1 x hx
      · rw [List.sum_cons]; omega
    · rintro ⟨r, rfl, h1, h2, h3⟩
      cases h2 with
      | @cons k _ r' _ hk2 h2 =>
        rw [List.sum_cons] at h3
        have hk1 := h1 k (by simp)
        refine ⟨k :: r', ⟨k, (mem_kidsOf hp he hr hu hru k).mpr ⟨hk1, hk2, by omega⟩, ?_⟩, rfl⟩
        exact (ih hk1 (Dvd.dvd.add hu hk1) (by omega) (by omega) _).mpr
          ⟨r', rfl, fun x hx => h1 x (List.mem_cons_of_mem _ hx), h2, by omega⟩

theorem seqExpand_head (m : Multinom) (ts : List Nat) (root used : Nat) :
    ∀ s ∈ seqExpand m.possible m.powersum ts root used, s.head? = some root := by
  intro s hs
  cases ts with
  | nil => simp only [seqExpand, List.mem_singleton] at hs; rw [hs]; rfl
  | cons t ts =>
    rw [seqExpand_cons] at hs
    split at hs
    · rw [List.mem_singleton] at hs; rw [hs]; rfl
    · obtain ⟨s', -, rfl⟩ := List.mem_map.mp hs; rfl

theorem flatMap_nodup_head {ι : Type} (f : ι → List (List Nat)) (key : ι → Nat) (l : List ι)
    (hl : (l.map key).Nodup) (hf : ∀ i ∈ l, (f i).Nodup) (hh : ∀ i ∈ l, ∀ s ∈ f i, s.head? = some (key i)) :
    (l.flatMap f).Nodup := by
  induction l with
  | nil => simp
  | cons a l ih =>
    rw [List.flatMap_cons]
    rw [List.map_cons, List.nodup_cons] at hl
    refine List.Nodup.append (hf a (by simp)) (ih hl.2 (fun i hi => hf i (List.mem_cons_of_mem _ hi))
      (fun i hi => hh i (List.mem_cons_of_mem _ hi))) ?_
    intro s hs hs'
    obtain ⟨i, hi, hs'⟩ := List.mem_flatMap.mp hs'
    have h1 := hh a (by simp) s hs
    have h2 := hh i (List.mem_cons_of_mem _ hi) s hs'
    rw [h1, Option.some_inj] at h2
    exact hl.1 (List.mem_map.mpr ⟨i, hi, h2.symm⟩)

theorem seqExpand_nodup {m : Multinom} (hp : 1 ≤ m.power) (ts : List Nat) (root used : Nat) :
    (seqExpand m.possible m.powersum ts root used).Nodup := by
  induction ts generalizing root used with
  | nil => simp [seqExpand]
  | cons t ts ih =>
    rw [seqExpand_cons]
    split
    · simp
    · apply List.Nodup.map (fun a b h => (List.cons_inj_right root).mp h)
      apply flatMap_nodup_head _ id _ (by simpa using kidsOf_nodup hp t root used) (fun k _ => ih _ _)
      intro k _ s hs
      exact seqExpand_head m ts k _ s hs

/-- all sequences explored for one factor -/
def seqsOf (m : Multinom) (ts : List Nat) : List (List Nat) :=
  m.possible.flatMap (fun root => seqExpand m.possible m.powersum ts root root)

theorem mem_seqsOf {m : Multinom} (hp : 1 ≤ m.power) (he : 1 ≤ m.exponent) (ts : List Nat) (s : List Nat) :
    s ∈ seqsOf m ts ↔ ∃ root r, s = root :: r ∧ m.power ∣ root ∧ (∀ x ∈ r, m.power ∣ x) ∧
      List.Forall₂ (· ≤ ·) r ts ∧ root + r.sum ≤ m.powersum := by
  unfold seqsOf
  rw [List.mem_flatMap]
  constructor
  · rintro ⟨root, hroot, hs⟩
    obtain ⟨h1, h2⟩ := (possible_mem m hp root).mp hroot
    obtain ⟨r, rfl, h3, h4, h5⟩ := (mem_seqExpand hp he ts h1 h1 le_rfl h2 s).mp hs
    exact ⟨root, r, rfl, h1, h3, h4, h5⟩
  · rintro ⟨root, r, rfl, h1, h3, h4, h5⟩
    have h2 : root ≤ m.powersum := by omega
    exact ⟨root, (possible_mem m hp root).mpr ⟨h1, h2⟩,
      (mem_seqExpand hp he ts h1 h1 le_rfl h2 _).mpr ⟨r, rfl, h3, h4, h5⟩⟩

theorem seqsOf_nodup {m : Multinom} (hp : 1 ≤ m.power) (ts : List Nat) : (seqsOf m ts).Nodup := by
  apply flatMap_nodup_head _ id _ (by simpa using possible_nodup m hp) (fun k _ => seqExpand_nodup hp _ _ _)
  intro k _ s hs
  exact seqExpand_head m ts k _ s hs

/-! products of sums -/

/-- a product of sums is the sum over all choices -/
theorem pyProduct_sum {R α : Type} [CommSemiring R] {ι : Type} (f : ι → α → R) (l : ι → List α) (is : List ι) :
    ((pyProduct (is.map l)).map (fun s => ((is.zip s).map (fun p => f p.1 p.2)).prod)).sum =
      (is.map (fun i => ((l i).map (f i)).sum)).prod := by
  induction is with
  | nil => simp [pyProduct]
  | cons i is ih =>
    rw [List.map_cons, List.map_cons, List.prod_cons, ← ih]
    simp only [pyProduct]
    generalize l i = li
    induction li with
    | nil => simp
    | cons a li ih2 =>
      rw [List.flatMap_cons, List.map_append, List.sum_append, ih2, List.map_cons, List.sum_cons, add_mul]
      congr 1
      rw [List.map_map, ← List.sum_map_mul_left]
      rfl

theorem pyProduct_length {α : Type} (ls : List (List α)) : ∀ s ∈ pyProduct ls, s.length = ls.length := by
  induction ls with
  | nil => simp [pyProduct]
  | cons l ls ih =>
    intro s hs
    simp only [pyProduct, List.mem_flatMap, List.mem_map] at hs
    obtain ⟨a, -, r, hr, rfl⟩ := hs
    rw [List.length_cons, List.length_cons, ih r hr]

theorem mem_pyProduct {α : Type} (ls : List (List α)) (s : List α) :
    s ∈ pyProduct ls ↔ List.Forall₂ (fun a l => a ∈ l) s ls := by
  induction ls generalizing s with
  | nil => simp [pyProduct]
  | cons l ls ih =>
    simp only [pyProduct, List.mem_flatMap, List.mem_map]
    constructor
    · rintro ⟨a, ha, r, hr, rfl⟩
      exact List.Forall₂.cons ha ((ih r).mp hr)
    · intro h
      cases h with
      | cons h1 h2 => exact ⟨_, h1, _, (ih _).mpr h2, rfl⟩

/-- choosing group by group is the same as choosing from the concatenation -/
theorem pyProduct_flatMap_sum {α β : Type} {ι : Type} (ls : ι → List β) (e : ι → β → List α) (is : List ι)
    (F : List α → Rat) :
    ((pyProduct (is.map ls)).map (fun seq =>
      ((pyProduct ((seq.zip is).map (fun p => e p.2 p.1))).map F).sum)).sum =
    ((pyProduct (is.map (fun i => (ls i).flatMap (e i)))).map F).sum := by
  induction is generalizing F with
  | nil => simp [pyProduct]
  | cons i is ih =>
    rw [List.map_cons, List.map_cons]
    simp only [pyProduct]
    generalize ls i = li
    induction li with
    | nil => simp
    | cons b li ih2 =>
      rw [List.flatMap_cons, List.map_append, List.sum_append, ih2, List.flatMap_cons, List.flatMap_append,
        List.map_append, List.sum_append]
      congr 1
      rw [List.map_map]
      have : ((fun seq => ((pyProduct ((seq.zip (i :: is)).map (fun p => e p.2 p.1))).map F).sum) ∘
          fun r => b :: r) = fun seq : List β => (((e i b).map (fun a =>
            ((pyProduct ((seq.zip is).map (fun p => e p.2 p.1))).map (fun r => F (a :: r))).sum))).sum := by
        funext seq
        simp only [Function.comp, List.zip_cons_cons, List.map_cons, pyProduct]
        generalize e i b = ei
        induction ei with
        | nil => simp
        | cons a ei ih3 =>
          rw [List.flatMap_cons, List.map_append, List.sum_append, ih3, List.map_cons, List.sum_cons,
            List.map_map]
          rfl
      rw [this]
      generalize e i b = ei
      induction ei with
      | nil => simp
      | cons a ei ih3 =>
        rw [List.flatMap_cons, List.map_append, List.sum_append, ← ih3]
        simp only [List.map_cons, List.sum_cons]
        rw [List.sum_map_add, ih (fun r => F (a :: r)), List.map_map]
        rfl

end Phenum
