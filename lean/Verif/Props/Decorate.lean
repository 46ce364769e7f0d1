import Verif.Model.Decorate
import Verif.Props.Polya
/-
C40: the decoration built from concentrations and arrow fractions.
-/
namespace Phenum
open Spec

/-- The number of arrows of a species with `c` atoms and arrow fraction `a`: the integer part of `c*a`; none if the
fraction is negative or asks for more arrows than atoms. -/
def Spec.arrowCount (c : ℕ) (a : ℚ) : ℕ := if 0 ≤ (c : ℚ) * a ∧ ⌊(c : ℚ) * a⌋ ≤ c then ⌊(c : ℚ) * a⌋.toNat else 0

theorem speciesEntries_count (lab c : ℕ) (a : ℚ) (s : Site) :
    (speciesEntries lab c (pyTrunc (c * a))).count s =
      if s = (1, lab) then arrowCount c a else if s = (-1, lab) then c - arrowCount c a else 0 := by
  have e1 : ∀ n (x : Site), (List.replicate n x).count s = if s = x then n else 0 := by
    intro n x
    rw [List.count_replicate]
    by_cases h : s = x
    · subst h; simp
    · rw [if_neg h, if_neg]
      simpa using fun h' => h h'.symm
  have hfin : ∀ n, (List.replicate n ((1 : ℤ), lab) ++ List.replicate (c - n) ((-1 : ℤ), lab)).count s =
      if s = (1, lab) then n else if s = (-1, lab) then c - n else 0 := by
    intro n
    rw [List.count_append, e1, e1]
    by_cases hs : s = (1, lab)
    · rw [if_pos hs, if_pos hs, if_neg (by rw [hs]; simp), Nat.add_zero]
    · rw [if_neg hs, if_neg hs, Nat.zero_add]
  unfold speciesEntries pyTrunc
  by_cases h0 : 0 ≤ (c : ℚ) * a
  · rw [if_pos h0]
    by_cases h1 : ⌊(c : ℚ) * a⌋ ≤ c
    · have eA : arrowCount c a = ⌊(c : ℚ) * a⌋.toNat := if_pos ⟨h0, h1⟩
      rw [if_pos h1, eA, hfin]
    · have eA : arrowCount c a = 0 := if_neg (fun h => h1 h.2)
      rw [if_neg h1, eA]
      exact hfin 0
  · have eA : arrowCount c a = 0 := if_neg (fun h => h0 h.1)
    have hc : ⌈(c : ℚ) * a⌉ ≤ 0 := by
      rw [Int.ceil_le]; push_cast; linarith
    have ht : ⌈(c : ℚ) * a⌉.toNat = 0 := by omega
    rw [if_neg h0, if_pos (show (c : ℤ) ≥ ⌈(c : ℚ) * a⌉ by omega), ht, eA]
    exact hfin 0

theorem arrowEntries_count : ∀ (cs : List ℕ) (as : List ℚ) (lab : ℕ), cs.length ≤ as.length →
    ∃ l, arrowEntries lab cs as = .ok l ∧ ∀ s : Site, l.count s =
      if lab ≤ s.2 ∧ s.2 < lab + cs.length then
        (if s.1 = 1 then arrowCount (cs.getD (s.2 - lab) 0) (as.getD (s.2 - lab) 0)
          else if s.1 = -1 then cs.getD (s.2 - lab) 0 - arrowCount (cs.getD (s.2 - lab) 0) (as.getD (s.2 - lab) 0) else 0)
      else 0
  | [], as, lab, _ => ⟨[], rfl, fun s => by rw [if_neg]; · rfl
                                            · simp only [List.length_nil]; omega⟩
  | c :: cs, [], lab, h => by simp at h
  | c :: cs, a :: as, lab, h => by
    obtain ⟨l, hl, hc⟩ := arrowEntries_count cs as (lab + 1) (by simpa using h)
    refine ⟨speciesEntries lab c (pyTrunc (c * a)) ++ l, ?_, ?_⟩
    · simp only [arrowEntries, hl]; rfl
    · rintro ⟨x, y⟩
      rw [List.count_append, speciesEntries_count, hc]
      simp only [Prod.mk.injEq, List.length_cons]
      by_cases hy : y = lab
      · subst hy
        simp only [and_true, Nat.sub_self, List.getD_cons_zero]
        rw [if_neg (show ¬ (y + 1 ≤ y ∧ _) by omega), if_pos (show y ≤ y ∧ y < y + (cs.length + 1) by omega), Nat.add_zero]
      · simp only [hy, and_false, if_false, Nat.zero_add]
        by_cases h2 : lab + 1 ≤ y ∧ y < lab + 1 + cs.length
        · rw [if_pos h2, if_pos (show lab ≤ y ∧ y < lab + (cs.length + 1) by omega)]
          obtain ⟨k, rfl⟩ : ∃ k, y = lab + 1 + k := ⟨y - (lab + 1), by omega⟩
          have e1 : lab + 1 + k - (lab + 1) = k := by omega
          have e2 : lab + 1 + k - lab = k + 1 := by omega
          rw [e1, e2, List.getD_cons_succ, List.getD_cons_succ]
        · rw [if_neg h2, if_neg (show ¬ (lab ≤ y ∧ y < lab + (cs.length + 1)) by omega)]

theorem sortByCount_perm (l : Config) : (sortByCount l).Perm l := List.mergeSort_perm l _

theorem sortByCount_sorted (l : Config) : (sortByCount l).Pairwise (fun a b => l.count a ≤ l.count b) := by
  have := List.pairwise_mergeSort (le := fun a b : Site => decide (l.count a ≤ l.count b))
    (by intro a b c; simp only [decide_eq_true_eq]; omega) (by intro a b; simp only [Bool.or_eq_true, decide_eq_true_eq]; omega) l
  unfold sortByCount
  simpa using this

theorem colSort_perm (l : Config) : (colSort l).Perm l := by
  unfold colSort
  refine ((sortByCount_perm _).append (sortByCount_perm _)).trans ?_
  have : l.filter (fun s => decide (s.1 ≥ 0)) = l.filter (fun s => !decide (s.1 < 0)) := by
    apply List.filter_congr
    intro s _
    by_cases h : s.1 < 0
    · simp [h]
    · simp [h]; omega
  rw [this]
  exact List.filter_append_perm _ l

/-- Within the arrow-free colours, and within those with arrows, rarer colours come first. -/
def Spec.ByConcentration (d : Config) : Prop :=
  d.Pairwise (fun s t => (0 ≤ s.1 ↔ 0 ≤ t.1) → d.count s ≤ d.count t)

theorem colSort_arrowsLast (l : Config) : ArrowsLast (colSort l) := by
  unfold ArrowsLast colSort
  rw [List.pairwise_append]
  have hm : ∀ s ∈ sortByCount (l.filter (fun s => decide (s.1 < 0))), s.1 < 0 := by
    intro s hs
    have := (sortByCount_perm _).mem_iff.mp hs
    simpa using (List.mem_filter.mp this).2
  have hm2 : ∀ s ∈ sortByCount (l.filter (fun s => decide (s.1 ≥ 0))), 0 ≤ s.1 := by
    intro s hs
    have := (sortByCount_perm _).mem_iff.mp hs
    simpa using (List.mem_filter.mp this).2
  refine ⟨?_, ?_, ?_⟩
  · apply List.Pairwise.imp_of_mem (R := fun _ _ => True)
    · intro a b ha _ _ h; have := hm a ha; omega
    · exact List.pairwise_of_forall (fun _ _ => trivial)
  · apply List.Pairwise.imp_of_mem (R := fun _ _ => True)
    · intro a b _ hb _ h; exact hm2 b hb
    · exact List.pairwise_of_forall (fun _ _ => trivial)
  · intro a ha b hb _; exact hm2 b hb

theorem colSort_byConc (l : Config) : ByConcentration (colSort l) := by
  have hc : ∀ s, (colSort l).count s = l.count s := fun s => (colSort_perm l).count_eq s
  unfold ByConcentration
  simp only [hc]
  unfold colSort
  rw [List.pairwise_append]
  have hm : ∀ s ∈ sortByCount (l.filter (fun s => decide (s.1 < 0))), s.1 < 0 := by
    intro s hs
    have := (sortByCount_perm _).mem_iff.mp hs
    simpa using (List.mem_filter.mp this).2
  have hm2 : ∀ s ∈ sortByCount (l.filter (fun s => decide (s.1 ≥ 0))), 0 ≤ s.1 := by
    intro s hs
    have := (sortByCount_perm _).mem_iff.mp hs
    simpa using (List.mem_filter.mp this).2
  refine ⟨?_, ?_, ?_⟩
  · apply List.Pairwise.imp_of_mem _ (sortByCount_sorted _)
    intro a b ha hb h _
    rwa [List.count_filter (by simpa using hm a ha), List.count_filter (by simpa using hm b hb)] at h
  · apply List.Pairwise.imp_of_mem _ (sortByCount_sorted _)
    intro a b ha hb h _
    rwa [List.count_filter (by simpa using hm2 a ha), List.count_filter (by simpa using hm2 b hb)] at h
  · intro a ha b hb h
    exact absurd (h.mpr (hm2 b hb)) (by have := hm a ha; omega)

/-- the number of arrows reported is the number of sites with an arrow -/
theorem howMany_arrows (d : Config) : (howManyArrows d).1 = (d.filter (fun s => decide (0 ≤ s.1))).length := by
  unfold howManyArrows
  simp only
  have key : ∀ (d : Config) (acc : Nat × List Nat),
      (d.foldl (fun (acc : Nat × List Nat) i =>
        if i.1 ≥ 0 then (acc.1 + 1, if i.2 ∈ acc.2 then acc.2 else acc.2 ++ [i.2]) else acc) acc).1 =
      acc.1 + (d.filter (fun s => decide (0 ≤ s.1))).length := by
    intro d
    induction d with
    | nil => intro acc; rfl
    | cons s d ih =>
      intro acc
      simp only [List.foldl_cons]
      rw [ih]
      by_cases h0 : 0 ≤ s.1
      · rw [if_pos h0, List.filter_cons_of_pos (by simpa using h0), List.length_cons]; simp only; omega
      · rw [if_neg h0, List.filter_cons_of_neg (by simpa using h0)]
  simpa using key d (0, [])

/-- C40. For all concentrations and arrow fractions (one per species) `arrow_concs` returns a decoration in which
every species `i+1` has exactly `cList[i]` atoms, of which exactly `arrowCount` carry the arrow mark 1 and the others
are marked -1; sites without arrows come first, and rarer colours before more frequent ones. -/
theorem C40_arrow_concs (cList : List ℕ) (aconcs : List ℚ) (h : cList.length ≤ aconcs.length) :
    ∃ d, arrowConcs cList aconcs = .ok d ∧
      (∀ s ∈ d, (s.1 = 1 ∨ s.1 = -1) ∧ 1 ≤ s.2 ∧ s.2 ≤ cList.length) ∧
      (∀ i, i < cList.length →
        d.count (1, i + 1) = arrowCount (cList.getD i 0) (aconcs.getD i 0) ∧
        d.count (1, i + 1) + d.count (-1, i + 1) = cList.getD i 0) ∧
      d.length = cList.sum ∧ ArrowsLast d ∧ ByConcentration d := by
  obtain ⟨l, hl, hc⟩ := arrowEntries_count cList aconcs 1 h
  have hcle : ∀ (c : ℕ) (a : ℚ), arrowCount c a ≤ c := by
    intro c a
    unfold arrowCount
    split <;> omega
  have hmem : ∀ s ∈ l, (s.1 = 1 ∨ s.1 = -1) ∧ 1 ≤ s.2 ∧ s.2 ≤ cList.length := by
    intro s hs
    have h0 := List.count_pos_iff.mpr hs
    rw [hc] at h0
    split at h0
    · rename_i h1
      refine ⟨?_, by omega, by omega⟩
      split at h0
      · exact Or.inl ‹_›
      · split at h0
        · exact Or.inr ‹_›
        · omega
    · omega
  have hlen : ∀ (cs : List ℕ) (as : List ℚ) (lab : ℕ) (l : Config), arrowEntries lab cs as = .ok l → l.length = cs.sum := by
    intro cs
    induction cs with
    | nil => intro as lab l e; simp only [arrowEntries, Except.ok.injEq] at e; subst e; rfl
    | cons c cs ih =>
      intro as lab l e
      cases as with
      | nil => simp [arrowEntries] at e
      | cons a as =>
        simp only [arrowEntries] at e
        cases hr : arrowEntries (lab + 1) cs as with
        | error x => rw [hr] at e; cases e
        | ok r =>
          rw [hr] at e
          have e' : speciesEntries lab c (pyTrunc (c * a)) ++ r = l := by simpa [bind, Except.bind] using e
          subst e'
          rw [List.length_append, ih as (lab + 1) r hr, List.sum_cons]
          congr 1
          unfold speciesEntries
          split
          · rename_i h'
            rw [List.length_append, List.length_replicate, List.length_replicate]; omega
          · rw [List.length_replicate]
  refine ⟨colSort l, by simp only [arrowConcs, hl]; rfl, ?_, ?_, ?_, colSort_arrowsLast l, colSort_byConc l⟩
  · intro s hs; exact hmem s ((colSort_perm l).mem_iff.mp hs)
  · intro i hi
    rw [(colSort_perm l).count_eq, (colSort_perm l).count_eq, hc, hc]
    simp only
    rw [if_pos (by omega), if_pos trivial, if_pos (show 1 ≤ i + 1 ∧ i + 1 < 1 + cList.length by omega), if_neg (by decide),
      if_pos trivial, Nat.add_sub_cancel]
    exact ⟨rfl, by have := hcle (cList.getD i 0) (aconcs.getD i 0); omega⟩
  · rw [(colSort_perm l).length_eq, hlen _ _ _ _ hl]

/-- C40 (counts). For any decoration, `how_many_arrows` reports the number of sites with an arrow, the number of
different species carrying one, and, in the order in which they appear, the number of sites of each colour class. -/
theorem C40_how_many_arrows (d : Config) :
    (howManyArrows d).1 = (d.filter (fun s => decide (0 ≤ s.1))).length ∧
    (howManyArrows d).2.1 = ((d.filter (fun s => decide (0 ≤ s.1))).map (·.2)).toFinset.card ∧
    ∃ cls : List Site, cls.Nodup ∧ cls.Sublist d ∧ (∀ s, s ∈ cls ↔ s ∈ d) ∧
      (howManyArrows d).2.2 = cls.map (fun s => d.count s) ∧ (howManyArrows d).2.2.sum = d.length := by
  refine ⟨howMany_arrows d, ?_, colorList d, nodup_colorList d, colorList_sublist d, mem_colorList d,
    ?_, findConcentrations_sum d⟩
  rotate_left
  · have := findConcentrations_eq d
    have key : (instBEqOfDecidableEq : BEq Site) = instBEqProd := lawful_beq_subsingleton _ _
    rw [key] at this
    exact this
  obtain ⟨T, e, hT, hmem⟩ := howMany_species d
  rw [e, ← List.toFinset_card_of_nodup hT]
  congr 1
  ext v
  rw [List.mem_toFinset, hmem, List.mem_toFinset, List.mem_map]
  simp only [List.mem_filter, decide_eq_true_eq, and_assoc]

/-- C40 (use). The decorations built by `arrow_concs` satisfy what the enumeration and the count need (`C12`, `C15`):
arrow sites of one colour are marked alike and arrow-free sites come first; and there is an arrow exactly if some
species has one. -/
theorem C40_decoration_usable (cList : List ℕ) (aconcs : List ℚ) (d : Config) (h : arrowConcs cList aconcs = .ok d)
    (hlen : cList.length ≤ aconcs.length) :
    UniformDecor d ∧ ArrowsLast d ∧
    ((∃ s ∈ d, 0 ≤ s.1) ↔ ∃ i, i < cList.length ∧ 0 < arrowCount (cList.getD i 0) (aconcs.getD i 0)) ∧
    ((∀ s ∈ d, s.1 = -1) ↔ ∀ i, i < cList.length → arrowCount (cList.getD i 0) (aconcs.getD i 0) = 0) := by
  obtain ⟨d', hd, hm, hcnt, -, hl, -⟩ := C40_arrow_concs cList aconcs hlen
  rw [h] at hd
  cases hd
  have hiff : (∃ s ∈ d, 0 ≤ s.1) ↔ ∃ i, i < cList.length ∧ 0 < arrowCount (cList.getD i 0) (aconcs.getD i 0) := by
    constructor
    · rintro ⟨s, hs, h0⟩
      obtain ⟨h1, h2, h3⟩ := hm s hs
      have hs1 : s.1 = 1 := by omega
      refine ⟨s.2 - 1, by omega, ?_⟩
      rw [← (hcnt (s.2 - 1) (by omega)).1, List.count_pos_iff]
      have : s = (1, s.2 - 1 + 1) := Prod.ext hs1 (by simp only; omega)
      rwa [← this]
    · rintro ⟨i, hi, h0⟩
      rw [← (hcnt i hi).1, List.count_pos_iff] at h0
      exact ⟨_, h0, by simp⟩
  refine ⟨?_, hl, hiff, ?_⟩
  · intro s hs t ht h0 h0' e
    have := (hm s hs).1
    have := (hm t ht).1
    exact Prod.ext (by omega) e
  · constructor
    · intro hall i hi
      by_contra hne
      obtain ⟨s, hs, h0⟩ := hiff.mpr ⟨i, hi, by omega⟩
      have := hall s hs
      omega
    · intro hall s hs
      have h1 := (hm s hs).1
      by_contra hne
      obtain ⟨i, hi, h2⟩ := hiff.mp ⟨s, hs, by omega⟩
      have := hall i hi
      omega

/-- five atoms: two of species 1 without arrows, three of species 2 with two arrows -/
example : ∃ d, arrowConcs [2, 3] [0, 3 / 4] = .ok d ∧ d.count (1, 2) = 2 ∧ d.count (-1, 2) = 1 ∧ d.count (-1, 1) = 2 ∧ d.length = 5 := by
  obtain ⟨d, h, -, hc, hl, -⟩ := C40_arrow_concs [2, 3] [0, 3 / 4] (by decide)
  have h1 := hc 1 (by decide)
  have h0 := hc 0 (by decide)
  have ea : arrowCount 3 (3 / 4) = 2 := by
    unfold arrowCount
    have : ⌊((3 : ℕ) : ℚ) * (3 / 4)⌋ = 2 := by rw [Int.floor_eq_iff]; norm_num
    rw [if_pos ⟨by norm_num, by rw [this]; norm_num⟩, this]; rfl
  have eb : arrowCount 2 0 = 0 := by unfold arrowCount; simp
  simp only [List.getD_cons_zero, List.getD_cons_succ, Nat.zero_add, Nat.reduceAdd] at h0 h1
  rw [ea] at h1
  rw [eb] at h0
  exact ⟨d, h, h1.1, by omega, by omega, by rw [hl]; rfl⟩

end Phenum
