import Verif.Proof.EnumFile
import Mathlib.Data.List.Sort
/-
C31: the file enum.out is read back as it was written.
C50: order and numbering of its rows.
-/
namespace Phenum

/-! ## Numbering -/

theorem numberEntries_entries (t s : ℕ) (sz : ℤ) (l : List EnumEntry) : (numberEntries t s sz l).map (fun r => r.2.2) = l := by
  induction l generalizing t s sz with
  | nil => rfl
  | cons x l ih => simp [numberEntries, ih]

theorem numberEntries_count (t s : ℕ) (sz : ℤ) (l : List EnumEntry) :
    (numberEntries t s sz l).map (fun r => r.1) = List.range' t l.length := by
  induction l generalizing t s sz with
  | nil => rfl
  | cons x l ih => simp [numberEntries, ih, List.range'_succ]

theorem enumOutRows_eq (l : List EnumEntry) :
    ∃ sz, enumOutRows l = numberEntries 1 0 sz (l.mergeSort entryLe) ∧ ∀ x, (l.mergeSort entryLe).head? = some x → x.size = sz := by
  unfold enumOutRows
  cases h : l.mergeSort entryLe with
  | nil => exact ⟨0, rfl, by simp⟩
  | cons x xs => exact ⟨x.size, rfl, by simp⟩

/-- `x` may stand before `y`: smaller size, or same size and labeling not greater. -/
def Before (x y : EnumEntry) : Prop := x.size < y.size ∨ (x.size = y.size ∧ x.labeling ≤ y.labeling)

theorem entryLe_iff (x y : EnumEntry) : entryLe x y = true ↔ Before x y := by simp [entryLe, Before]

theorem sorted_entries (l : List EnumEntry) : (l.mergeSort entryLe).Pairwise Before := by
  have h := List.pairwise_mergeSort (le := entryLe) (by
    intro a b c h1 h2
    rw [entryLe_iff] at *
    rcases h1 with h1 | ⟨h1, h1'⟩ <;> rcases h2 with h2 | ⟨h2, h2'⟩
    · exact Or.inl (h1.trans h2)
    · exact Or.inl (h2 ▸ h1)
    · exact Or.inl (h1 ▸ h2)
    · exact Or.inr ⟨h1.trans h2, List.le_trans h1' h2'⟩) (by
    intro a b
    rw [Bool.or_eq_true, entryLe_iff, entryLe_iff]
    rcases lt_trichotomy a.size b.size with h | h | h
    · exact Or.inl (Or.inl h)
    · rcases List.le_total a.labeling b.labeling with h' | h'
      · exact Or.inl (Or.inr ⟨h, h'⟩)
      · exact Or.inr (Or.inr ⟨h.symm, h'⟩)
    · exact Or.inr (Or.inl h)) l
  exact h.imp (fun hab => (entryLe_iff _ _).mp hab)

/-- The counter within a size: `done` rows precede, `s` of them of the size `sz` of the last one. -/
theorem numberEntries_size (done : List EnumEntry) (t s : ℕ) (sz : ℤ) (l : List EnumEntry) (hs : (done ++ l).Pairwise (fun x y => x.size ≤ y.size))
    (hcount : done.countP (fun y => y.size = sz) = s) (hlast : ∀ y ∈ done, y.size ≤ sz)
    (hnext : ∀ y ∈ l, sz ≤ y.size) :
    ∀ i (hi : i < (numberEntries t s sz l).length),
      ((numberEntries t s sz l)[i]).2.1 = (done ++ l.take (i + 1)).countP (fun y => y.size = ((numberEntries t s sz l)[i]).2.2.size) := by
  induction l generalizing done t s sz with
  | nil => intro i hi; simp [numberEntries] at hi
  | cons x l ih =>
    intro i hi
    have hx : sz ≤ x.size := hnext x List.mem_cons_self
    have hcnt : (done ++ [x]).countP (fun y => y.size = x.size) = if x.size ≠ sz then 1 else s + 1 := by
      rw [List.countP_append]
      by_cases he : x.size = sz
      · rw [if_neg (by simpa using he), he, hcount]
        simp [he]
      · rw [if_pos he]
        have h0 : done.countP (fun y => decide (y.size = x.size)) = 0 := by
          rw [List.countP_eq_zero]
          intro y hy
          have := hlast y hy
          simp only [decide_eq_true_eq]
          omega
        rw [h0]; simp
    cases i with
    | zero => simpa [numberEntries] using hcnt.symm
    | succ i =>
      have h1 := ih (done ++ [x]) (t + 1) (if x.size ≠ sz then 1 else s + 1) x.size (by simpa using hs) hcnt
        (by
          intro y hy
          rcases List.mem_append.mp hy with h | h
          · rw [List.pairwise_append] at hs
            exact hs.2.2 y h x List.mem_cons_self
          · rw [List.mem_singleton] at h; rw [h])
        (by
          intro y hy
          rw [List.pairwise_append, List.pairwise_cons] at hs
          exact hs.2.1.1 y hy) i (by simpa [numberEntries] using hi)
      simpa [numberEntries] using h1

/-! ## C50 -/

/-- C50. The rows of enum.out are the enumerated structures, each as often as it was enumerated. -/
theorem C50_rows_are_the_structures (l : List EnumEntry) : ((enumOutRows l).map (fun r => r.2.2)).Perm l := by
  obtain ⟨sz, h, -⟩ := enumOutRows_eq l
  rw [h, numberEntries_entries]
  exact List.mergeSort_perm l _

/-- C50. They are sorted by size, and by labeling within a size. -/
theorem C50_rows_sorted (l : List EnumEntry) : (enumOutRows l).Pairwise (fun r r' =>
    r.2.2.size < r'.2.2.size ∨ (r.2.2.size = r'.2.2.size ∧ r.2.2.labeling ≤ r'.2.2.labeling)) := by
  obtain ⟨sz, h, -⟩ := enumOutRows_eq l
  have h2 := sorted_entries l
  rw [← numberEntries_entries 1 0 sz (l.mergeSort entryLe), List.pairwise_map, ← h] at h2
  exact h2

/-- C50. The first column numbers the rows from 1; the size column counts the rows of the same size up to this one. -/
theorem C50_row_numbers (l : List EnumEntry) (i : ℕ) (hi : i < (enumOutRows l).length) :
    ((enumOutRows l)[i]).1 = i + 1 ∧
    ((enumOutRows l)[i]).2.1 = ((enumOutRows l).take (i + 1)).countP (fun r => r.2.2.size = ((enumOutRows l)[i]).2.2.size) := by
  obtain ⟨sz, h, hsz⟩ := enumOutRows_eq l
  have hsort : (l.mergeSort entryLe).Pairwise (fun x y => x.size ≤ y.size) :=
    (sorted_entries l).imp (fun hab => by rcases hab with h | ⟨h, -⟩ <;> omega)
  have h1 := numberEntries_count 1 0 sz (l.mergeSort entryLe)
  have h2 := numberEntries_entries 1 0 sz (l.mergeSort entryLe)
  have h3 := numberEntries_size [] 1 0 sz (l.mergeSort entryLe) (by simpa using hsort) rfl (by simp) (by
    intro y hy
    cases hm : l.mergeSort entryLe with
    | nil => rw [hm] at hy; exact absurd hy List.not_mem_nil
    | cons x xs =>
      have hx := hsz x (by rw [hm]; rfl)
      rw [hm] at hy hsort
      rcases List.mem_cons.mp hy with e | e
      · rw [e, hx]
      · rw [← hx]; exact (List.pairwise_cons.mp hsort).1 y e)
  rw [← h] at h1 h2 h3
  constructor
  · have : ((enumOutRows l).map (fun r => r.1))[i]'(by simpa using hi) = ((enumOutRows l)[i]).1 := by simp
    rw [← this]
    simp only [h1, List.getElem_range']
    omega
  · rw [h3 i hi, List.nil_append]
    conv_lhs => rw [← h2]
    rw [← List.map_take, List.countP_map]
    rfl

/-! ## Reading the rows -/

theorem readLoop_rows (want : ℤ → Bool) (s : ReadSystem) (hn : s.nD ≠ 0) (hn0 : 0 ≤ s.nD) (R : List (ℕ × ℕ × EnumEntry)) (t lc : ℕ) (ht : 0 < t)
    (hlc : (lc : ℤ) = 14 + s.nD + t) (hnum : R.map (fun r => r.1) = List.range' t R.length)
    (hfit : ∀ r ∈ R, r.2.2.Fits) (hcnt : ∀ r ∈ R, r.2.1 < 10 ^ 11) (acc : List ReadStruct) :
    readLoop want lc (R.map (fun r => rowText r.1 r.2.1 r.2.2)) (s, acc) =
      .ok (s, acc ++ (R.filter (fun r => want r.1)).map outRow) := by
  induction R generalizing t lc acc with
  | nil => simp [readLoop]
  | cons r R ih =>
    rw [List.map_cons, List.length_cons, List.range'_succ, List.cons.injEq] at hnum
    have hr := readRow_ok r.1 r.2.1 r.2.2 (hfit r List.mem_cons_self) (hcnt r List.mem_cons_self)
    have hhead : (rowText r.1 r.2.1 r.2.2).head? ≠ some '#' := by
      unfold rowText padLeft
      simp only [List.append_assoc]
      exact natLine_head _ _ _
    have hline : readLine want lc (rowText r.1 r.2.1 r.2.2) (s, acc) =
        .ok (s, acc ++ ([r].filter (fun r => want r.1)).map outRow) := by
      unfold readLine
      simp only
      rw [if_neg (head_rstrip hhead)]
      have h1 : readHead lc (rstrip (rowText r.1 r.2.1 r.2.2)) s = .ok s := by
        unfold readHead
        rw [if_neg (by omega), if_neg (by omega), if_neg (by omega)]
      have h2 : readBasis lc (rstrip (rowText r.1 r.2.1 r.2.2)) s = .ok s := by
        unfold readBasis
        rw [if_neg (by omega)]
      have h3 : readRest lc (rstrip (rowText r.1 r.2.1 r.2.2)) s = .ok s := by
        unfold readRest
        rw [if_neg (by omega), if_neg (by omega)]
      have hi : (lc : ℤ) - (14 + s.nD) = (r.1 : ℤ) := by rw [hnum.1]; omega
      simp only [h1, h2, h3, bind, Except.bind, hi, hr]
      by_cases hw : want r.1 = true
      · rw [if_pos ⟨hw, hn⟩, List.filter_cons_of_pos (by simpa using hw)]
        rfl
      · rw [if_neg (fun h => hw h.1), List.filter_cons_of_neg (by simpa using hw)]
        simp
    rw [List.map_cons, readLoop_cons hline, ih (t + 1) (lc + 1) (by omega) (by push_cast; omega) hnum.2
      (fun x hx => hfit x (List.mem_cons_of_mem _ hx)) (fun x hx => hcnt x (List.mem_cons_of_mem _ hx))]
    rw [List.append_assoc, ← List.map_append, ← List.filter_append]
    rfl

set_option maxRecDepth 20000 in
theorem headerLines_no_newline (p : EnumParams) (now : Str) (h : '\n' ∉ now) : ∀ l ∈ headerLines p now, '\n' ∉ l := by
  have hvec : ∀ k v, '\n' ∉ vecLine k v := by
    intro k v hc
    have := vecLine_chars k v _ hc
    revert this; decide
  have hnat : ∀ n, '\n' ∉ natStr n := fun n hc => (isDigit_not_minus (natStr_digits n _ hc)).2.2.2.2.2.1 rfl
  intro l hl
  simp only [headerLines, List.mem_append, List.mem_cons, List.mem_map, List.not_mem_nil, or_false] at hl
  rcases hl with ((((rfl | rfl) | ⟨v, -, rfl⟩) | rfl) | ⟨v, -, rfl⟩) | (rfl | rfl | rfl | rfl | rfl | rfl | rfl | rfl)
  · intro hc
    rcases List.mem_append.mp hc with hc | hc
    · revert hc; decide +kernel
    · exact h hc
  · cases p.bulk <;> decide +kernel
  · exact hvec _ _
  · intro hc
    rcases List.mem_append.mp hc with hc | hc
    · revert hc; decide +kernel
    · exact hnat _ hc
  · exact hvec _ _
  · intro hc
    rcases List.mem_append.mp hc with hc | hc
    · rcases List.mem_append.mp hc with hc | hc
      · revert hc; decide +kernel
      · exact hnat _ hc
    · revert hc; decide +kernel
  · intro hc
    rcases List.mem_append.mp hc with hc | hc
    · revert hc; decide +kernel
    · rcases join_mem hc with hc | ⟨w, hw, hc⟩
      · revert hc; decide +kernel
      · obtain ⟨z, -, rfl⟩ := List.mem_map.mp hw
        have := (intStr_word z).2 _ hc
        revert this; decide
  · decide +kernel
  · decide +kernel
  · cases p.restricted <;> decide +kernel
  · decide +kernel
  · decide +kernel
  · decide +kernel

theorem rowText_no_newline (t s : ℕ) (x : EnumEntry) (hx : x.Fits) : '\n' ∉ rowText t s x := by
  have hnum : NumLine (padLeft 10 (natStr t) ++ padLeft 10 (natStr 1) ++ padLeft 8 (natStr 1) ++ padLeft 9 (natStr 1) ++
      padLeft 9 (natStr 1) ++ padLeft 12 (natStr s) ++ padLeft 4 (intStr x.size) ++ padLeft 6 (natStr 1) ++
      padLeft 10 (fmtn x.snf 3) ++ "  ".toList ++ padLeft 18 (fmtn x.hnf 3) ++ "  ".toList ++ padLeft 44 (fmtn x.lt 5) ++ "    ".toList) := by
    have hf : ∀ l n, NumLine (fmtn l n) := fun l n => NumLine.flatMap (fun z _ => (NumLine.int z).padLeft n)
    have hs2 : NumLine "  ".toList := NumLine.spaces 2
    have hs4 : NumLine "    ".toList := NumLine.spaces 4
    exact (((((((((((((NumLine.nat t).padLeft 10).append ((NumLine.nat 1).padLeft 10)).append ((NumLine.nat 1).padLeft 8)).append
      ((NumLine.nat 1).padLeft 9)).append ((NumLine.nat 1).padLeft 9)).append ((NumLine.nat s).padLeft 12)).append
      ((NumLine.int x.size).padLeft 4)).append ((NumLine.nat 1).padLeft 6)).append ((hf _ 3).padLeft 10)).append hs2).append
      ((hf _ 3).padLeft 18)).append hs2).append ((hf _ 5).padLeft 44) |>.append hs4
  have hword : ∀ w, IsWord w → '\n' ∉ w := by
    intro w hw hc
    have := hw.2 _ hc
    revert this; decide
  intro hc
  unfold rowText at hc
  rw [List.mem_append, List.mem_append, List.mem_append] at hc
  rcases hc with ((hc | hc) | hc) | hc
  · exact hnum.no_newline hc
  · exact hword _ hx.labeling hc
  · revert hc; decide
  · rw [padLeft, List.mem_append] at hc
    rcases hc with hc | hc
    · have := List.eq_of_mem_replicate hc
      revert this; decide
    · exact hword _ hx.arrowing hc

/-! ## C31 -/

/-- The structures asked for: all of them, or those whose numbers are listed. -/
def Asked (structures : Option (List ℤ)) (i : ℕ) : Bool :=
  match structures with
  | none => true
  | some l => l.contains (i : ℤ)

theorem filter_congr' {α : Type} {l : List α} {f g : α → Bool} (h : ∀ a ∈ l, f a = g a) : l.filter f = l.filter g :=
  List.filter_congr h

theorem enumOut_read (p : EnumParams) (now : Str) (l : List EnumEntry) (structures : Option (List ℤ)) (hlat : p.latVecs.length = 3)
    (hb : p.basisVecs ≠ []) (hnow : '\n' ∉ now) (hfit : ∀ x ∈ l, x.Fits) (hlen : l.length < 10 ^ 11)
    (hs : ∀ w, structures = some w → ∀ i ∈ w, 1 ≤ i) :
    readEnumOut structures (enumOutFile p now l) =
      .ok (sysOf p now, ((enumOutRows l).filter (fun r => Asked structures r.1)).map outRow) := by
  obtain ⟨sz, hrows, -⟩ := enumOutRows_eq l
  have hfile : enumOutFile p now l = (headerLines p now ++ (enumOutRows l).map (fun r => rowText r.1 r.2.1 r.2.2)).flatMap (fun x => x ++ ['\n']) := by
    rw [List.flatMap_append, List.flatMap_map]
    rfl
  have hperm := C50_rows_are_the_structures l
  have hfit' : ∀ r ∈ enumOutRows l, r.2.2.Fits := fun r hr => hfit _ (hperm.subset (List.mem_map_of_mem hr))
  have hlines : fileLines (enumOutFile p now l) = headerLines p now ++ (enumOutRows l).map (fun r => rowText r.1 r.2.1 r.2.2) := by
    rw [hfile, fileLines_eq]
    intro x hx
    rcases List.mem_append.mp hx with hx | hx
    · exact headerLines_no_newline p now hnow x hx
    · obtain ⟨r, hr, rfl⟩ := List.mem_map.mp hx
      exact rowText_no_newline _ _ _ (hfit' r hr)
  have hnum : (enumOutRows l).map (fun r => r.1) = List.range' 1 (enumOutRows l).length := by
    have h1 := numberEntries_count 1 0 sz (l.mergeSort entryLe)
    have h2 := congrArg List.length (numberEntries_entries 1 0 sz (l.mergeSort entryLe))
    rw [← hrows] at h1 h2
    rw [h1, ← h2, List.length_map]
  have hcnt : ∀ r ∈ enumOutRows l, r.2.1 < 10 ^ 11 := by
    intro r hr
    obtain ⟨i, hi, rfl⟩ := List.mem_iff_getElem.mp hr
    have h1 := (C50_row_numbers l i hi).2
    have h2 : ((enumOutRows l).take (i + 1)).countP (fun r => r.2.2.size = ((enumOutRows l)[i]).2.2.size) ≤ (enumOutRows l).length :=
      List.countP_le_length.trans (by simp)
    have h3 : (enumOutRows l).length = l.length := by simpa using hperm.length_eq
    omega
  have hhl : (headerLines p now).length = 14 + p.basisVecs.length := by
    simp only [headerLines, List.length_append, List.length_map, List.length_cons, List.length_nil, hlat]; omega
  unfold readEnumOut
  simp only [hlines]
  generalize hN : (headerLines p now ++ (enumOutRows l).map (fun r => rowText r.1 r.2.1 r.2.2)).length = N
  rw [List.length_append, hhl, List.length_map] at hN
  have hw : ∀ i ≤ 0, (wantedStructures structures N).contains i = false := by
    intro i hi
    unfold wantedStructures
    rw [← Bool.not_eq_true, List.contains_iff_mem]
    cases structures with
    | none => simp only; rw [mem_pyRange]; omega
    | some w => intro h; have := hs w rfl i h; omega
  rw [readLoop_header hw p now hlat hb]
  have hn0 : (sysOf p now).nD ≠ 0 := by
    have : (p.basisVecs.length : ℤ) ≠ 0 := by simpa using hb
    exact this
  rw [readLoop_rows _ _ hn0 (by simp [sysOf]) _ 1 _ (by norm_num) (by simp [sysOf]; ring) hnum hfit' hcnt, List.nil_append]
  congr 3
  apply List.filter_congr
  intro r hr
  cases structures with
  | some w => rfl
  | none =>
    show (pyRange 1 _).contains _ = true
    rw [List.contains_iff_mem, mem_pyRange]
    have h1 : r.1 ∈ List.range' 1 (enumOutRows l).length := by rw [← hnum]; exact List.mem_map_of_mem hr
    rw [List.mem_range'_1] at h1
    have hb' : 0 < p.basisVecs.length := List.length_pos_of_ne_nil hb
    omega

/-- A vector is read with an error of at most half a unit of the seventh decimal in each coordinate. -/
def NearVec (r : List ℚ) (v : Fin 3 → ℚ) : Prop := ∃ a b c, r = [a, b, c] ∧ |a - v 0| ≤ 1 / 2 / 10 ^ 7 ∧ |b - v 1| ≤ 1 / 2 / 10 ^ 7 ∧ |c - v 2| ≤ 1 / 2 / 10 ^ 7

theorem vals7_near (l : List (Fin 3 → ℚ)) : List.Forall₂ NearVec (l.map vals7) l := by
  induction l with
  | nil => exact List.Forall₂.nil
  | cons v l ih => exact List.Forall₂.cons ⟨_, _, _, rfl, read7_near _, read7_near _, read7_near _⟩ ih

/-- C31. Reading the file enum.out that was written for a list of enumerated structures gives, for each structure asked
for (all, or those with the listed numbers), in the order of the file: its number, its number within the size, its size,
its SNF, HNF and left transform, labeling and arrows, exactly as they were written; and the number of basis atoms and of
species, the tolerance, and the lattice and basis vectors to seven decimals. The entries have to fit into the columns:
sizes below 1000, SNF and HNF entries below 100, entries of the left transform between -999 and 9999. -/
theorem C31_enum_out_round_trip (p : EnumParams) (now : Str) (l : List EnumEntry) (structures : Option (List ℤ)) (hlat : p.latVecs.length = 3)
    (hb : p.basisVecs ≠ []) (hnow : '\n' ∉ now) (hfit : ∀ x ∈ l, x.Fits) (hlen : l.length < 10 ^ 11)
    (hs : ∀ w, structures = some w → ∀ i ∈ w, 1 ≤ i) :
    ∃ sys, readEnumOut structures (enumOutFile p now l) = .ok (sys,
        ((enumOutRows l).filter (fun r => Asked structures r.1)).map (fun r =>
          { strN := r.1, sizeN := r.2.1, n := r.2.2.size, diag := r.2.2.snf, hnf := r.2.2.hnf, lt := r.2.2.lt,
            labeling := r.2.2.labeling, directions := r.2.2.arrowing })) ∧
      sys.nD = p.basisVecs.length ∧ sys.k = some (p.nspecies : ℤ) ∧ sys.eps = some (1 / 10 ^ 7) ∧
      List.Forall₂ NearVec sys.plattice p.latVecs ∧ List.Forall₂ NearVec sys.dvecs p.basisVecs :=
  ⟨sysOf p now, enumOut_read p now l structures hlat hb hnow hfit hlen hs, rfl, rfl, rfl, vals7_near _, vals7_near _⟩

/-- C31. Without the condition on the widths it fails: with 100 atoms per cell the SNF `1, 1, 100` is written as
`  1  1100` and the HNF `1, 0, 1, 0, 0, 100` as `  1  0  1  0  0100`, and reading any such row ends in an error. -/
theorem C31_fields_merge (t s : ℕ) (x : EnumEntry) (hsize : x.size = 100) (hsnf : x.snf = [1, 1, 100]) (hhnf : x.hnf = [1, 0, 1, 0, 0, 100])
    (hlt : x.lt = [1, 0, 0, 0, 1, 0, 0, 0, 1]) (hl : IsWord x.labeling) (ha : IsWord x.arrowing) (hs : s < 10 ^ 11) :
    ∃ e, readRow (enumOutLine t s x) = .error e := by
  have hnum : ∀ n, n < 10 → natStr n = [digitChar n] := fun n h => natStr_lt h
  have h100 : natStr 100 = ['1', '0', '0'] := by
    rw [natStr_ge (by norm_num), natStr_ge (by norm_num), natStr_lt (by norm_num)]; decide
  have i0 : intStr 0 = ['0'] := hnum 0 (by norm_num)
  have i1 : intStr 1 = ['1'] := hnum 1 (by norm_num)
  have i100 : intStr 100 = ['1', '0', '0'] := h100
  have f1 : fmtn [1, 1, 100] 3 = "  1  1100".toList := by simp [fmtn, i1, i100, padLeft]
  have f2 : fmtn [1, 0, 1, 0, 0, 100] 3 = "  1  0  1  0  0100".toList := by simp [fmtn, i0, i1, i100, padLeft]
  have f3 : fmtn [1, 0, 0, 0, 1, 0, 0, 0, 1] 5 = "    1    0    0    0    1    0    0    0    1".toList := by simp [fmtn, i0, i1, padLeft]
  have hsplit : (pySplit (enumOutLine t s x)).length = 26 := by
    rw [enumOutLine_eq, split_ws_end _ _ (by decide), split_row_gen t s x (by rw [hsize, i100]; decide) hs (by rw [hsnf, f1]; decide) hl ha,
      hsnf, hhnf, hlt, f1, f2, f3]
    have s1 : pySplit "  1  1100".toList = [['1'], ['1', '1', '0', '0']] := by decide
    have s2 : (pySplit "  1  0  1  0  0100".toList).length = 5 := by decide
    have s3 : (pySplit "    1    0    0    0    1    0    0    0    1".toList).length = 9 := by decide
    simp only [List.length_append, s1, s2, s3, List.length_cons, List.length_nil]
  unfold readRow
  cases hm : (List.range 26).mapM (numAt (pySplit (enumOutLine t s x))) with
  | error e => exact ⟨e, by simp only [hm, bind, Except.bind]⟩
  | ok nums =>
    cases hg : pyGet (pySplit (enumOutLine t s x)) (26 : ℕ) with
    | error e => exact ⟨e, by simp only [hm, bind, Except.bind]; rw [hg]⟩
    | ok v =>
      exfalso
      revert hg
      unfold pyGet
      simp [hsplit]

/-- Two structures of size 2 on the fcc lattice. -/
example : (⟨2, [1, 0, 1, 0, 0, 2], [1, 1, 2], [1, 0, 0, 0, 1, 0, 0, 0, 1], "01".toList, "00".toList⟩ : EnumEntry).Fits where
  size := by norm_num
  snf := by simp
  hnf := by simp
  lt := by simp
  labeling := ⟨by decide, by decide⟩
  arrowing := ⟨by decide, by decide⟩

/-- and the rows are numbered through, the counter of the sizes starting again -/
example : (numberEntries 1 0 2 [⟨2, [], [], [], ['0'], []⟩, ⟨2, [], [], [], ['1'], []⟩, ⟨3, [], [], [], ['0'], []⟩]).map (fun r => (r.1, r.2.1)) =
    [(1, 1), (2, 2), (3, 1)] := by decide

end Phenum
