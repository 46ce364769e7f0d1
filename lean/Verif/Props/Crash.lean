import Verif.Model.Crash
import Verif.Props.Steps
/-
C83: runs that are stopped. What is left in the directory, and what a later run does with it.
-/
namespace Phenum
open Spec

/-- The directory after enum.in and enum.out have been deleted. -/
def Spec.cleaned (d : Dir) : Dir := d.filter (fun f => decide (f.1 ≠ "enum.in".toList ∧ f.1 ≠ "enum.out".toList))

/-- The directory after any number of calls `enumeration.py -enum` with this lattice file, each with its own options, each of which may have been stopped at any moment or
may have come to its end. -/
inductive Spec.History (tol : Tol) (lattice : Str) (d : Dir) : Dir → Prop
  | start : History tol lattice d d
  | run {x y : Dir} (w : World) (a : Args) (ha : EnumCall a) (hl : a.lattice = lattice) : History tol lattice d x → y ∈ scriptStops w tol a x → History tol lattice d y

/-! ## what a stopped run leaves -/

theorem mem_range_cons {lo hi s : ℤ} {ss : List ℤ} (h : pyRange lo hi = s :: ss) : s = lo ∧ ss = pyRange (lo + 1) hi := by
  unfold pyRange at *
  cases hn : (hi - lo).toNat with
  | zero => rw [hn] at h; simp at h
  | succ n =>
    have hn' : (hi - (lo + 1)).toNat = n := by omega
    rw [hn, List.range_succ_eq_map] at h
    simp only [List.map_cons, List.map_map, List.cons.injEq] at h
    rw [hn']
    refine ⟨by simpa using h.1.symm, ?_⟩
    rw [← h.2]
    apply List.map_congr_left
    intro i _
    simp only [Function.comp_apply]
    push_cast
    ring

theorem filter_set_out (q : Str → Bool) (d : Dir) {k : Str} (hk : q k = false) (v : Str) : (dictSet d k v).filter (fun f => q f.1) = d.filter (fun f => q f.1) := by
  induction d with
  | nil => simp [dictSet, hk]
  | cons p d ih =>
    obtain ⟨k0, v0⟩ := p
    unfold dictSet
    by_cases h0 : k0 = k
    · subst h0; simp [hk]
    · rw [if_neg h0]
      simp only [List.filter_cons, ih]

theorem filter_set (q : Str → Bool) (d : Dir) {k : Str} (hk : q k = true) (v : Str) : (dictSet d k v).filter (fun f => q f.1) = dictSet (d.filter (fun f => q f.1)) k v := by
  induction d with
  | nil => simp [dictSet, hk]
  | cons p d ih =>
    obtain ⟨k0, v0⟩ := p
    by_cases h0 : k0 = k
    · subst h0
      simp [dictSet, hk]
    · by_cases h1 : q k0 = true
      · simp [dictSet, h0, h1, ih]
      · simp [dictSet, h0, h1, ih]

theorem dictGet_filter (q : Str → Bool) (d : Dir) {f : Str} (hf : q f = true) : dictGet (d.filter (fun p => q p.1)) f = dictGet d f := by
  unfold dictGet
  rw [List.find?_filter]
  congr 2
  funext p
  by_cases h : p.1 = f
  · simp [h, hf]
  · simp [h]

/-- kept when enum.in and enum.out are deleted -/
def isKept (f : Str) : Bool := decide (f ≠ "enum.in".toList ∧ f ≠ "enum.out".toList)

theorem isKept_true {f : Str} (h : f ≠ "enum.in".toList ∧ f ≠ "enum.out".toList) : isKept f = true := decide_eq_true h

theorem cleaned_eq (d : Dir) : cleaned d = d.filter (fun f => isKept f.1) := rfl

theorem cleaned_set_out (d : Dir) {k : Str} (hk : k = "enum.in".toList ∨ k = "enum.out".toList) (v : Str) : cleaned (dictSet d k v) = cleaned d := by
  rw [cleaned_eq, cleaned_eq]
  refine filter_set_out isKept d ?_ v
  exact decide_eq_false (fun h => hk.elim h.1 h.2)

theorem cleaned_set (d : Dir) {k : Str} (hk : k ≠ "enum.in".toList ∧ k ≠ "enum.out".toList) (v : Str) : cleaned (dictSet d k v) = dictSet (cleaned d) k v :=
  filter_set isKept d (isKept_true hk) v

theorem dictGet_cleaned (d : Dir) {f : Str} (hf : f ≠ "enum.in".toList ∧ f ≠ "enum.out".toList) : dictGet (cleaned d) f = dictGet d f :=
  dictGet_filter isKept d (isKept_true hf)

theorem cleaned_keys (d : Dir) : ∀ f ∈ (cleaned d).map (·.1), f ∈ d.map (·.1) ∧ f ≠ "enum.in".toList ∧ f ≠ "enum.out".toList := by
  intro f hf
  obtain ⟨p, hp, rfl⟩ := List.mem_map.mp hf
  obtain ⟨h1, h2⟩ := List.mem_filter.mp hp
  exact ⟨List.mem_map_of_mem h1, of_decide_eq_true h2⟩

theorem polyaName_clean (s : ℤ) : polyaName s ≠ "enum.in".toList ∧ polyaName s ≠ "enum.out".toList := by
  have h0 : (polyaName s).head? = some 'p' := rfl
  have h1 : ("enum.in".toList).head? = some 'e' := by decide
  have h2 : ("enum.out".toList).head? = some 'e' := by decide
  constructor
  · intro h
    rw [h, h1] at h0
    exact absurd h0 (by decide)
  · intro h
    rw [h, h2] at h0
    exact absurd h0 (by decide)

theorem polyaName_numbered (s : ℤ) : "polya.out".toList ++ ['.'] <+: polyaName s := numbered_prefix _ s

/-- The sizes that lattice.in asks for, as `_polya_out` uses them: none if it cannot be read. -/
def Spec.sizesAsked (d : Dir) (lattice : Str) : List ℤ :=
  match readLat d lattice with
  | .ok lat => (match pyGet lat.sizes 0, pyGet lat.sizes 1 with
    | .ok lo, .ok hi => pyRange lo (hi + 1)
    | _, _ => [])
  | .error _ => []

/-- The directory `x` differs from `d` only in enum.in, enum.out and the tables of the first of the sizes `l`. -/
def LeftOver (l : List ℤ) (d x : Dir) : Prop :=
  ∃ files : List (ℤ × Str), files.map (·.1) <+: l ∧ cleaned x = cleaned d ++ files.map (fun f => (polyaName f.1, f.2))

theorem pyRange_nd (lo hi : ℤ) : (pyRange lo hi).Nodup := by
  unfold pyRange
  refine List.Nodup.map ?_ List.nodup_range
  intro a b h
  simp only at h
  omega

theorem sizesAsked_nodup (d : Dir) (lattice : Str) : (sizesAsked d lattice).Nodup := by
  unfold sizesAsked
  split
  · split
    · exact pyRange_nd _ _
    · exact List.nodup_nil
  · exact List.nodup_nil

/-- the loop started in a directory without tables -/
theorem polyaLoopStops_left {tol : Tol} {lat : LatticeIn} {D : Dir} : ∀ (l : List ℤ) (d : Dir) (pre : List (ℤ × Str)),
    (∀ s ∈ pre.map (·.1) ++ l, polyaName s ∉ D.map (·.1)) → (pre.map (·.1) ++ l).Nodup → cleaned d = D ++ pre.map (fun f => (polyaName f.1, f.2)) →
    ∀ x ∈ polyaLoopStops tol lat "polya.out".toList l d,
      ∃ files : List (ℤ × Str), files.map (·.1) <+: pre.map (·.1) ++ l ∧ cleaned x = D ++ files.map (fun f => (polyaName f.1, f.2)) := by
  intro l
  induction l with
  | nil =>
    intro d pre _ _ hc x hx
    rw [show x = d from hx]
    exact ⟨pre, by simp, hc⟩
  | cons s l ih =>
    intro d pre hD hnd hc x hx
    have hnew : ∀ v, cleaned (dictSet d (polyaName s) v) = D ++ (pre ++ [(s, v)]).map (fun f => (polyaName f.1, f.2)) := by
      intro v
      rw [cleaned_set d (polyaName_clean s), hc, dictSet_new, List.map_append, List.append_assoc]
      · rfl
      · rw [List.map_append, List.mem_append, not_or]
        refine ⟨hD s (by simp), ?_⟩
        rw [List.map_map]
        intro hm
        obtain ⟨f, hf, e⟩ := List.mem_map.mp hm
        have e2 : f.1 = s := polyaName_inj e
        have := List.nodup_append.mp hnd
        exact this.2.2 f.1 (List.mem_map_of_mem hf) s (by simp) e2
    rcases hx with rfl | ⟨p, rfl, -⟩ | ⟨t, -, hx⟩
    · exact ⟨pre, List.prefix_append _ _, hc⟩
    · refine ⟨pre ++ [(s, p)], ?_, hnew p⟩
      rw [List.map_append]
      exact ⟨l, by simp⟩
    · obtain ⟨files, h1, h2⟩ := ih (dictSet d (polyaName s) (writePolya t)) (pre ++ [(s, writePolya t)]) (by simpa using hD) (by simpa using hnd) (hnew _) x hx
      exact ⟨files, by simpa using h1, h2⟩

/-! ## a run that comes to its end -/

theorem polyaLoop_final {tol : Tol} {lat : LatticeIn} {out : Str} : ∀ (l : List ℤ) (d d' : Dir), polyaLoop tol lat out l d = (pure d' : Run Dir) → d' ∈ polyaLoopStops tol lat out l d := by
  intro l
  induction l with
  | nil => intro d d' h; exact (run_pure_inj h).symm
  | cons s l ih =>
    intro d d' h
    unfold polyaLoop at h
    obtain ⟨t, h1, h2⟩ := run_bind_ok h
    exact Or.inr (Or.inr ⟨t, h1, ih _ _ h2⟩)

theorem polyaOut_final {tol : Tol} {lattice out : Str} {d d' : Dir} (h : polyaOut tol lattice out d = (pure d' : Run Dir)) : d' ∈ polyaOutStops tol lattice out d := by
  unfold polyaOut at h
  obtain ⟨lat, h1, h⟩ := run_bind_ok h
  obtain ⟨lo, h2, h⟩ := run_bind_ok h
  obtain ⟨hi, h3, h⟩ := run_bind_ok h
  exact Or.inr ⟨lat, lo, hi, runPy_eq_pure h1, runPy_eq_pure h2, runPy_eq_pure h3, polyaLoop_final _ _ _ h⟩

theorem makeEnumIn_result {w : World} {infile distribution outfile : Str} {number : Option ℤ} {sizes : Option (List ℤ)} {save : Bool} {restrict : Option (Str × Str)} {d d' : Dir}
    (h : makeEnumIn w infile distribution outfile number sizes save restrict d = .ok d') :
    ((distribution = "all".toList ∨ save = true) ∧ ∃ text, d' = dictSet d outfile text) ∨ (¬ (distribution = "all".toList ∨ save = true) ∧ d' = d) := by
  unfold makeEnumIn at h
  cases h1 : sizesUsed w d infile sizes with
  | error e => rw [h1] at h; cases h
  | ok l =>
    rw [h1] at h
    cases h2 : readRestrict d restrict with
    | error e => rw [h2] at h; cases h
    | ok res =>
      rw [h2] at h
      cases h3 : readTables d infile l with
      | error e =>
        simp only [bind, Except.bind, h3] at h
        cases h
      | ok tables =>
        simp only [bind, Except.bind, h3] at h
        cases h4 : ftypeOf distribution with
        | error e => simp only [h4] at h; cases h
        | ok ft =>
          simp only [h4] at h
          cases h5 : distributePy tables res ft (number.map Int.toNat) w.draws with
          | error e => simp only [h5] at h; cases h
          | ok distr =>
            simp only [h5] at h
            by_cases h6 : distribution = "all".toList ∨ save = true
            · rw [if_pos h6] at h
              exact Or.inl ⟨h6, _, (Except.ok.inj h).symm⟩
            · rw [if_neg h6] at h
              exact Or.inr ⟨h6, (Except.ok.inj h).symm⟩

theorem makeEnumIn_final {w : World} {infile distribution outfile : Str} {number : Option ℤ} {sizes : Option (List ℤ)} {save : Bool} {restrict : Option (Str × Str)} {d d' : Dir}
    (h : makeEnumIn w infile distribution outfile number sizes save restrict d = .ok d') :
    d' ∈ makeEnumInStops w infile distribution outfile number sizes save restrict d := by
  rcases makeEnumIn_result h with ⟨h1, text, rfl⟩ | ⟨-, rfl⟩
  · exact Or.inr ⟨h1, _, text, text, h, by rw [dictGet_set, if_pos rfl], List.prefix_refl _, rfl⟩
  · exact Or.inl rfl

theorem enumIn_final {w : World} {tol : Tol} {a : Args} {input outfile : Str} {distribution : List Str} {d d' : Dir}
    (h : enumIn w tol a input outfile distribution d = (pure d' : Run Dir)) : d' ∈ enumInStops w tol a input outfile distribution d := by
  rw [enumIn_eq] at h
  obtain ⟨d1, h1, h⟩ := run_bind_ok h
  unfold enumInRest at h
  obtain ⟨d0, h2, h⟩ := run_bind_ok h
  obtain ⟨e1, h3, h⟩ := run_bind_ok h
  obtain ⟨number, h4, h⟩ := run_bind_ok h
  exact Or.inr (Or.inr ⟨d1, d0, e1, number, h1, runPy_eq_pure h2, runPy_eq_pure h3, runPy_eq_pure h4, makeEnumIn_final (runPy_eq_pure h)⟩)

theorem enumWrite_result {w : World} {tol : Tol} {lat : LatticeIn} {supers accept : Bool} {outfile : Str} {systems : List (List ℤ × List ℤ × ℤ)} {d d' : Dir}
    (h : enumWrite w tol lat supers accept outfile systems d = (pure d' : Run Dir)) : ∃ text, d' = dictSet d outfile text := by
  unfold enumWrite at h
  obtain ⟨geo, -, h⟩ := run_bind_ok h
  obtain ⟨l, -, h⟩ := run_bind_ok h
  split at h
  · cases h
  · exact ⟨_, (run_pure_inj h).symm⟩

theorem enumWrite_final {w : World} {tol : Tol} {lat : LatticeIn} {supers accept : Bool} {outfile : Str} {systems : List (List ℤ × List ℤ × ℤ)} {d d' : Dir}
    (h : enumWrite w tol lat supers accept outfile systems d = (pure d' : Run Dir)) : d' ∈ enumWriteStops w tol lat supers accept outfile systems d := by
  obtain ⟨text, rfl⟩ := enumWrite_result h
  exact Or.inr (Or.inr ⟨_, text, text, h, by rw [dictGet_set, if_pos rfl], List.prefix_refl _, rfl⟩)

theorem enumOut_final {w : World} {tol : Tol} {a : Args} {input outfile : Str} {d d' : Dir} (h : enumOut w tol a input outfile d = (pure d' : Run Dir)) :
    d' ∈ enumOutStops w tol a input outfile d := by
  rw [enumOut_eq] at h
  obtain ⟨lat, h1, h⟩ := run_bind_ok h
  obtain ⟨d2, h2, h⟩ := run_bind_ok h
  unfold finish at h
  obtain ⟨systems, h3, h⟩ := run_bind_ok h
  exact Or.inr ⟨lat, runPy_eq_pure h1, Or.inr ⟨d2, systems, h2, runPy_eq_pure h3, enumWrite_final h⟩⟩

theorem enumCall_names {a : Args} (h : EnumCall a) : (fileNames a).1.getD [] = "enum.in".toList ∧ (fileNames a).2.getD [] = "enum.out".toList := by
  unfold fileNames
  simp [h.polya, h.enum, h.input, h.outfile]

/-- the stops of a call with -enum -/
theorem scriptStops_enum {a : Args} (h : EnumCall a) {w : World} {tol : Tol} {d x : Dir} :
    x ∈ scriptStops w tol a d ↔ x ∈ enumOutStops w tol a "enum.in".toList "enum.out".toList d := by
  obtain ⟨e1, e2⟩ := enumCall_names h
  unfold scriptStops
  simp only [Set.mem_setOf_eq, h.polya, h.enum, e1, e2, if_true, Bool.false_eq_true, if_false, false_and, false_or, enumCall_check h d, true_and]
  constructor
  · rintro (rfl | ⟨d1, h1, h2 | ⟨d2, h2, h3 | ⟨-, h3, -⟩⟩⟩)
    · exact Or.inl rfl
    · rw [run_pure_inj h1]; exact h2
    · rw [run_pure_inj h1, h3]; exact enumOut_final h2
    · cases h3
  · intro hx
    exact Or.inr ⟨d, rfl, Or.inl hx⟩

/-! ## the tables and other files in any history -/

section
variable {tol : Tol} {lattice : Str} {d0 : Dir}

theorem leftover_read (hl : lattice ≠ "enum.in".toList ∧ lattice ≠ "enum.out".toList ∧ ¬ "polya.out.".toList <+: lattice) {l : List ℤ} {x : Dir} (h : LeftOver l d0 x) :
    dictGet x lattice = dictGet d0 lattice := by
  obtain ⟨files, -, h2⟩ := h
  rw [← dictGet_cleaned x ⟨hl.1, hl.2.1⟩, h2, ← dictGet_cleaned d0 ⟨hl.1, hl.2.1⟩]
  unfold dictGet
  rw [List.find?_append]
  have : (files.map (fun f => (polyaName f.1, f.2))).find? (fun p => decide (p.1 = lattice)) = none := by
    rw [List.find?_eq_none]
    intro p hp
    obtain ⟨f, -, rfl⟩ := List.mem_map.mp hp
    simp only [decide_eq_true_eq]
    rintro rfl
    exact hl.2.2 (polyaName_numbered f.1)
  rw [this, Option.or_none]

theorem leftover_numbered {l : List ℤ} {x : Dir} (h : LeftOver l d0 x) (hx : anyNumbered x "polya.out".toList = false) : cleaned x = cleaned d0 := by
  obtain ⟨files, -, h2⟩ := h
  cases files with
  | nil => simpa using h2
  | cons f files =>
    exfalso
    rw [← Bool.not_eq_true, anyNumbered_iff] at hx
    apply hx
    refine ⟨polyaName f.1, (cleaned_keys x _ ?_).1, polyaName_numbered f.1⟩
    rw [h2]
    simp

theorem leftover_polya (hl : lattice ≠ "enum.in".toList ∧ lattice ≠ "enum.out".toList ∧ ¬ "polya.out.".toList <+: lattice) (hd : ∀ f ∈ d0.map (·.1), ¬ "polya.out.".toList <+: f)
    {x : Dir} (h : LeftOver (sizesAsked d0 lattice) d0 x) (hx : anyNumbered x "polya.out".toList = false) {y : Dir} (hy : y ∈ polyaOutStops tol lattice "polya.out".toList x) :
    LeftOver (sizesAsked d0 lattice) d0 y := by
  rcases hy with rfl | ⟨lat, lo, hi, h1, h2, h3, h4⟩
  · exact h
  · have hs : sizesAsked d0 lattice = pyRange lo (hi + 1) := by
      unfold sizesAsked
      rw [← readLat_congr (leftover_read hl h), show readLat x lattice = .ok lat from h1]
      simp only [h2, h3]
    obtain ⟨files, f1, f2⟩ := polyaLoopStops_left (D := cleaned d0) (pyRange lo (hi + 1)) x [] (by
        intro s _ hm
        exact hd _ (cleaned_keys d0 _ hm).1 (polyaName_numbered s)) (by simpa using pyRange_nd lo (hi + 1)) (by simpa using leftover_numbered h hx) y h4
    exact ⟨files, by rw [hs]; simpa using f1, f2⟩

theorem leftover_set {l : List ℤ} {x : Dir} (h : LeftOver l d0 x) {k : Str} (hk : k = "enum.in".toList ∨ k = "enum.out".toList) (v : Str) : LeftOver l d0 (dictSet x k v) := by
  obtain ⟨files, h1, h2⟩ := h
  exact ⟨files, h1, by rw [cleaned_set_out x hk, h2]⟩

theorem leftover_prepared (hl : lattice ≠ "enum.in".toList ∧ lattice ≠ "enum.out".toList ∧ ¬ "polya.out.".toList <+: lattice) (hd : ∀ f ∈ d0.map (·.1), ¬ "polya.out.".toList <+: f)
    {x : Dir} (h : LeftOver (sizesAsked d0 lattice) d0 x) {d1 : Dir}
    (h1 : (if anyNumbered x "polya.out".toList then pure x else polyaOut tol lattice "polya.out".toList x) = (pure d1 : Run Dir)) : LeftOver (sizesAsked d0 lattice) d0 d1 := by
  cases hn : anyNumbered x "polya.out".toList with
  | true => rw [hn, if_pos rfl] at h1; rw [← run_pure_inj h1]; exact h
  | false =>
    rw [hn, if_neg (by simp)] at h1
    exact leftover_polya hl hd h hn (polyaOut_final h1)

theorem leftover_enumIn (hl : lattice ≠ "enum.in".toList ∧ lattice ≠ "enum.out".toList ∧ ¬ "polya.out.".toList <+: lattice) (hd : ∀ f ∈ d0.map (·.1), ¬ "polya.out.".toList <+: f)
    {x : Dir} (h : LeftOver (sizesAsked d0 lattice) d0 x) {w : World} {a : Args} (ha : a.lattice = lattice) {distribution : List Str} {y : Dir}
    (hy : y ∈ enumInStops w tol a "polya.out".toList "enum.in".toList distribution x) : LeftOver (sizesAsked d0 lattice) d0 y := by
  rcases hy with rfl | ⟨h1, h2⟩ | ⟨d1, e0, e1, number, h1, -, -, -, h5⟩
  · exact h
  · rw [ha] at h2
    exact leftover_polya hl hd h h1 h2
  · rw [ha] at h1
    have hd1 := leftover_prepared hl hd h h1
    rcases h5 with rfl | ⟨-, d', text, p, -, -, -, rfl⟩
    · exact hd1
    · exact leftover_set hd1 (Or.inl rfl) p

/-- a stopped call leaves only tables, enum.in and enum.out -/
theorem leftover_run (hl : lattice ≠ "enum.in".toList ∧ lattice ≠ "enum.out".toList ∧ ¬ "polya.out.".toList <+: lattice) (hd : ∀ f ∈ d0.map (·.1), ¬ "polya.out.".toList <+: f)
    {x : Dir} (h : LeftOver (sizesAsked d0 lattice) d0 x) {w : World} {a : Args} (ha : EnumCall a) (hal : a.lattice = lattice) {y : Dir} (hy : y ∈ scriptStops w tol a x) :
    LeftOver (sizesAsked d0 lattice) d0 y := by
  rw [scriptStops_enum ha] at hy
  rcases hy with rfl | ⟨lat, -, ⟨-, ⟨h1, h2⟩ | ⟨d1, h1, h2⟩⟩ | ⟨d2, systems, h1, -, h3⟩⟩
  · exact h
  · rw [hal] at h2
    exact leftover_polya hl hd h h1 h2
  · rw [hal] at h1
    exact leftover_enumIn hl hd (leftover_prepared hl hd h h1) hal h2
  · have hd2 : LeftOver (sizesAsked d0 lattice) d0 d2 := by
      cases hi : (dictGet x "enum.in".toList).isSome with
      | true => rw [hi, if_pos rfl] at h1; rw [← run_pure_inj h1]; exact h
      | false =>
        rw [hi, if_neg (by simp)] at h1
        obtain ⟨d1, h4, h5⟩ := run_bind_ok h1
        rw [hal] at h4
        exact leftover_enumIn hl hd (leftover_prepared hl hd h h4) hal (enumIn_final h5)
    rcases h3 with rfl | ⟨geo, p, -, -, rfl⟩ | ⟨d', text, p, -, -, -, rfl⟩
    · exact hd2
    · exact leftover_set hd2 (Or.inr rfl) p
    · exact leftover_set hd2 (Or.inr rfl) p

theorem leftover_history (hl : lattice ≠ "enum.in".toList ∧ lattice ≠ "enum.out".toList ∧ ¬ "polya.out.".toList <+: lattice) (hd : ∀ f ∈ d0.map (·.1), ¬ "polya.out.".toList <+: f)
    {x : Dir} (h : History tol lattice d0 x) : LeftOver (sizesAsked d0 lattice) d0 x := by
  induction h with
  | start => exact ⟨[], by simp, by simp⟩
  | run w a ha hal _ hy ih => exact leftover_run hl hd ih ha hal hy

end

/-- counting again in a directory with tables of the first sizes -/
theorem polyaLoop_again {tol : Tol} {lat : LatticeIn} : ∀ (l : List ℤ) (D : Dir) (files : List (ℤ × Str)), l.Nodup → (∀ s ∈ l, polyaName s ∉ D.map (·.1)) → files.map (·.1) <+: l →
    polyaLoop tol lat "polya.out".toList l (D ++ files.map (fun f => (polyaName f.1, f.2))) = polyaLoop tol lat "polya.out".toList l D := by
  intro l
  induction l with
  | nil =>
    intro D files _ _ h
    have : files = [] := by simpa using h
    rw [this]; simp
  | cons s l ih =>
    intro D files hnd hD hp
    obtain ⟨hs, hl⟩ := List.nodup_cons.mp hnd
    have hsD := hD s List.mem_cons_self
    cases files with
    | nil => simp
    | cons f files =>
      rw [List.map_cons, List.cons_prefix_cons] at hp
      obtain ⟨rfl, hp⟩ := hp
      unfold polyaLoop
      apply run_bind_congr
      intro t _
      have e1 : dictSet (D ++ (f :: files).map (fun f => (polyaName f.1, f.2))) (polyaName f.1) (writePolya t) =
          dictSet D (polyaName f.1) (writePolya t) ++ files.map (fun f => (polyaName f.1, f.2)) := by
        rw [dictSet_new hsD]
        clear ih hl hs hnd hD hp
        induction D with
        | nil => simp [dictSet]
        | cons q D ih =>
          obtain ⟨k0, v0⟩ := q
          rw [List.map_cons, List.mem_cons, not_or] at hsD
          have := ih hsD.2
          simp only [List.cons_append, dictSet]
          rw [if_neg (fun h => hsD.1 h.symm), this]
      have e2 := ih (dictSet D (polyaName f.1) (writePolya t)) files hl (by
        intro z hz hm
        rw [dictSet_keys] at hm
        rcases hm with hm | hm
        · have := polyaName_inj hm
          exact hs (this ▸ hz)
        · exact hD z (List.mem_cons_of_mem _ hz) hm) hp
      rw [show "polya.out".toList ++ '.' :: intStr f.1 = polyaName f.1 from rfl, e1, e2]

/-! ## the theorems -/

/-- C83. However often the program has been stopped: every file except the tables of the sizes in lattice.in, enum.in and enum.out is as it was, and if the table of a size exists so
do those of the smaller sizes. -/
theorem C83_other_files {tol : Tol} {lattice : Str} {d x : Dir} (hl : lattice ≠ "enum.in".toList ∧ lattice ≠ "enum.out".toList ∧ ¬ "polya.out.".toList <+: lattice)
    (hd : NoResults d) (h : History tol lattice d x) :
    (∀ f, f ≠ "enum.in".toList → f ≠ "enum.out".toList → (∀ s ∈ sizesAsked d lattice, f ≠ "polya.out.".toList ++ intStr s) → dictGet x f = dictGet d f) ∧
    ∀ s ∈ sizesAsked d lattice, (dictGet x ("polya.out.".toList ++ intStr s)).isSome → ∀ r ∈ sizesAsked d lattice, r ≤ s → (dictGet x ("polya.out.".toList ++ intStr r)).isSome := by
  obtain ⟨files, h1, h2⟩ := leftover_history hl hd.1 h
  have hname : ∀ s : ℤ, "polya.out.".toList ++ intStr s = polyaName s := fun s => rfl
  have hget : ∀ f, f ≠ "enum.in".toList → f ≠ "enum.out".toList → dictGet x f = (dictGet d f).or (dictGet (files.map (fun f => (polyaName f.1, f.2))) f) := by
    intro f f1 f2
    rw [← dictGet_cleaned x ⟨f1, f2⟩, h2, ← dictGet_cleaned d ⟨f1, f2⟩]
    unfold dictGet
    rw [List.find?_append, Option.map_or]
  have hfile : ∀ s : ℤ, (dictGet x (polyaName s)).isSome = true ↔ s ∈ files.map (·.1) := by
    intro s
    obtain ⟨c1, c2⟩ := polyaName_clean s
    rw [hget _ c1 c2]
    have : dictGet d (polyaName s) = none := by
      rw [dictGet_none]
      intro hm
      exact hd.1 _ hm (polyaName_numbered s)
    rw [this, Option.none_or]
    constructor
    · intro hs
      by_contra hn
      have : dictGet (files.map (fun f => (polyaName f.1, f.2))) (polyaName s) = none := by
        rw [dictGet_none, List.map_map]
        intro hm
        obtain ⟨f, hf, e⟩ := List.mem_map.mp hm
        have : f.1 = s := polyaName_inj e
        exact hn (this ▸ List.mem_map_of_mem hf)
      rw [this] at hs
      cases hs
    · intro hs
      cases hg : dictGet (files.map (fun f => (polyaName f.1, f.2))) (polyaName s) with
      | some v => rfl
      | none =>
        rw [dictGet_none, List.map_map] at hg
        obtain ⟨f, hf, rfl⟩ := List.mem_map.mp hs
        exact absurd (List.mem_map_of_mem (f := (fun x : Str × Str => x.1) ∘ fun f : ℤ × Str => (polyaName f.1, f.2)) hf) hg
  constructor
  · intro f f1 f2 f3
    rw [hget f f1 f2]
    have : dictGet (files.map (fun f => (polyaName f.1, f.2))) f = none := by
      rw [dictGet_none, List.map_map]
      intro hm
      obtain ⟨g, hg, e⟩ := List.mem_map.mp hm
      exact f3 g.1 (h1.subset (List.mem_map_of_mem hg)) e.symm
    rw [this, Option.or_none]
  · intro s hs hx r hr hrs
    rw [hname] at hx ⊢
    rw [hfile] at hx ⊢
    have hsorted : (sizesAsked d lattice).Pairwise (· < ·) := by
      unfold sizesAsked
      split
      · split
        · unfold pyRange
          rw [List.pairwise_map]
          exact List.pairwise_lt_range.imp (fun h => by omega)
        · exact List.Pairwise.nil
      · exact List.Pairwise.nil
    obtain ⟨tl, htl⟩ := h1
    rw [← htl] at hr hsorted
    rcases List.mem_append.mp hr with hr | hr
    · exact hr
    · have := (List.pairwise_append.mp hsorted).2.2 s hx r hr
      omega

/-- C83. Starting over: however often and wherever the program has been stopped, after deleting enum.in and enum.out and counting again with -polya the call gives what it would have given
in the original directory, error or files. -/
theorem C83_start_over {tol : Tol} {d x : Dir} {a : Args} (ha : EnumCall a)
    (hl : a.lattice ≠ "enum.in".toList ∧ a.lattice ≠ "enum.out".toList ∧ ¬ "polya.out.".toList <+: a.lattice) (hd : ∀ f ∈ d.map (·.1), ¬ "polya.out.".toList <+: f)
    (h : History tol a.lattice d x) (w : World) :
    (do let e ← scriptEnum w tol (asPolya a) (cleaned x); scriptEnum w tol a e) = scriptEnum w tol a (cleaned d) := by
  have hno : NoResults (cleaned d) := ⟨fun f hf => hd f (cleaned_keys d f hf).1, fun hm => (cleaned_keys d _ hm).2.1 rfl⟩
  rw [C57_polya_first ha w tol (cleaned d) hno]
  congr 1
  have hleft := leftover_history hl hd h
  have hread : dictGet (cleaned x) a.lattice = dictGet (cleaned d) a.lattice := by
    rw [dictGet_cleaned x ⟨hl.1, hl.2.1⟩, dictGet_cleaned d ⟨hl.1, hl.2.1⟩]
    exact leftover_read hl hleft
  rw [scriptEnum_polya ha, scriptEnum_polya ha, hread]
  congr 1
  obtain ⟨files, h1, h2⟩ := hleft
  unfold polyaOut
  have e1 : (do let s ← readFile (cleaned x) a.lattice; readLattice s) = (do let s ← readFile (cleaned d) a.lattice; readLattice s) := readLat_congr hread
  rw [e1]
  apply run_bind_congr
  intro lat hlat
  apply run_bind_congr
  intro lo hlo
  apply run_bind_congr
  intro hi hhi
  have hs : sizesAsked d a.lattice = pyRange lo (hi + 1) := by
    unfold sizesAsked
    rw [← readLat_congr (dictGet_cleaned d ⟨hl.1, hl.2.1⟩), show readLat (cleaned d) a.lattice = .ok lat from runPy_eq_pure hlat]
    simp only [runPy_eq_pure hlo, runPy_eq_pure hhi]
  rw [h2]
  refine polyaLoop_again _ _ files (pyRange_nd _ _) ?_ (hs ▸ h1)
  intro s _ hm
  exact hd _ (cleaned_keys d _ hm).1 (polyaName_numbered s)

/-! ## resuming -/

theorem polyaLoopStops_keeps {tol : Tol} {lat : LatticeIn} {out : Str} : ∀ (l : List ℤ) (d x : Dir), x ∈ polyaLoopStops tol lat out l d →
    ∀ f, ¬ (out ++ ['.'] <+: f) → dictGet x f = dictGet d f := by
  intro l
  induction l with
  | nil => intro d x hx f _; rw [show x = d from hx]
  | cons s l ih =>
    intro d x hx f hf
    have hne : f ≠ out ++ '.' :: intStr s := by
      rintro rfl
      exact hf (numbered_prefix out s)
    rcases hx with rfl | ⟨p, rfl, -⟩ | ⟨t, -, hx⟩
    · rfl
    · rw [dictGet_set, if_neg hne]
    · rw [ih _ _ hx f hf, dictGet_set, if_neg hne]

theorem polyaOutStops_keeps {tol : Tol} {lattice out : Str} {d x : Dir} (hx : x ∈ polyaOutStops tol lattice out d) {f : Str} (hf : ¬ (out ++ ['.'] <+: f)) :
    dictGet x f = dictGet d f := by
  rcases hx with rfl | ⟨lat, lo, hi, -, -, -, hx⟩
  · rfl
  · exact polyaLoopStops_keeps _ _ _ hx f hf

/-- the second part of a run, in a directory that differs in enum.out only -/
theorem run_from {a : Args} (ha : EnumCall a) {w w' : World} {tol : Tol} {d d' d2 x : Dir} {lat : LatticeIn} (hw : w'.rnd = w.rnd ∧ w'.now = w.now)
    (hread : readLat d a.lattice = .ok lat) (hl : dictGet x a.lattice = dictGet d a.lattice) (hin : dictGet x "enum.in".toList = dictGet d2 "enum.in".toList)
    (hset : ∀ v, dictSet x "enum.out".toList v = dictSet d2 "enum.out".toList v)
    (hrun : finish w tol a "enum.in".toList "enum.out".toList lat d2 = (pure d' : Run Dir)) : scriptEnum w' tol a x = (pure d' : Run Dir) := by
  unfold finish at hrun
  obtain ⟨systems, h2, hrun⟩ := run_bind_ok hrun
  unfold enumWrite at hrun
  obtain ⟨geo, h4, hrun⟩ := run_bind_ok hrun
  obtain ⟨rows, h5, hrun⟩ := run_bind_ok hrun
  by_cases hs : systems = []
  · rw [if_pos hs] at hrun; cases hrun
  rw [if_neg hs] at hrun
  have e3 : (dictGet x "enum.in".toList).isSome = true := by
    have := runPy_eq_pure h2
    unfold readFile at this
    rw [hin]
    cases hx : dictGet d2 "enum.in".toList with
    | none => rw [hx] at this; cases this
    | some x => rfl
  rw [scriptEnum_enum ha, enumOut_eq, readLat_congr hl, hread, runPy_ok, pure_bind, if_pos e3, pure_bind]
  unfold finish
  have e4 : (do let s ← readFile x "enum.in".toList; readEnum s) = (do let s ← readFile d2 "enum.in".toList; readEnum s) := by
    unfold readFile; rw [hin]
  rw [e4, h2, pure_bind]
  unfold enumWrite
  rw [h4, pure_bind, enumLoop_world hw.1, h5, pure_bind, if_neg hs, hset, hw.2]
  exact hrun

/-- C83. Resuming: if a run is stopped after enum.in has been completed, calling the program again gives the directory that the run would have given, whatever the order of the
directory listing and the random numbers of the selection. -/
theorem C83_resume {a : Args} (ha : EnumCall a) {w w' : World} {tol : Tol} {d d' x : Dir} (hw : w'.rnd = w.rnd ∧ w'.now = w.now)
    (hl : a.lattice ≠ "enum.in".toList ∧ a.lattice ≠ "enum.out".toList ∧ ¬ "polya.out.".toList <+: a.lattice)
    (hrun : scriptEnum w tol a d = (pure d' : Run Dir)) (hx : x ∈ scriptStops w tol a d) (hin : dictGet x "enum.in".toList = dictGet d' "enum.in".toList) :
    scriptEnum w' tol a x = (pure d' : Run Dir) := by
  rw [scriptEnum_enum ha, enumOut_eq] at hrun
  obtain ⟨lat, h0, hrun⟩ := run_bind_ok hrun
  obtain ⟨d2, h1, hfin2⟩ := run_bind_ok hrun
  have hread := runPy_eq_pure h0
  have hne : "enum.in".toList ≠ "enum.out".toList := by decide
  have hd' : ∃ text, d' = dictSet d2 "enum.out".toList text := by
    unfold finish at hfin2
    obtain ⟨systems, -, h3⟩ := run_bind_ok hfin2
    exact enumWrite_result h3
  have hsome : (dictGet d2 "enum.in".toList).isSome = true := by
    unfold finish at hfin2
    obtain ⟨systems, h3, -⟩ := run_bind_ok hfin2
    have := runPy_eq_pure h3
    unfold readFile at this
    cases hx : dictGet d2 "enum.in".toList with
    | none => rw [hx] at this; cases this
    | some x => rfl
  obtain ⟨T, hT⟩ := hd'
  rw [hT, dictGet_set, if_neg hne] at hin
  have hpol : ∀ {e e1 : Dir}, (if anyNumbered e "polya.out".toList then pure e else polyaOut tol a.lattice "polya.out".toList e) = (pure e1 : Run Dir) →
      ∀ f, ¬ ("polya.out".toList ++ ['.'] <+: f) → dictGet e1 f = dictGet e f := by
    intro e e1 he f hf
    by_cases hany : anyNumbered e "polya.out".toList = true
    · rw [if_pos hany] at he
      rw [run_pure_inj he]
    · rw [if_neg hany] at he
      exact (polyaOut_inv he).2.2 f hf
  rw [scriptStops_enum ha] at hx
  have hnone : (dictGet d "enum.in".toList).isSome = false → ∀ {y : Dir}, dictGet y "enum.in".toList = dictGet d "enum.in".toList → dictGet y "enum.in".toList ≠ dictGet d2 "enum.in".toList := by
    intro h y e1 e2
    rw [← e2, e1, h] at hsome
    cases hsome
  rcases hx with rfl | ⟨lat', hlat', ⟨hno, ⟨h3, h4⟩ | ⟨d1, h3, h4⟩⟩ | ⟨d3, systems, h3, h4, h5⟩⟩
  · cases hi : (dictGet x "enum.in".toList).isSome with
    | true =>
      rw [hi, if_pos rfl] at h1
      rw [← run_pure_inj h1] at hfin2
      exact run_from ha hw hread rfl rfl (fun _ => rfl) hfin2
    | false => exact absurd hin (hnone hi rfl)
  · exact absurd hin (hnone hno (polyaOutStops_keeps h4 enumIn_not_numbered))
  · have k1 := hpol h3
    rcases h4 with rfl | ⟨h5, h6⟩ | ⟨d4, e0, e1, number, h5, h6, h7, h8, h9⟩
    · exact absurd hin (hnone hno (k1 _ enumIn_not_numbered))
    · exact absurd hin (hnone hno ((polyaOutStops_keeps h6 enumIn_not_numbered).trans (k1 _ enumIn_not_numbered)))
    · have k2 := hpol h5
      rcases h9 with rfl | ⟨hsv, d5, text, p, h10, h11, h12, rfl⟩
      · exact absurd hin (hnone hno ((k2 _ enumIn_not_numbered).trans (k1 _ enumIn_not_numbered)))
      · have hd2 : d2 = d5 := by
          rw [hno, if_neg (by simp)] at h1
          unfold prepare at h1
          rw [h3, pure_bind, enumIn_eq, h5, pure_bind] at h1
          unfold enumInRest at h1
          rw [h6, h7, runPy_ok, pure_bind, runPy_ok, pure_bind, h8, runPy_ok, pure_bind, h10, runPy_ok] at h1
          exact (run_pure_inj h1).symm
        subst hd2
        rcases makeEnumIn_result h10 with ⟨-, text', e⟩ | ⟨hn, -⟩
        · rw [e, dictGet_set, if_pos rfl] at h11
          cases h11
          rw [e, dictGet_set, dictGet_set, if_pos rfl, if_pos rfl] at hin
          cases hin
          rw [← e]
          have hlk : dictGet d2 a.lattice = dictGet d a.lattice := by
            rw [e, dictGet_set, if_neg hl.1, k2 _ hl.2.2, k1 _ hl.2.2]
          exact run_from ha hw hread hlk rfl (fun _ => rfl) hfin2
        · exact absurd hsv hn
  · have e3 : d3 = d2 := run_pure_inj (h3.symm.trans h1)
    subst e3
    have hlk : dictGet d3 a.lattice = dictGet d a.lattice := by
      cases hi : (dictGet d "enum.in".toList).isSome with
      | true =>
        rw [hi, if_pos rfl] at h3
        rw [run_pure_inj h3]
      | false =>
        rw [hi, if_neg (by simp)] at h3
        obtain ⟨d1, h6, h7⟩ := run_bind_ok h3
        rw [(enumIn_inv h7).1 _ hl.1 hl.2.2, hpol h6 _ hl.2.2]
    have hfin : ∀ p, scriptEnum w' tol a (dictSet d3 "enum.out".toList p) = (pure d' : Run Dir) := by
      intro p
      refine run_from ha hw hread ?_ ?_ (fun v => dictSet_twice _ _ _ _) hfin2
      · rw [dictGet_set, if_neg hl.2.1, hlk]
      · rw [dictGet_set, if_neg hne]
    rcases h5 with rfl | ⟨geo, p, -, -, rfl⟩ | ⟨d4, text, p, -, -, -, rfl⟩
    · exact run_from ha hw hread hlk rfl (fun _ => rfl) hfin2
    · exact hfin p
    · exact hfin p

end Phenum
