import Verif.Proof.Drivers
/-
C57: the steps of the program one at a time or all at once. C60: what goes wrong.
-/
namespace Phenum
open Spec

theorem run_bind_congr {α β : Type} {x : Run α} {f g : α → Run β} (h : ∀ a, x = (pure a : Run α) → f a = g a) : (x >>= f) = (x >>= g) := by
  cases hx : (show Option (Except PyErr α) from x) with
  | none =>
    obtain rfl : x = (show Run α from (none : Option (Except PyErr α))) := hx
    rfl
  | some r =>
    cases r with
    | error e =>
      obtain rfl : x = (show Run α from some (.error e)) := hx
      rfl
    | ok a =>
      obtain rfl : x = (show Run α from some (.ok a)) := hx
      exact h a rfl

theorem run_bind_ok {α β : Type} {x : Run α} {f : α → Run β} {b : β} (h : (x >>= f) = (pure b : Run β)) : ∃ a, x = (pure a : Run α) ∧ f a = (pure b : Run β) := by
  cases hx : (show Option (Except PyErr α) from x) with
  | none =>
    obtain rfl : x = (show Run α from (none : Option (Except PyErr α))) := hx
    cases h
  | some r =>
    cases r with
    | error e =>
      obtain rfl : x = (show Run α from some (.error e)) := hx
      cases h
    | ok a =>
      obtain rfl : x = (show Run α from some (.ok a)) := hx
      exact ⟨a, rfl, h⟩

theorem run_pure_inj {α : Type} {a b : α} (h : (pure a : Run α) = pure b) : a = b := by
  injection h with h
  injection h

theorem runPy_eq_pure {α : Type} {x : Py α} {a : α} (h : runPy x = (pure a : Run α)) : x = .ok a := by
  cases x with
  | error e => cases h
  | ok b => rw [runPy_ok] at h; rw [run_pure_inj h]

theorem dictSet_keys {α β : Type} [DecidableEq α] (d : List (α × β)) (k : α) (v : β) (x : α) :
    x ∈ (dictSet d k v).map (·.1) ↔ x = k ∨ x ∈ d.map (·.1) := by
  by_contra hc
  have h1 := dictGet_none (d := dictSet d k v) (k := x)
  have h2 := dictGet_none (d := d) (k := x)
  rw [dictGet_set] at h1
  by_cases hx : x = k
  · rw [if_pos hx] at h1
    simp only [reduceCtorEq, false_iff, not_not] at h1
    exact hc ⟨fun _ => Or.inl hx, fun _ => h1⟩
  · rw [if_neg hx, h2] at h1
    apply hc
    constructor
    · intro h
      right
      by_contra h'
      exact h1.mp h' h
    · rintro (h | h)
      · exact absurd h hx
      · by_contra h'
        exact h1.mpr h' h

theorem dictSet_same {α β : Type} [DecidableEq α] (d : List (α × β)) (k : α) (v : β) (h : dictGet d k = some v) (hk : (d.map (·.1)).Nodup) : dictSet d k v = d := by
  induction d with
  | nil => simp [dictGet] at h
  | cons p d ih =>
    obtain ⟨k0, v0⟩ := p
    unfold dictSet
    by_cases h0 : k0 = k
    · rw [if_pos h0]
      subst h0
      simp [dictGet] at h
      rw [h]
    · rw [if_neg h0]
      have e2 : dictGet ((k0, v0) :: d) k = dictGet d k := by simp [dictGet, h0]
      rw [e2] at h
      rw [ih h (List.nodup_cons.mp hk).2]

theorem dictSet_twice {α β : Type} [DecidableEq α] (d : List (α × β)) (k : α) (v v' : β) : dictSet (dictSet d k v) k v' = dictSet d k v' := by
  induction d with
  | nil => simp [dictSet]
  | cons p d ih =>
    obtain ⟨k0, v0⟩ := p
    by_cases h0 : k0 = k
    · simp [dictSet, h0]
    · simp [dictSet, h0, ih]

theorem anyNumbered_iff (d : Dir) (name : Str) : anyNumbered d name = true ↔ ∃ f ∈ d.map (·.1), name ++ ['.'] <+: f := by
  unfold anyNumbered
  rw [List.any_eq_true]
  constructor
  · rintro ⟨p, hp, h⟩
    exact ⟨p.1, List.mem_map_of_mem hp, by simpa using h⟩
  · rintro ⟨f, hf, h⟩
    obtain ⟨p, hp, rfl⟩ := List.mem_map.mp hf
    exact ⟨p, hp, by simpa using h⟩

theorem numbered_prefix (out : Str) (s : ℤ) : out ++ ['.'] <+: out ++ '.' :: intStr s := ⟨intStr s, by simp⟩

theorem polyaLoop_inv {tol : Tol} {lat : LatticeIn} {out : Str} : ∀ {l : List ℤ} {d d' : Dir}, polyaLoop tol lat out l d = (pure d' : Run Dir) →
    (l = [] → d' = d) ∧ (l ≠ [] ∨ anyNumbered d out = true → anyNumbered d' out = true) ∧ ∀ f, ¬ (out ++ ['.'] <+: f) → dictGet d' f = dictGet d f := by
  intro l
  induction l with
  | nil =>
    intro d d' h
    have := run_pure_inj h
    subst this
    exact ⟨fun _ => rfl, by simp, fun _ _ => rfl⟩
  | cons s l ih =>
    intro d d' h
    unfold polyaLoop at h
    obtain ⟨t, -, h⟩ := run_bind_ok h
    obtain ⟨-, h2, h3⟩ := ih h
    refine ⟨by simp, fun _ => h2 (Or.inr ?_), fun f hf => ?_⟩
    · rw [anyNumbered_iff]
      exact ⟨_, (dictSet_keys _ _ _ _).mpr (Or.inl rfl), numbered_prefix out s⟩
    · rw [h3 f hf, dictGet_set, if_neg]
      rintro rfl
      exact hf (numbered_prefix out s)

/-- the lattice as it is read at the beginning -/
def readLat (d : Dir) (lattice : Str) : Py LatticeIn := do let s ← readFile d lattice; readLattice s

theorem polyaOut_inv {tol : Tol} {lattice out : Str} {d d' : Dir} (h : polyaOut tol lattice out d = (pure d' : Run Dir)) :
    (∃ lat, readLat d lattice = .ok lat) ∧ (anyNumbered d' out = true ∨ d' = d) ∧ ∀ f, ¬ (out ++ ['.'] <+: f) → dictGet d' f = dictGet d f := by
  unfold polyaOut at h
  obtain ⟨lat, h0, h⟩ := run_bind_ok h
  obtain ⟨lo, -, h⟩ := run_bind_ok h
  obtain ⟨hi, -, h⟩ := run_bind_ok h
  obtain ⟨h1, h2, h3⟩ := polyaLoop_inv h
  refine ⟨⟨lat, runPy_eq_pure h0⟩, ?_, h3⟩
  by_cases hl : pyRange lo (hi + 1) = []
  · exact Or.inr (h1 hl)
  · exact Or.inl (h2 (Or.inl hl))

/-- `enumeration.py -enum` with any options except other names of files, -polya and a wrong number of words after -distribution or
an -acceptrate above 1. -/
structure Spec.EnumCall (a : Args) : Prop where
  polya : a.polya = false
  enum : a.enum = true
  input : a.input = none
  outfile : a.outfile = none
  distribution : ∀ l, a.distribution = some l → l.length = 2
  accept : ∀ q, a.accept = some q → q ≤ 1

/-- the same call with -polya instead of -enum -/
def Spec.asPolya (a : Args) : Args := { a with polya := true, enum := false, distribution := none }

/-- the same call with -distribution instead of -enum -/
def Spec.asDistribution (a : Args) : Args := { a with enum := false, distribution := some (a.distribution.getD ["all".toList, "all".toList]) }

theorem enumCall_check {a : Args} (h : EnumCall a) (d : Dir) : checkArgs a d = .ok () := by
  have h1 : ¬ (a.distribution.getD [] ≠ [] ∧ (a.distribution.getD []).length ≠ 2) := by
    cases hd : a.distribution with
    | none => simp
    | some l =>
      simp [h.distribution l hd]
  unfold checkArgs
  simp only [h.polya, Bool.false_eq_true, false_and, if_false, h1]
  cases hq : a.accept with
  | none => rfl
  | some q =>
    have := h.accept q hq
    have : ¬ (q ≠ 0 ∧ q > 1) := fun hh => absurd hh.2 (by linarith)
    simp only [this, if_false]

theorem scriptEnum_enum {a : Args} (h : EnumCall a) (w : World) (tol : Tol) (d : Dir) :
    scriptEnum w tol a d = enumOut w tol a "enum.in".toList "enum.out".toList d := by
  unfold scriptEnum
  rw [enumCall_check h d, runPy_ok]
  simp only [pure_bind, h.polya, h.enum, if_true, Bool.false_eq_true, if_false]
  have e1 : (fileNames a).1 = some "enum.in".toList ∧ (fileNames a).2 = some "enum.out".toList := by
    unfold fileNames
    simp [h.polya, h.enum, h.input, h.outfile]
  rw [e1.1, e1.2]
  simp

theorem scriptEnum_polya {a : Args} (h : EnumCall a) (w : World) (tol : Tol) (d : Dir) :
    scriptEnum w tol (asPolya a) d = if (dictGet d a.lattice).isNone then throw .ioError else polyaOut tol a.lattice "polya.out".toList d := by
  have e1 : (fileNames (asPolya a)).2 = some "polya.out".toList := by
    unfold fileNames asPolya
    simp [h.outfile]
  have e2 : checkArgs (asPolya a) d = if (dictGet d a.lattice).isNone then .error .ioError else .ok () := by
    unfold checkArgs asPolya
    simp only [true_and]
    by_cases hl : (dictGet d a.lattice).isNone = true
    · simp only [hl, if_true]; rfl
    · simp only [hl, if_false]
      cases hq : a.accept with
      | none => rfl
      | some q =>
        have := h.accept q hq
        have : ¬ (q ≠ 0 ∧ q > 1) := fun hh => absurd hh.2 (by linarith)
        simp only [this, if_false]
        rfl
  unfold scriptEnum
  rw [e2]
  by_cases hl : (dictGet d a.lattice).isNone = true
  · rw [if_pos hl, if_pos hl]; rfl
  · rw [if_neg hl, if_neg hl, runPy_ok]
    simp only [e1]
    simp [asPolya]

/-- making the input file -/
noncomputable def prepare (w : World) (tol : Tol) (a : Args) (input : Str) (d : Dir) : Run Dir :=
  (if anyNumbered d "polya.out".toList then pure d else polyaOut tol a.lattice "polya.out".toList d) >>=
    enumIn w tol a "polya.out".toList input (a.distribution.getD ["all".toList, "all".toList])

/-- reading it and writing the results -/
noncomputable def finish (w : World) (tol : Tol) (a : Args) (input outfile : Str) (lat : LatticeIn) (d : Dir) : Run Dir := do
  let systems ← runPy (do let s ← readFile d input; readEnum s)
  enumWrite w tol lat a.super a.accept.isSome outfile systems d

theorem enumOut_eq (w : World) (tol : Tol) (a : Args) (input outfile : Str) (d : Dir) : enumOut w tol a input outfile d =
    (runPy (readLat d a.lattice) >>= fun lat => (if (dictGet d input).isSome then pure d else prepare w tol a input d) >>= finish w tol a input outfile lat) := by
  unfold enumOut readLat
  apply run_bind_congr
  intro lat _
  by_cases h : (dictGet d input).isSome = true
  · rw [if_pos h, if_pos h]; rfl
  · unfold prepare
    rw [if_neg h, if_neg h]
    by_cases h2 : anyNumbered d "polya.out".toList = true
    · simp only [h2, if_true]; rfl
    · simp only [h2, if_false, Bool.false_eq_true]; rw [bind_assoc]; rfl

/-- The names of the results of earlier runs: those that begin with `polya.out.`, and enum.in. -/
def Spec.NoResults (d : Dir) : Prop := (∀ f ∈ d.map (·.1), ¬ "polya.out.".toList <+: f) ∧ "enum.in".toList ∉ d.map (·.1)

theorem enumIn_not_numbered : ¬ ("polya.out".toList ++ ['.'] <+: "enum.in".toList) := by decide

theorem readLat_congr {d d' : Dir} {f : Str} (h : dictGet d' f = dictGet d f) : readLat d' f = readLat d f := by
  unfold readLat readFile
  rw [h]

/-- C57. The counting done first: `enumeration.py -polya` followed by `enumeration.py -enum ...` has the same result as the latter
alone, in every directory without results of earlier runs, whatever the options and the outcome. -/
theorem C57_polya_first {a : Args} (h : EnumCall a) (w : World) (tol : Tol) (d : Dir) (hd : NoResults d) :
    scriptEnum w tol a d = (do let d1 ← scriptEnum w tol (asPolya a) d; scriptEnum w tol a d1) := by
  have hany : anyNumbered d "polya.out".toList = false := by
    rw [← Bool.not_eq_true, anyNumbered_iff]
    rintro ⟨f, hf, hp⟩
    exact hd.1 f hf hp
  have hin : dictGet d "enum.in".toList = none := dictGet_none.mpr hd.2
  rw [scriptEnum_enum h, scriptEnum_polya h, enumOut_eq, hin]
  simp only [Option.isSome_none, Bool.false_eq_true, if_false]
  cases hl : dictGet d a.lattice with
  | none =>
    have : readLat d a.lattice = .error .ioError := by
      unfold readLat readFile; rw [hl]; rfl
    rw [this]
    simp only [Option.isNone_none, if_true]
    rfl
  | some text =>
    simp only [Option.isNone_some, Bool.false_eq_true, if_false]
    have hnum : ¬ ("polya.out".toList ++ ['.'] <+: a.lattice) := by
      intro hp
      refine hd.1 a.lattice ?_ hp
      by_contra hm
      rw [← dictGet_none, hl] at hm
      cases hm
    cases hr : readLat d a.lattice with
    | error e =>
      have : polyaOut tol a.lattice "polya.out".toList d = throw e := by
        unfold polyaOut
        change (runPy (readLat d a.lattice) >>= _) = _
        rw [hr]
        rfl
      rw [this]
      rfl
    | ok lat =>
      rw [runPy_ok, pure_bind]
      unfold prepare
      rw [hany]
      simp only [Bool.false_eq_true, if_false]
      rw [bind_assoc]
      apply run_bind_congr
      intro d1 h1
      obtain ⟨-, h2, h3⟩ := polyaOut_inv h1
      rw [scriptEnum_enum h, enumOut_eq, readLat_congr (h3 _ hnum), hr, runPy_ok, pure_bind, h3 _ enumIn_not_numbered, hin]
      simp only [Option.isSome_none, Bool.false_eq_true, if_false]
      unfold prepare
      rcases h2 with h2 | h2
      · rw [h2]; simp
      · subst h2
        rw [hany]
        simp only [Bool.false_eq_true, if_false]
        rw [h1, pure_bind]

theorem makeEnumIn_inv {w : World} {infile distribution outfile : Str} {number : Option ℤ} {sizes : Option (List ℤ)} {save : Bool} {restrict : Option (Str × Str)} {d d' : Dir}
    (h : makeEnumIn w infile distribution outfile number sizes save restrict d = .ok d') :
    (∀ f, f ≠ outfile → dictGet d' f = dictGet d f) ∧ (distribution = "all".toList ∨ save = true → (dictGet d' outfile).isSome = true) ∧
    (¬ (distribution = "all".toList ∨ save = true) → d' = d) := by
  unfold makeEnumIn at h
  simp only [bind, Except.bind] at h
  split at h
  · cases h
  split at h
  · cases h
  split at h
  · cases h
  split at h
  · cases h
  split at h
  · cases h
  by_cases hs : distribution = "all".toList ∨ save = true
  · rw [if_pos hs] at h
    injection h with h
    subst h
    refine ⟨fun f hf => ?_, fun _ => ?_, fun h => absurd hs h⟩
    · rw [dictGet_set, if_neg hf]
    · rw [dictGet_set, if_pos rfl]; rfl
  · rw [if_neg hs] at h
    injection h with h
    subst h
    exact ⟨fun _ _ => rfl, fun h => absurd h hs, fun _ => rfl⟩

/-- the making of the distribution when the tables exist -/
def enumInRest (w : World) (a : Args) (input outfile : Str) (distribution : List Str) (d : Dir) : Run Dir := do
  let d0 ← runPy (pyGet distribution 0)
  let d1 ← runPy (pyGet distribution 1)
  let number ← runPy (if lowerStr d1 = "all".toList then .ok none else (parseInt (strip d1)).map some)
  runPy (makeEnumIn w input (lowerStr d0) outfile number (a.sizes.map (fun s => pyRange s.1 s.2)) a.savedist a.filter d)

theorem enumIn_eq (w : World) (tol : Tol) (a : Args) (input outfile : Str) (distribution : List Str) (d : Dir) : enumIn w tol a input outfile distribution d =
    ((if anyNumbered d input then pure d else polyaOut tol a.lattice input d) >>= enumInRest w a input outfile distribution) := by
  unfold enumIn enumInRest
  by_cases h : anyNumbered d input = true
  · simp [h]
  · simp [h]

theorem enumInRest_inv {w : World} {a : Args} {input outfile : Str} {distribution : List Str} {d d' : Dir}
    (h : enumInRest w a input outfile distribution d = (pure d' : Run Dir)) :
    (∀ f, f ≠ outfile → dictGet d' f = dictGet d f) ∧
    (lowerStr (distribution.getD 0 []) = "all".toList ∨ a.savedist = true → (dictGet d' outfile).isSome = true) ∧
    (¬ (lowerStr (distribution.getD 0 []) = "all".toList ∨ a.savedist = true) → d' = d) := by
  unfold enumInRest at h
  obtain ⟨d0, h0, h⟩ := run_bind_ok h
  obtain ⟨d1, -, h⟩ := run_bind_ok h
  obtain ⟨number, -, h⟩ := run_bind_ok h
  have h0' := runPy_eq_pure h0
  have : distribution.getD 0 [] = d0 := by
    cases distribution with
    | nil => cases h0'
    | cons x l =>
      have : (.ok x : Py Str) = .ok d0 := h0'
      injection this
  rw [this]
  exact makeEnumIn_inv (runPy_eq_pure h)

theorem enumIn_inv {w : World} {tol : Tol} {a : Args} {input outfile : Str} {distribution : List Str} {d d' : Dir}
    (h : enumIn w tol a input outfile distribution d = (pure d' : Run Dir)) :
    (∀ f, f ≠ outfile → ¬ (input ++ ['.'] <+: f) → dictGet d' f = dictGet d f) ∧
    (lowerStr (distribution.getD 0 []) = "all".toList ∨ a.savedist = true → (dictGet d' outfile).isSome = true) := by
  rw [enumIn_eq] at h
  obtain ⟨d1, h1, h⟩ := run_bind_ok h
  obtain ⟨h2, h3, -⟩ := enumInRest_inv h
  refine ⟨fun f hf hn => ?_, h3⟩
  rw [h2 f hf]
  by_cases hany : anyNumbered d input = true
  · rw [if_pos hany] at h1
    rw [run_pure_inj h1]
  · rw [if_neg hany] at h1
    exact (polyaOut_inv h1).2.2 f hn

theorem prepare_fresh {w : World} {tol : Tol} {a : Args} {input : Str} {d : Dir} (hany : anyNumbered d "polya.out".toList = false) :
    prepare w tol a input d = enumIn w tol a "polya.out".toList input (a.distribution.getD ["all".toList, "all".toList]) d := by
  unfold prepare
  rw [enumIn_eq _ _ _ _ _ _ d, hany]
  simp only [Bool.false_eq_true, if_false]
  apply run_bind_congr
  intro d1 h1
  obtain ⟨-, h2, -⟩ := polyaOut_inv h1
  rw [enumIn_eq]
  rcases h2 with h2 | h2
  · rw [if_pos h2, pure_bind]
  · subst h2
    rw [hany]
    simp only [Bool.false_eq_true, if_false]
    rw [h1, pure_bind]

theorem scriptEnum_dist {a : Args} (h : EnumCall a) (w : World) (tol : Tol) (d : Dir) : scriptEnum w tol (asDistribution a) d =
    enumIn w tol a "polya.out".toList "enum.in".toList (a.distribution.getD ["all".toList, "all".toList]) d := by
  have hl : (a.distribution.getD ["all".toList, "all".toList]).length = 2 := by
    cases hd : a.distribution with
    | none => rfl
    | some l => exact h.distribution l hd
  have hne : a.distribution.getD ["all".toList, "all".toList] ≠ [] := by
    intro e; rw [e] at hl; cases hl
  have e1 : (fileNames (asDistribution a)).1 = some "polya.out".toList ∧ (fileNames (asDistribution a)).2 = some "enum.in".toList := by
    unfold fileNames asDistribution
    simp only [h.polya, h.input, h.outfile, Option.getD_some, Bool.false_eq_true, if_false, ne_eq, hne, not_false_eq_true, if_true, Option.getD_none, and_self]
  have e2 : checkArgs (asDistribution a) d = .ok () := by
    unfold checkArgs asDistribution
    simp only [h.polya, Bool.false_eq_true, false_and, if_false, Option.getD_some, hl, ne_eq, not_true_eq_false, and_false]
    cases hq : a.accept with
    | none => rfl
    | some q =>
      have := h.accept q hq
      have : ¬ (q ≠ 0 ∧ q > 1) := fun hh => absurd hh.2 (by linarith)
      simp only [ne_eq] at this
      simp only [this, if_false]
  unfold scriptEnum
  rw [e2, runPy_ok]
  simp only [e1.1, e1.2, pure_bind]
  have e3 : (asDistribution a).polya = false := h.polya
  have e4 : (asDistribution a).enum = false := rfl
  have e5 : (asDistribution a).distribution.getD [] = a.distribution.getD ["all".toList, "all".toList] := rfl
  simp only [e3, e4, e5, Bool.false_eq_true, if_false, pure_bind, ne_eq, hne, not_false_eq_true, and_self, if_true, Option.getD_some]
  rfl

/-- C57. The selection done first: `enumeration.py -distribution ...` followed by `enumeration.py -enum` has the same result as the latter alone
(with the same random numbers), if the former writes enum.in at all (for the distribution `all`, or with -savedist). -/
theorem C57_distribution_first {a : Args} (h : EnumCall a) (w : World) (tol : Tol) (d : Dir) (hd : NoResults d)
    (hsave : lowerStr ((a.distribution.getD ["all".toList, "all".toList]).getD 0 []) = "all".toList ∨ a.savedist = true) :
    scriptEnum w tol a d = (do let d1 ← scriptEnum w tol (asDistribution a) d; scriptEnum w tol a d1) := by
  have hany : anyNumbered d "polya.out".toList = false := by
    rw [← Bool.not_eq_true, anyNumbered_iff]
    rintro ⟨f, hf, hp⟩
    exact hd.1 f hf hp
  have hin : dictGet d "enum.in".toList = none := dictGet_none.mpr hd.2
  rw [scriptEnum_enum h, scriptEnum_dist h, enumOut_eq, hin]
  simp only [Option.isSome_none, Bool.false_eq_true, if_false]
  rw [prepare_fresh hany]
  cases hr : readLat d a.lattice with
  | error e =>
    have : polyaOut tol a.lattice "polya.out".toList d = throw e := by
      unfold polyaOut
      change (runPy (readLat d a.lattice) >>= _) = _
      rw [hr]
      rfl
    rw [enumIn_eq, hany]
    simp only [Bool.false_eq_true, if_false]
    rw [this]
    rfl
  | ok lat =>
    rw [runPy_ok, pure_bind]
    apply run_bind_congr
    intro d1 h1
    obtain ⟨h2, h3⟩ := enumIn_inv h1
    have hmem : a.lattice ∈ d.map (·.1) := by
      by_contra hm
      rw [← dictGet_none] at hm
      unfold readLat readFile at hr
      rw [hm] at hr
      cases hr
    have hnum : ¬ ("polya.out".toList ++ ['.'] <+: a.lattice) := hd.1 _ hmem
    have hne : a.lattice ≠ "enum.in".toList := by
      intro e; rw [e] at hmem; exact hd.2 hmem
    rw [scriptEnum_enum h, enumOut_eq, readLat_congr (h2 _ hne hnum), hr, runPy_ok, pure_bind, if_pos (h3 hsave), pure_bind]

theorem enumLoop_world {w w' : World} (h : w'.rnd = w.rnd) (tol : Tol) (lat : LatticeIn) (supers accept : Bool) : ∀ (l : List (List ℤ × List ℤ × ℤ)) (i : ℕ),
    enumLoop w' tol lat supers accept i l = enumLoop w tol lat supers accept i l := by
  intro l
  induction l with
  | nil => intro i; rfl
  | cons s l ih =>
    intro i
    unfold enumLoop
    rw [h]
    simp only [ih]

/-- C57. Running the program again: after a successful run of `enumeration.py -enum ...` the same call finds enum.in and changes nothing,
whatever the order of the directory listing and the random numbers of the selection. -/
theorem C57_rerun {a : Args} (h : EnumCall a) {w w' : World} {tol : Tol} {d d' : Dir} (hw : w'.rnd = w.rnd ∧ w'.now = w.now)
    (hl : a.lattice ≠ "enum.in".toList ∧ a.lattice ≠ "enum.out".toList ∧ ¬ "polya.out.".toList <+: a.lattice) (hrun : scriptEnum w tol a d = (pure d' : Run Dir)) :
    scriptEnum w' tol a d' = (pure d' : Run Dir) := by
  rw [scriptEnum_enum h, enumOut_eq] at hrun
  obtain ⟨lat, h0, hrun⟩ := run_bind_ok hrun
  obtain ⟨d2, h1, hrun⟩ := run_bind_ok hrun
  unfold finish at hrun
  obtain ⟨systems, h2, hrun⟩ := run_bind_ok hrun
  have hsame : dictGet d2 a.lattice = dictGet d a.lattice := by
    by_cases hi : (dictGet d "enum.in".toList).isSome = true
    · rw [if_pos hi] at h1
      rw [run_pure_inj h1]
    · rw [if_neg hi] at h1
      unfold prepare at h1
      obtain ⟨d3, h3, h1⟩ := run_bind_ok h1
      rw [(enumIn_inv h1).1 _ hl.1 hl.2.2]
      by_cases hany : anyNumbered d "polya.out".toList = true
      · rw [if_pos hany] at h3
        rw [run_pure_inj h3]
      · rw [if_neg hany] at h3
        exact (polyaOut_inv h3).2.2 _ hl.2.2
  unfold enumWrite at hrun
  obtain ⟨geo, h4, hrun⟩ := run_bind_ok hrun
  obtain ⟨rows, h5, hrun⟩ := run_bind_ok hrun
  by_cases hs : systems = []
  · rw [if_pos hs] at hrun; cases hrun
  rw [if_neg hs] at hrun
  have hd' := run_pure_inj hrun
  have e1 : dictGet d' a.lattice = dictGet d a.lattice := by
    rw [← hd', dictGet_set, if_neg hl.2.1, hsame]
  have e2 : dictGet d' "enum.in".toList = dictGet d2 "enum.in".toList := by
    rw [← hd', dictGet_set, if_neg (by decide)]
  have e3 : (dictGet d2 "enum.in".toList).isSome = true := by
    have := runPy_eq_pure h2
    unfold readFile at this
    cases hx : dictGet d2 "enum.in".toList with
    | none => rw [hx] at this; cases this
    | some x => rfl
  rw [scriptEnum_enum h, enumOut_eq, readLat_congr e1, h0, pure_bind, e2, if_pos e3, pure_bind]
  unfold finish
  have e4 : (do let s ← readFile d' "enum.in".toList; readEnum s) = (do let s ← readFile d2 "enum.in".toList; readEnum s) := by
    unfold readFile; rw [e2]
  rw [e4, h2, pure_bind]
  unfold enumWrite
  rw [h4, pure_bind, enumLoop_world hw.1, h5, pure_bind, if_neg hs, ← hd', dictSet_twice, hw.2]

/-- C57. When enum.in exists the results depend on it and on the lattice file only: two directories in which these agree give the same outcome and
the same enum.out, whatever other files (old tables, old results) they contain. -/
theorem C57_input_only {a : Args} (h : EnumCall a) (w : World) (tol : Tol) {d e : Dir} (hin : "enum.in".toList ∈ d.map (·.1))
    (h1 : dictGet e "enum.in".toList = dictGet d "enum.in".toList) (h2 : dictGet e a.lattice = dictGet d a.lattice) :
    (scriptEnum w tol a e >>= fun e' => (pure (dictGet e' "enum.out".toList) : Run _)) =
      (scriptEnum w tol a d >>= fun d' => (pure (dictGet d' "enum.out".toList) : Run _)) := by
  have hs : (dictGet d "enum.in".toList).isSome = true := by
    cases hx : dictGet d "enum.in".toList with
    | none => exact absurd hin (dictGet_none.mp hx)
    | some x => rfl
  rw [scriptEnum_enum h, scriptEnum_enum h, enumOut_eq, enumOut_eq, readLat_congr h2, h1, if_pos hs, if_pos hs]
  simp only [bind_assoc, pure_bind]
  apply run_bind_congr
  intro lat _
  unfold finish
  have e4 : (do let s ← readFile e "enum.in".toList; readEnum s) = (do let s ← readFile d "enum.in".toList; readEnum s) := by
    unfold readFile; rw [h1]
  rw [e4]
  simp only [bind_assoc]
  apply run_bind_congr
  intro systems _
  unfold enumWrite
  simp only [bind_assoc]
  apply run_bind_congr
  intro geo _
  apply run_bind_congr
  intro rows _
  by_cases hsys : systems = []
  · rw [if_pos hsys, if_pos hsys]
  · rw [if_neg hsys, if_neg hsys, pure_bind, pure_bind, dictGet_set, dictGet_set, if_pos rfl, if_pos rfl]

/-- a call with options, and a directory, that meet the hypotheses of C57 -/
example : ∃ (a : Args) (d : Dir), EnumCall a ∧ NoResults d ∧ a.super = false ∧ a.distribution = some ["all".toList, "5".toList] ∧
    (lowerStr ((a.distribution.getD ["all".toList, "all".toList]).getD 0 []) = "all".toList ∨ a.savedist = true) ∧
    a.lattice ≠ "enum.in".toList ∧ a.lattice ≠ "enum.out".toList ∧ ¬ "polya.out.".toList <+: a.lattice := by
  refine ⟨⟨false, true, "fcc.in".toList, none, none, some ["all".toList, "5".toList], none, false, some (1 / 2), false, none⟩,
    [("fcc.in".toList, "1 2".toList), ("enum.out".toList, [])], ⟨rfl, rfl, rfl, rfl, ?_, ?_⟩, ⟨by decide, by decide⟩, rfl, rfl, Or.inl (by decide), by decide, by decide, by decide⟩
  · intro l hl
    injection hl with hl
    subst hl
    rfl
  · intro q hq
    injection hq with hq
    subst hq
    norm_num

end Phenum
