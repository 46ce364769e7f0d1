import Verif.Model.StructEnum
import Verif.Proof.EnumFile
import Verif.Proof.Drivers
import Verif.Props.LatticeIn
import Verif.Props.ProgramInput
/-
C94, C95, C96. The files exchanged with enum.x, and the search for an executable.
-/
namespace Phenum
open Spec

/-! ## C94: struct_enum.in -/

/-- What is in an input file of enum.x. -/
structure Spec.EnumX where
  bulk : Bool
  lattice : List (List ℚ)
  nspecies : ℤ
  sites : List (List ℚ × List ℕ)
  sizes : List ℤ
  eps : ℚ
  mode : Str
  deriving DecidableEq

/-- `b` for bulk, `s` for a surface. -/
def Spec.readKind : List Str → Py Bool
  | ('b' :: _) :: _ => .ok true
  | ('s' :: _) :: _ => .ok false
  | _ => .error .valueError

/-- A site: its coordinates, and the labels that it may have, separated by slashes. -/
def Spec.readSite (w : List Str) : Py (List ℚ × List ℕ) := do
  let v ← w.dropLast.mapM parseFloat
  let l ← (splitOn '/' (w.getLastD [])).mapM parseNat
  .ok (v, l)

/-- Reading an input file of enum.x: the words of the lines, blank lines skipped. -/
def Spec.readEnumX (s : Str) : Py EnumX :=
  match ((fileLines s).map pySplit).filter (fun w => decide (w ≠ [])) with
  | _ :: kind :: a :: b :: c :: [k] :: [n] :: rest => do
    let bulk ← readKind kind
    let lattice ← [a, b, c].mapM (fun w => w.mapM parseFloat)
    let nspecies ← parseInt k
    let nd ← parseNat n
    let sites ← (rest.take nd).mapM readSite
    match rest.drop nd with
    | [sz, [e], [m]] => do
      let sizes ← sz.mapM parseInt
      let eps ← parseFloat e
      .ok ⟨bulk, lattice, nspecies, sites, sizes, eps, m⟩
    | _ => .error .valueError
  | _ => .error .valueError

/-- `fs` writes `x` as a word that is read as `x`. -/
def Spec.WritesNumber (fs : ℚ → Str) (x : ℚ) : Prop := IsWord (fs x) ∧ parseFloat (fs x) = .ok x

theorem lattLoop_three (fs : ℚ → Str) (a b c : List ℚ) : lattLoop fs 0 [a, b, c] ++ " \n".toList =
    (a.flatMap (fun x => fs x ++ [' '])) ++ ['\n'] ++ ((b.flatMap (fun x => fs x ++ [' '])) ++ ['\n'] ++ (c.flatMap (fun x => fs x ++ [' ']) ++ [' '] ++ ['\n'])) := by
  simp [lattLoop]

theorem split_words {α : Type} (f : α → Str) (l : List α) (h : ∀ x ∈ l, IsWord (f x)) : pySplit (l.flatMap (fun x => f x ++ [' '])) = l.map f := by
  induction l with
  | nil => rfl
  | cons x l ih =>
    rw [List.flatMap_cons, List.append_assoc, List.singleton_append, split_append_ws _ ws_space, ih (fun y hy => h y (List.mem_cons_of_mem _ hy)),
      split_word (h x List.mem_cons_self)]
    rfl

theorem split_end_space (x : Str) : pySplit (x ++ [' ']) = pySplit x := split_spaces_end x 1

theorem parse_words (fs : ℚ → Str) (l : List ℚ) (h : ∀ x ∈ l, WritesNumber fs x) : (l.map fs).mapM parseFloat = .ok l := by
  induction l with
  | nil => rfl
  | cons x l ih =>
    rw [List.map_cons, List.mapM_cons, (h x List.mem_cons_self).2, ih (fun y hy => h y (List.mem_cons_of_mem _ hy))]
    rfl

theorem parse_ints (l : List ℤ) : (l.map intStr).mapM parseInt = .ok l := mapM_parse parseInt intStr parseInt_intStr l

theorem occupancy_join (n : ℕ) : occupancyStr ((n : ℤ) + 1) = joinStr ['/'] ((List.range (n + 1)).map natStr) := by
  have key : ∀ (m k : ℕ), (List.range' k m ++ [k + m]).flatMap (fun (i : ℕ) => if (i : ℤ) < ((k + m : ℕ) : ℤ) then natStr i ++ ['/'] else natStr i) =
      joinStr ['/'] ((List.range' k m ++ [k + m]).map natStr) := by
    intro m
    induction m with
    | zero => intro k; simp [joinStr]
    | succ m ih =>
      intro k
      have e := ih (k + 1)
      rw [show k + 1 + m = k + (m + 1) by omega] at e
      rw [List.range'_succ, List.cons_append, List.flatMap_cons, List.map_cons, e, if_pos (by push_cast; omega)]
      cases hl : (List.range' (k + 1) m ++ [k + (m + 1)]).map natStr with
      | nil => simp at hl
      | cons w ws => rfl
  unfold occupancyStr
  have h1 : ((n : ℤ) + 1).toNat = n + 1 := by omega
  have h2 : (n : ℤ) + 1 - 1 = ((0 + n : ℕ) : ℤ) := by push_cast; omega
  have h3 : List.range (n + 1) = List.range' 0 n ++ [0 + n] := by rw [List.range_succ, List.range_eq_range', Nat.zero_add]
  rw [h1, h2, h3, key n 0]

theorem digit_not_slash {ch : Char} (h : ch.isDigit = true) : ch ≠ '/' := by
  rintro rfl
  revert h; decide

theorem occupancy_facts (n : ℕ) : IsWord (occupancyStr ((n : ℤ) + 1)) ∧ (splitOn '/' (occupancyStr ((n : ℤ) + 1))).mapM parseNat = .ok (List.range (n + 1)) := by
  rw [occupancy_join]
  refine ⟨⟨?_, ?_⟩, ?_⟩
  · rw [List.range_succ_eq_map, List.map_cons]
    cases hn : natStr 0 with
    | nil => exact absurd hn (natStr_ne_nil _)
    | cons c l =>
      cases List.map natStr (List.map Nat.succ (List.range n)) <;> simp [joinStr]
  · intro ch hch
    rcases join_mem hch with h | ⟨t, ht, h⟩
    · rw [List.mem_singleton] at h; rw [h]; decide
    · obtain ⟨i, -, rfl⟩ := List.mem_map.mp ht
      exact (isDigit_not_minus (natStr_digits _ _ h)).2.2.2.2.1
  · rw [splitOn_join '/' (by simp) (by
      intro t ht hm
      obtain ⟨i, -, rfl⟩ := List.mem_map.mp ht
      exact digit_not_slash (natStr_digits _ _ hm) rfl)]
    exact mapM_parse parseNat natStr parseNat_natStr _

theorem word_no_newline {t : Str} (h : IsWord t) : '\n' ∉ t := fun hm => absurd (h.2 _ hm) (by decide)

/-- the line of a site -/
def siteLine (fs : ℚ → Str) (n : ℤ) (v : List ℚ) : Str := joinStr [' '] (v.map fs) ++ "  ".toList ++ occupancyStr n ++ [' ']

/-- the lines of struct_enum.in -/
def structEnumLines (fs : ℚ → Str) (p : LatticeIn) (a b c : List ℚ) : List Str :=
  ["System ".toList, (if p.bulk then "bulk ".toList else "surface ".toList), a.flatMap (fun x => fs x ++ [' ']), b.flatMap (fun x => fs x ++ [' ']),
    c.flatMap (fun x => fs x ++ [' ']) ++ [' '], intStr p.nspecies ++ [' '], natStr p.basisVecs.length ++ [' ']] ++
  (p.basisVecs.map (siteLine fs p.nspecies) ++ [[' '], p.sizes.flatMap (fun z => intStr z ++ [' ']) ++ [' '], "0.00001 ".toList, "full ".toList])

theorem structEnumText_lines (fs : ℚ → Str) (p : LatticeIn) {a b c : List ℚ} (h : p.latVecs = [a, b, c]) :
    structEnumText fs p = (structEnumLines fs p a b c).flatMap (fun l => l ++ ['\n']) := by
  have e : " \n".toList = [' ', '\n'] := rfl
  unfold structEnumText structEnumLines siteLine
  rw [h, lattLoop_three]
  cases p.bulk <;>
  simp [List.flatMap_append, List.flatMap_map]

theorem split_site (fs : ℚ → Str) (n : ℕ) (v : List ℚ) (h : ∀ x ∈ v, WritesNumber fs x) :
    pySplit (siteLine fs ((n : ℤ) + 1) v) = v.map fs ++ [occupancyStr ((n : ℤ) + 1)] := by
  unfold siteLine
  rw [split_end_space, show "  ".toList = List.replicate 2 ' ' from rfl, List.append_assoc, split_append_spaces _ _ _ (by norm_num),
    split_join (by intro t ht; obtain ⟨x, hx, rfl⟩ := List.mem_map.mp ht; exact (h x hx).1), split_word (occupancy_facts n).1]

theorem readSite_line (fs : ℚ → Str) (n : ℕ) (v : List ℚ) (h : ∀ x ∈ v, WritesNumber fs x) :
    readSite (v.map fs ++ [occupancyStr ((n : ℤ) + 1)]) = .ok (v, List.range (n + 1)) := by
  unfold readSite
  have e : (v.map fs ++ [occupancyStr ((n : ℤ) + 1)]).getLastD [] = occupancyStr ((n : ℤ) + 1) := by
    rw [List.getLastD_eq_getLast?, List.getLast?_append]; rfl
  rw [List.dropLast_concat, e, parse_words fs v h, (occupancy_facts n).2]
  rfl

theorem parse_tol : parseFloat "0.00001".toList = .ok (1 / 10 ^ 5) := by
  have : parseFloat ['0', '.', '0', '0', '0', '0', '1'] = (parseDecimal ['0', '.', '0', '0', '0', '0', '1']).map (fun v => 1 * v) :=
    parseFloat_plain (by decide) (by decide) (by decide)
  rw [show "0.00001".toList = ['0', '.', '0', '0', '0', '0', '1'] from rfl, this,
    show ['0', '.', '0', '0', '0', '0', '1'] = ['0'] ++ '.' :: ['0', '0', '0', '0', '1'] from rfl,
    parseDecimal_ok ['0'] ['0', '0', '0', '0', '1'] (by decide) (by decide) (by decide)]
  have hv : digitsVal (['0'] ++ ['0', '0', '0', '0', '1']) = 1 := by decide
  rw [hv]
  show Except.ok _ = Except.ok _
  norm_num

/-- C94. `write_struct_enum` writes a file struct_enum.in from which enum.x gets what `read_lattice` has read: bulk or surface, the lattice vectors, the number of species, every site with all
species allowed, the sizes, and the precision and mode of a complete enumeration. Only the file struct_enum.in is written. -/
theorem C94_struct_enum (fs : ℚ → Str) (p : LatticeIn) (h3 : p.latVecs.length = 3) (hne : ∀ v ∈ p.latVecs, v ≠ []) (hk : 1 ≤ p.nspecies) (hs : p.sizes ≠ [])
    (hfs : ∀ v ∈ p.latVecs ++ p.basisVecs, ∀ x ∈ v, WritesNumber fs x) (d : Dir) :
    ∃ s, dictGet (writeStructEnum fs p d) "struct_enum.in".toList = some s ∧
      readEnumX s = .ok ⟨p.bulk, p.latVecs, p.nspecies, p.basisVecs.map (fun v => (v, List.range p.nspecies.toNat)), p.sizes, 1 / 10 ^ 5, "full".toList⟩ ∧
      ∀ f, f ≠ "struct_enum.in".toList → dictGet (writeStructEnum fs p d) f = dictGet d f := by
  refine ⟨structEnumText fs p, by unfold writeStructEnum; rw [dictGet_set, if_pos rfl], ?_, fun f hf => by unfold writeStructEnum; rw [dictGet_set, if_neg hf]⟩
  obtain ⟨a, b, c, hl⟩ : ∃ a b c, p.latVecs = [a, b, c] := by
    match h : p.latVecs, h3 with
    | [a, b, c], _ => exact ⟨a, b, c, rfl⟩
  obtain ⟨n, hn⟩ : ∃ n : ℕ, p.nspecies = (n : ℤ) + 1 := ⟨(p.nspecies - 1).toNat, by omega⟩
  have hA : ∀ x ∈ a, WritesNumber fs x := hfs a (by rw [hl]; simp)
  have hB : ∀ x ∈ b, WritesNumber fs x := hfs b (by rw [hl]; simp)
  have hC : ∀ x ∈ c, WritesNumber fs x := hfs c (by rw [hl]; simp)
  have hS : ∀ v ∈ p.basisVecs, ∀ x ∈ v, WritesNumber fs x := fun v hv => hfs v (List.mem_append_right _ hv)
  have na : a ≠ [] := hne a (by rw [hl]; simp)
  have nb : b ≠ [] := hne b (by rw [hl]; simp)
  have nc : c ≠ [] := hne c (by rw [hl]; simp)
  have hnl : ∀ l ∈ structEnumLines fs p a b c, '\n' ∉ l := by
    have hv : ∀ v : List ℚ, (∀ x ∈ v, WritesNumber fs x) → '\n' ∉ v.flatMap (fun x => fs x ++ [' ']) := by
      intro v hv hm
      obtain ⟨x, hx, hm⟩ := List.mem_flatMap.mp hm
      rcases List.mem_append.mp hm with hm | hm
      · exact word_no_newline (hv x hx).1 hm
      · revert hm; decide
    have hsp : '\n' ∉ [' '] := by decide
    intro l hlm
    unfold structEnumLines at hlm
    simp only [List.mem_append, List.mem_cons, List.not_mem_nil, or_false, List.mem_map] at hlm
    rcases hlm with (rfl | rfl | rfl | rfl | rfl | rfl | rfl) | ⟨v, hvm, rfl⟩ | rfl | rfl | rfl | rfl
    · decide
    · cases p.bulk <;> decide
    · exact hv a hA
    · exact hv b hB
    · exact fun hm => (List.mem_append.mp hm).elim (hv c hC) hsp
    · exact fun hm => (List.mem_append.mp hm).elim (word_no_newline (intStr_word _)) hsp
    · exact fun hm => (List.mem_append.mp hm).elim (word_no_newline (natStr_word _)) hsp
    · intro hm
      unfold siteLine at hm
      rw [hn] at hm
      rcases List.mem_append.mp hm with hm | hm
      · rcases List.mem_append.mp hm with hm | hm
        · rcases List.mem_append.mp hm with hm | hm
          · rcases join_mem hm with hm | ⟨t, ht, hm⟩
            · exact hsp hm
            · obtain ⟨x, hx, rfl⟩ := List.mem_map.mp ht
              exact word_no_newline (hS v hvm x hx).1 hm
          · revert hm; decide
        · exact word_no_newline (occupancy_facts n).1 hm
      · exact hsp hm
    · exact hsp
    · intro hm
      rcases List.mem_append.mp hm with hm | hm
      · obtain ⟨z, -, hm⟩ := List.mem_flatMap.mp hm
        exact (List.mem_append.mp hm).elim (word_no_newline (intStr_word _)) hsp
      · exact hsp hm
    · decide
    · decide
  have hwords : ((fileLines (structEnumText fs p)).map pySplit).filter (fun w => decide (w ≠ [])) =
      ["System".toList] :: [if p.bulk then "bulk".toList else "surface".toList] :: a.map fs :: b.map fs :: c.map fs :: [intStr p.nspecies] :: [natStr p.basisVecs.length] ::
        (p.basisVecs.map (fun v => v.map fs ++ [occupancyStr ((n : ℤ) + 1)]) ++ [p.sizes.map intStr, ["0.00001".toList], ["full".toList]]) := by
    rw [structEnumText_lines fs p hl, fileLines_eq _ hnl]
    unfold structEnumLines
    have e1 : pySplit "System ".toList = ["System".toList] := by decide +kernel
    have e2 : pySplit (if p.bulk then "bulk ".toList else "surface ".toList) = [if p.bulk then "bulk".toList else "surface".toList] := by
      cases p.bulk <;> decide +kernel
    have e3 : pySplit "0.00001 ".toList = ["0.00001".toList] := by decide +kernel
    have e4 : pySplit "full ".toList = ["full".toList] := by decide +kernel
    have e5 : pySplit [' '] = [] := by decide
    have e6 : (p.basisVecs.map (siteLine fs p.nspecies)).map pySplit = p.basisVecs.map (fun v => v.map fs ++ [occupancyStr ((n : ℤ) + 1)]) := by
      rw [List.map_map]
      refine List.map_congr_left (fun v hv => ?_)
      rw [Function.comp, hn]
      exact split_site fs n v (hS v hv)
    have e7 : ∀ L : List (List ℚ), (L.map (fun v => v.map fs ++ [occupancyStr ((n : ℤ) + 1)])).filter (fun w => decide (w ≠ [])) =
        L.map (fun v => v.map fs ++ [occupancyStr ((n : ℤ) + 1)]) := by
      intro L
      rw [List.filter_eq_self]
      intro w hw
      obtain ⟨v, -, rfl⟩ := List.mem_map.mp hw
      simp
    rw [List.map_append, List.map_append, e6]
    simp only [List.map_cons, List.map_nil, e1, e2, e3, e4, e5, split_end_space, split_words fs a (fun x hx => (hA x hx).1), split_words fs b (fun x hx => (hB x hx).1),
      split_words fs c (fun x hx => (hC x hx).1), split_words intStr p.sizes (fun z _ => intStr_word z), split_intStr, split_natStr, List.filter_append, e7]
    have f1 : ∀ v : List ℚ, v ≠ [] → decide (v.map fs ≠ []) = true := by
      intro v hv
      simpa using hv
    have f2 : decide (p.sizes.map intStr ≠ []) = true := by simpa using hs
    simp [na, nb, nc, hs]
  unfold readEnumX
  rw [hwords]
  have t1 : (p.basisVecs.map (fun v => v.map fs ++ [occupancyStr ((n : ℤ) + 1)]) ++ [p.sizes.map intStr, ["0.00001".toList], ["full".toList]]).take p.basisVecs.length =
      p.basisVecs.map (fun v => v.map fs ++ [occupancyStr ((n : ℤ) + 1)]) := by
    rw [List.take_left' (by simp)]
  have t2 : (p.basisVecs.map (fun v => v.map fs ++ [occupancyStr ((n : ℤ) + 1)]) ++ [p.sizes.map intStr, ["0.00001".toList], ["full".toList]]).drop p.basisVecs.length =
      [p.sizes.map intStr, ["0.00001".toList], ["full".toList]] := by
    rw [List.drop_left' (by simp)]
  have t3 : ∀ L : List (List ℚ), (∀ v ∈ L, ∀ x ∈ v, WritesNumber fs x) →
      (L.map (fun v => v.map fs ++ [occupancyStr ((n : ℤ) + 1)])).mapM readSite = .ok (L.map (fun v => (v, List.range (n + 1)))) := by
    intro L hL
    induction L with
    | nil => rfl
    | cons v L ih =>
      rw [List.map_cons, List.mapM_cons, readSite_line fs n v (hL v List.mem_cons_self), ih (fun w hw => hL w (List.mem_cons_of_mem _ hw))]
      rfl
  have t4 : readKind [if p.bulk then "bulk".toList else "surface".toList] = .ok p.bulk := by cases p.bulk <;> rfl
  have t5 : p.nspecies.toNat = n + 1 := by omega
  have t6 : [a.map fs, b.map fs, c.map fs].mapM (fun w => w.mapM parseFloat) = .ok [a, b, c] := by
    simp only [List.mapM_cons, List.mapM_nil, parse_words fs a hA, parse_words fs b hB, parse_words fs c hC]
    rfl
  have tb : ∀ {α β : Type} (x : α) (f : α → Py β), ((Except.ok x : Py α) >>= f) = f x := fun _ _ => rfl
  simp only [t4, t6, parseInt_intStr, parseNat_natStr, tb, t1, t2, t3 p.basisVecs hS, t5, hl, parse_ints, parse_tol]

/-! ### from lattice.in -/

theorem splitAux_nil : ∀ (s cur : Str), splitAux s cur = [] → cur = [] ∧ IsBlankLine s
  | [], cur, h => by
    unfold splitAux at h
    by_cases hc : cur = []
    · exact ⟨hc, by intro c hc; cases hc⟩
    · rw [if_neg hc] at h; cases h
  | ch :: rest, cur, h => by
    unfold splitAux at h
    by_cases hw : isWs ch = true
    · rw [if_pos hw] at h
      by_cases hc : cur = []
      · rw [if_pos hc] at h
        refine ⟨hc, ?_⟩
        intro c hm
        rcases List.mem_cons.mp hm with rfl | hm
        · exact hw
        · exact (splitAux_nil rest [] h).2 c hm
      · rw [if_neg hc] at h; cases h
    · rw [if_neg hw] at h
      exact absurd (splitAux_nil rest _ h).1 (by simp)

theorem dataLines_words : ∀ {ls L : List Str}, dataLines ls = .ok L → ∀ l ∈ L, pySplit l ≠ []
  | [], L, h, l, hl => by cases h; cases hl
  | a :: ls, L, h, l, hl => by
    rw [dataLines_cons] at h
    cases hs : strip a with
    | nil => rw [hs] at h; cases h
    | cons c t =>
      rw [hs] at h
      cases hr : dataLines ls with
      | error e => simp only [hr] at h; cases h
      | ok r =>
        simp only [hr] at h
        have h' : (if c = '#' then r else a :: r) = L := Except.ok.inj h
        have hin : l ∈ r ∨ l = a := by
          split at h'
          · exact Or.inl (h' ▸ hl)
          · rw [← h'] at hl
            exact (List.mem_cons.mp hl).symm
        rcases hin with hin | rfl
        · exact dataLines_words hr l hin
        · intro he
          have := strip_blank (splitAux_nil _ _ he).2
          rw [hs] at this
          cases this

theorem py_bind_ok {α β : Type} {x : Py α} {f : α → Py β} {b : β} (h : (x >>= f) = .ok b) : ∃ a, x = .ok a ∧ f a = .ok b := by
  cases x with
  | error e => cases h
  | ok a => exact ⟨a, rfl, h⟩

theorem floats_nonempty : ∀ {ls : List Str} {vs : List (List ℚ)}, ls.mapM floatsOf = .ok vs → (∀ l ∈ ls, pySplit l ≠ []) → ∀ v ∈ vs, v ≠ []
  | [], vs, h, _, v, hv => by
    have h' : ([] : List (List ℚ)) = vs := Except.ok.inj h
    rw [← h'] at hv; cases hv
  | l :: ls, vs, h, hw, v, hv => by
    rw [List.mapM_cons] at h
    obtain ⟨a, h1, h2⟩ := py_bind_ok h
    obtain ⟨b, h3, h4⟩ := py_bind_ok h2
    have h5 : a :: b = vs := Except.ok.inj h4
    rw [← h5] at hv
    rcases List.mem_cons.mp hv with rfl | hv
    · have := py_mapM_length _ h1
      have hne := hw l List.mem_cons_self
      intro hnil
      rw [hnil] at this
      exact hne (List.length_eq_zero_iff.mp this)
    · exact floats_nonempty h3 (fun l hl => hw l (List.mem_cons_of_mem _ hl)) v hv

theorem pyGet_lt {α : Type} {l : List α} {i : ℕ} {a : α} (h : pyGet l i = .ok a) : i < l.length := by
  unfold pyGet at h
  by_contra hn
  rw [List.getElem?_eq_none (by omega)] at h
  cases h

theorem readLattice_shape {s : Str} {p : LatticeIn} (h : readLattice s = .ok p) : p.latVecs.length = 3 ∧ (∀ v ∈ p.latVecs, v ≠ []) ∧ p.sizes ≠ [] := by
  unfold readLattice at h
  obtain ⟨lines, h0, h⟩ := py_bind_ok h
  obtain ⟨l0, -, h⟩ := py_bind_ok h
  obtain ⟨sizes, hs, h⟩ := py_bind_ok h
  obtain ⟨l1, -, h⟩ := py_bind_ok h
  obtain ⟨lat, hl, h⟩ := py_bind_ok h
  obtain ⟨l5, h5, h⟩ := py_bind_ok h
  obtain ⟨ns, -, h⟩ := py_bind_ok h
  obtain ⟨l6, -, h⟩ := py_bind_ok h
  obtain ⟨nb, -, h⟩ := py_bind_ok h
  obtain ⟨bas, -, h⟩ := py_bind_ok h
  obtain ⟨r, -, h⟩ := py_bind_ok h
  have h : LatticeIn.mk _ _ _ _ _ _ _ _ = p := Except.ok.inj h
  subst h
  have hlen := pyGet_lt h5
  refine ⟨?_, ?_, ?_⟩
  · have := py_mapM_length _ hl
    rw [List.length_take, List.length_drop] at this
    show lat.length = 3
    omega
  · exact floats_nonempty hl (fun l hm => dataLines_words h0 l (List.mem_of_mem_drop (List.mem_of_mem_take hm)))
  · have := py_mapM_length _ hs
    intro hn
    rw [show sizes = [] from hn] at this
    exact splitOn_ne_nil ' ' l0 (List.length_eq_zero_iff.mp this)

/-- C94. The same from the text of lattice.in: whatever `read_lattice` has read, with at least one species, is what enum.x gets. -/
theorem C94_lattice_file (fs : ℚ → Str) {t : Str} {p : LatticeIn} (h : readLattice t = .ok p) (hk : 1 ≤ p.nspecies)
    (hfs : ∀ v ∈ p.latVecs ++ p.basisVecs, ∀ x ∈ v, WritesNumber fs x) (d : Dir) :
    ∃ s, dictGet (writeStructEnum fs p d) "struct_enum.in".toList = some s ∧
      readEnumX s = .ok ⟨p.bulk, p.latVecs, p.nspecies, p.basisVecs.map (fun v => (v, List.range p.nspecies.toNat)), p.sizes, 1 / 10 ^ 5, "full".toList⟩ := by
  obtain ⟨h1, h2, h3⟩ := readLattice_shape h
  obtain ⟨s, e1, e2, -⟩ := C94_struct_enum fs p h1 h2 hk h3 hfs d
  exact ⟨s, e1, e2⟩

/-- C94. The restrictions of the concentrations and the displacements are not written: two lattice.in that differ in them only give the same struct_enum.in. -/
theorem C94_forgets (fs : ℚ → Str) (p : LatticeIn) (r a : Bool) (cs : List (List ℚ)) :
    structEnumText fs { p with restricted := r, arrows := a, concs := cs } = structEnumText fs p := rfl

/-- decimals of halves, for the example below -/
def halfStr (x : ℚ) : Str := if x = 1 / 2 then "0.5".toList else "0.0".toList

theorem C94_example_numbers : WritesNumber halfStr (1 / 2) ∧ WritesNumber halfStr 0 := by
  have e1 : halfStr (1 / 2) = ['0', '.', '5'] := by unfold halfStr; rw [if_pos rfl]; rfl
  have e2 : halfStr 0 = ['0', '.', '0'] := by unfold halfStr; rw [if_neg (by norm_num)]; rfl
  refine ⟨⟨by rw [e1]; exact ⟨by decide, by decide⟩, ?_⟩, ⟨by rw [e2]; exact ⟨by decide, by decide⟩, ?_⟩⟩
  · rw [e1, parseFloat_plain (by decide) (by decide) (by decide), show ['0', '.', '5'] = ['0'] ++ '.' :: ['5'] from rfl,
      parseDecimal_ok ['0'] ['5'] (by decide) (by decide) (by decide), show digitsVal (['0'] ++ ['5']) = 5 by decide]
    show Except.ok _ = Except.ok _
    norm_num
  · rw [e2, parseFloat_plain (by decide) (by decide) (by decide), show ['0', '.', '0'] = ['0'] ++ '.' :: ['0'] from rfl,
      parseDecimal_ok ['0'] ['0'] (by decide) (by decide) (by decide), show digitsVal (['0'] ++ ['0']) = 0 by decide]
    show Except.ok _ = Except.ok _
    norm_num

/-- fcc with two species meets the hypotheses of `C94_struct_enum` -/
example : ∃ s, dictGet (writeStructEnum halfStr ⟨true, [1, 4], [[0, 1 / 2, 1 / 2], [1 / 2, 0, 1 / 2], [1 / 2, 1 / 2, 0]], 2, [[0, 0, 0]], false, false, []⟩ []) "struct_enum.in".toList = some s ∧
    readEnumX s = .ok ⟨true, [[0, 1 / 2, 1 / 2], [1 / 2, 0, 1 / 2], [1 / 2, 1 / 2, 0]], 2, [([0, 0, 0], [0, 1])], [1, 4], 1 / 10 ^ 5, "full".toList⟩ := by
  obtain ⟨s, h1, h2, -⟩ := C94_struct_enum halfStr ⟨true, [1, 4], [[0, 1 / 2, 1 / 2], [1 / 2, 0, 1 / 2], [1 / 2, 1 / 2, 0]], 2, [[0, 0, 0]], false, false, []⟩ rfl
    (by simp) (by norm_num) (by simp) (by
      have hn := C94_example_numbers
      intro v hv x hx
      simp only [List.cons_append, List.nil_append, List.mem_cons, List.not_mem_nil, or_false] at hv
      rcases hv with rfl | rfl | rfl | rfl <;> simp only [List.mem_cons, List.not_mem_nil, or_false] at hx <;> rcases hx with rfl | rfl | rfl <;>
        first | exact hn.1 | exact hn.2) []
  exact ⟨s, h1, h2⟩

/-- the lattice.in of the face-centred cubic lattice (with arrows and restricted concentrations) meets the hypotheses of `C94_lattice_file` -/
example : ∃ s, dictGet (writeStructEnum halfStr exLat []) "struct_enum.in".toList = some s ∧
    readEnumX s = .ok ⟨true, [[0, 1 / 2, 1 / 2], [1 / 2, 0, 1 / 2], [1 / 2, 1 / 2, 0]], 2, [([0, 0, 0], [0, 1])], [1, 4], 1 / 10 ^ 5, "full".toList⟩ := by
  have h : Spec.Writable exLat := ⟨by decide, rfl, by decide, by decide⟩
  have hr : readLattice (latticeText exLat) = .ok exLat := by
    rw [C59_round_trip exLat h]
    decide +kernel
  exact C94_lattice_file halfStr hr (by decide) (by
    have hn := C94_example_numbers
    intro v hv x hx
    simp only [exLat, List.cons_append, List.nil_append, List.mem_cons, List.not_mem_nil, or_false] at hv
    rcases hv with rfl | rfl | rfl | rfl <;> simp only [List.mem_cons, List.not_mem_nil, or_false] at hx <;> rcases hx with rfl | rfl | rfl <;>
      first | exact hn.1 | exact hn.2) []

end Phenum
