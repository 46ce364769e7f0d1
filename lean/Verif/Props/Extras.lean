import Verif.Props.Decorate
import Verif.Props.EnumOut
import Verif.Props.Poscar
import Verif.Props.Elements
/-
C40, C50, C67: small statements about the files and the options.
-/
namespace Phenum
open Spec

/-- C40. If the lattice file switches arrows off (or concentrations are not restricted) no atom is displaced, whatever stands in the fourth column of the
restrictions. -/
theorem C40_no_arrows (restricted : Bool) (k : ℕ) (concs : List (List ℚ)) (cList : List ℕ)
    (h : cList.length ≤ if restricted then concs.length else k) (arrows : Bool) (ha : arrows = false ∨ restricted = false) :
    ∃ d, arrowConcs cList (getArrowConcs restricted arrows k concs) = .ok d ∧ (∀ s ∈ d, s.1 = -1) ∧
      ∀ i, i < cList.length → d.count (-1, i + 1) = cList.getD i 0 := by
  have hz : ∀ i, (getArrowConcs restricted arrows k concs).getD i 0 = 0 := by
    intro i
    unfold getArrowConcs
    cases restricted with
    | true =>
      have ha : arrows = false := by simpa using ha
      subst ha
      simp only [if_true, Bool.false_eq_true, and_false, if_false]
      rw [List.getD_eq_getElem?_getD, List.getElem?_map]
      cases concs[i]? <;> rfl
    | false =>
      simp only [Bool.false_eq_true, if_false]
      rw [List.getD_eq_getElem?_getD, List.getElem?_replicate]
      split <;> rfl
  have hl : (getArrowConcs restricted arrows k concs).length = if restricted then concs.length else k := by
    unfold getArrowConcs
    cases restricted <;> simp
  obtain ⟨d, h1, h2, h3, -⟩ := C40_arrow_concs cList (getArrowConcs restricted arrows k concs) (by rw [hl]; exact h)
  have h0 : ∀ i, i < cList.length → d.count (1, i + 1) = 0 := by
    intro i hi
    rw [(h3 i hi).1, hz]
    unfold arrowCount
    simp
  refine ⟨d, h1, ?_, ?_⟩
  · intro s hs
    obtain ⟨h4, h5, h6⟩ := h2 s hs
    rcases h4 with h4 | h4
    · exfalso
      have := h0 (s.2 - 1) (by omega)
      rw [show s.2 - 1 + 1 = s.2 by omega, ← h4] at this
      exact absurd hs (List.count_eq_zero.mp this)
    · exact h4
  · intro i hi
    have := (h3 i hi).2
    rw [h0 i hi] at this
    omega

/-- a fourth number that is not used -/
example : ∃ d, arrowConcs [2, 1] (getArrowConcs true false 2 [[0, 1, 1, 1 / 2], [0, 1, 1, 1]]) = .ok d ∧ (∀ s ∈ d, s.1 = -1) ∧
    ∀ i, i < 2 → d.count (-1, i + 1) = [2, 1].getD i 0 :=
  C40_no_arrows true 2 _ [2, 1] (by decide) false (Or.inl rfl)

/-- C50. The heading of enum.out: the second line says whether the system is bulk or surface; after the lattice vectors and the basis stand the number of
species, the sizes, and whether the concentrations are restricted. -/
theorem C50_heading (p : EnumParams) (now : Str) (l : List EnumEntry) (hlat : p.latVecs.length = 3) (hnow : '\n' ∉ now) (hfit : ∀ x ∈ l, x.Fits) :
    let line := fun i => (fileLines (enumOutFile p now l)).getD i []
    line 1 = (if p.bulk then "bulk".toList else "surface".toList) ∧
      pySplit (line 5) = [natStr p.basisVecs.length] ∧
      line (6 + p.basisVecs.length) = ' ' :: natStr p.nspecies ++ "-nary case".toList ∧
      pySplit (line (7 + p.basisVecs.length)) = p.sizes.map intStr ∧
      pySplit (line (10 + p.basisVecs.length)) = [if p.restricted then ['T'] else ['F']] := by
  have hfile : enumOutFile p now l = (headerLines p now ++ (enumOutRows l).map (fun r => rowText r.1 r.2.1 r.2.2)).flatMap (fun x => x ++ ['\n']) := by
    rw [List.flatMap_append, List.flatMap_map]
    rfl
  have hfit' : ∀ r ∈ enumOutRows l, r.2.2.Fits := fun r hr => hfit _ ((C50_rows_are_the_structures l).subset (List.mem_map_of_mem hr))
  have hlines : fileLines (enumOutFile p now l) = headerLines p now ++ (enumOutRows l).map (fun r => rowText r.1 r.2.1 r.2.2) := by
    rw [hfile, fileLines_eq]
    intro x hx
    rcases List.mem_append.mp hx with hx | hx
    · exact headerLines_no_newline p now hnow x hx
    · obtain ⟨r, hr, rfl⟩ := List.mem_map.mp hx
      exact rowText_no_newline _ _ _ (hfit' r hr)
  obtain ⟨v1, v2, v3, hv⟩ : ∃ v1 v2 v3, p.latVecs = [v1, v2, v3] := by
    match h : p.latVecs, hlat with
    | [v1, v2, v3], _ => exact ⟨v1, v2, v3, rfl⟩
  intro line
  have hline : ∀ i, line i = (headerLines p now ++ (enumOutRows l).map (fun r => rowText r.1 r.2.1 r.2.2)).getD i [] := by
    intro i
    show (fileLines (enumOutFile p now l)).getD i [] = _
    rw [hlines]
  have hsix : ∀ j, line (6 + p.basisVecs.length + j) = ([" ".toList ++ natStr p.nspecies ++ "-nary case".toList,
      "   ".toList ++ joinStr "   ".toList (p.sizes.map intStr), " 1e-7".toList, "Concentration check:".toList,
      if p.restricted then "    T".toList else "    F".toList,
      "full list of labelings (including incomplete labelings) is used ".toList,
      "Equivalency list: 1 #Not used in the random enumeration algorithm ".toList, columnTitles] ++
      (enumOutRows l).map (fun r => rowText r.1 r.2.1 r.2.2)).getD j [] := by
    intro j
    rw [hline]
    unfold headerLines
    rw [hv, List.append_assoc]
    have key : ∀ (A B : List Str) (n : ℕ), A.length = n → (A ++ B).getD (n + j) [] = B.getD j [] := by
      rintro A B n rfl
      rw [List.getD_eq_getElem?_getD, List.getElem?_append_right (by omega), ← List.getD_eq_getElem?_getD, Nat.add_sub_cancel_left]
    apply key
    simp only [List.length_append, List.length_map, List.length_cons, List.length_nil]
  refine ⟨?_, ?_, ?_, ?_, ?_⟩
  · rw [hline]
    rfl
  · rw [hline]
    unfold headerLines
    rw [hv]
    show pySplit (List.replicate 4 ' ' ++ natStr p.basisVecs.length) = _
    rw [split_spaces_append, split_natStr]
  · have := hsix 0
    rw [Nat.add_zero] at this
    rw [this]
    rfl
  · rw [show 7 + p.basisVecs.length = 6 + p.basisVecs.length + 1 by omega, hsix 1]
    show pySplit (List.replicate 3 ' ' ++ joinStr "   ".toList (p.sizes.map intStr)) = _
    rw [split_spaces_append]
    generalize p.sizes = zs
    induction zs with
    | nil => rfl
    | cons z zs ih =>
      cases zs with
      | nil => exact split_intStr z
      | cons y zs =>
        have e : joinStr "   ".toList ((z :: y :: zs).map intStr) = intStr z ++ ' ' :: ' ' :: ' ' :: joinStr "   ".toList ((y :: zs).map intStr) := by
          simp [joinStr]
        rw [e, split_append_ws _ ws_space, split_cons_ws ws_space, split_cons_ws ws_space, ih, split_intStr]
        rfl
  · rw [show 10 + p.basisVecs.length = 6 + p.basisVecs.length + 4 by omega, hsix 4]
    show pySplit (if p.restricted then "    T".toList else "    F".toList) = _
    cases p.restricted <;> rfl

/-! ## C67 -/

theorem sum_by_label (k N : ℕ) (L : ℕ → ℕ) (hL : ∀ j, j < N → L j < k) (f : ℕ → ℝ) :
    ((List.range k).map (fun i => ((List.range N).countP (fun j => L j = i) : ℝ) * f i)).sum = ((List.range N).map (fun j => f (L j))).sum := by
  induction N with
  | zero =>
    rw [List.sum_eq_zero]
    · rfl
    · intro x hx
      obtain ⟨i, -, rfl⟩ := List.mem_map.mp hx
      simp
  | succ N ih =>
    rw [List.range_succ, List.map_append, List.sum_append, ← ih (fun j hj => hL j (by omega))]
    have h1 : ∀ i, (((List.range N ++ [N]).countP (fun j => L j = i) : ℕ) : ℝ) * f i =
        ((List.range N).countP (fun j => L j = i) : ℝ) * f i + (if L N = i then f i else 0) := by
      intro i
      rw [List.countP_append, Nat.cast_add, add_mul]
      congr 1
      by_cases h : L N = i <;> simp [h]
    simp only [h1]
    rw [List.sum_map_add]
    congr 1
    rw [List.map_singleton, List.sum_singleton]
    have h2 : L N < k := hL N (by omega)
    clear ih h1 hL
    induction k with
    | zero => omega
    | succ k ihk =>
      rw [List.range_succ, List.map_append, List.sum_append]
      by_cases h : L N = k
      · rw [List.sum_eq_zero]
        · simp [h]
        · intro x hx
          obtain ⟨i, hi, rfl⟩ := List.mem_map.mp hx
          rw [if_neg]
          have := List.mem_range.mp hi
          omega
      · rw [ihk (by omega)]
        simp [h]

/-- The config file with the species `els` for the labels: the cell is scaled with the mean, over the atoms, of the lattice parameters of `els` at the labels. -/
theorem config_scale (plv : Matrix (Fin 3) (Fin 3) ℝ) (hA : plv.det ≠ 0) (nD : ℕ) (hn : 0 < nD) (k N : ℕ) (hN : 0 < N) (labeling arrows : Str) (sd : SpaceData)
    (args : StrArgs) (rnd : ℕ → ℕ → ℝ) (hs : StrData k N labeling arrows sd) (harr : ∀ ch ∈ arrows, ch.isDigit = true ∧ ch.toNat - 48 < 6)
    (hmap : ∀ m, args.mapping = some m → k ≤ m.length) (els : List String) (hels : els.length = k) (hsp : configSpecies args = .ok (some els))
    (param : String → ℝ) (hp : ∀ e ∈ els, IsElementParam plv nD e (param e)) :
    ∃ F lp, writeConfig plv nD k N labeling arrows sd args rnd = .ok F ∧ F.size = N ∧ F.cell = lp • sd.sLV ∧
      F.atoms.map ConfigAtom.typ = (List.range N).map (fun j => mappedLabel args.mapping (atomLabel labeling sd.gIndx j)) ∧
      lp * N = ((List.range N).map (fun j => param (els.getD (atomLabel labeling sd.gIndx j) ""))).sum := by
  have hLk : ∀ j, j < N → atomLabel labeling sd.gIndx j < k := by
    intro j hj
    obtain ⟨ch, -, -, -, -, h⟩ := char_at hs.gIndx hs.nlabels hs.labels hj
    exact h
  have hone : ((List.range k).map (labelCount labeling)).sum = N := by
    have h1 := sum_by_label k N (atomLabel labeling sd.gIndx) hLk (fun _ => 1)
    have h2 : ((List.range k).map (fun i => ((List.range N).countP (fun j => atomLabel labeling sd.gIndx j = i) : ℝ) * 1)).sum =
        ((((List.range k).map (labelCount labeling)).sum : ℕ) : ℝ) := by
      rw [Nat.cast_list_sum, List.map_map]
      congr 1
      apply List.map_congr_left
      intro i _
      rw [countP_atoms hs.gIndx hs.nlabels i]
      simp
    rw [h2] at h1
    have h3 : ((List.range N).map (fun _ => (1 : ℝ))).sum = N := by simp
    rw [h3] at h1
    exact_mod_cast h1
  obtain ⟨lp, h1, h2, -⟩ := C42_vegard els ((List.range k).map (labelCount labeling)) (by simp [hels]) plv hA nD hn true param hp (by rw [hone]; exact hN)
  have := C38_config plv nD k N labeling arrows sd args rnd hs harr hmap (some els) hsp lp _ h1
  refine ⟨_, lp, this, rfl, rfl, ?_, ?_⟩
  · rw [List.map_map]
    rfl
  · rw [hone] at h2
    rw [h2, ← sum_by_label k N _ hLk (fun i => param (els.getD i ""))]
    congr 1
    apply List.ext_getElem
    · simp [hels]
    · intro i hi1 hi2
      have hi : i < k := by simpa using hi2
      simp only [List.getElem_map, List.getElem_zip, List.getElem_range, List.getD_eq_getElem?_getD]
      rw [List.getElem?_eq_getElem (by omega), countP_atoms hs.gIndx hs.nlabels i]
      rfl

/-- The lattice parameter `lp` used for the atoms of `F` is that of the species that stand in the file: the mean over the atoms of the parameter of the species
whose number is written. -/
def Spec.ScaledForSpecies (plv : Matrix (Fin 3) (Fin 3) ℝ) (nD : ℕ) (sp : List String) (F : ConfigFile) (lp : ℝ) : Prop :=
  ∀ param : String → ℝ, (∀ e ∈ sp, IsElementParam plv nD e (param e)) → lp * F.atoms.length = (F.atoms.map (fun a => param (sp.getD a.typ ""))).sum

/-- C67. Config file without a mapping: the atom carries its label, and the cell is scaled with the mean lattice parameter of the species in the file. -/
theorem C67_unmapped (plv : Matrix (Fin 3) (Fin 3) ℝ) (hA : plv.det ≠ 0) (nD : ℕ) (hn : 0 < nD) (k N : ℕ) (hN : 0 < N) (labeling arrows : Str) (sd : SpaceData)
    (args : StrArgs) (rnd : ℕ → ℕ → ℝ) (hs : StrData k N labeling arrows sd) (harr : ∀ ch ∈ arrows, ch.isDigit = true ∧ ch.toNat - 48 < 6)
    (sp : List String) (hlen : sp.length = k) (hsp : args.species = some sp) (hm : args.mapping = none) (hknown : ∀ e ∈ sp, ∃ v, elementVolume e = .ok v) :
    ∃ F lp, writeConfig plv nD k N labeling arrows sd args rnd = .ok F ∧ F.cell = lp • sd.sLV ∧
      F.atoms.map ConfigAtom.typ = (List.range N).map (atomLabel labeling sd.gIndx) ∧ Spec.ScaledForSpecies plv nD sp F lp := by
  classical
  have hex : ∀ e, ∃ a : ℝ, e ∈ sp → IsElementParam plv nD e a := by
    intro e
    by_cases he : e ∈ sp
    · obtain ⟨v, hv⟩ := hknown e he
      obtain ⟨a, -, ha⟩ := latParamElement_spec hA hn hv
      exact ⟨a, fun _ => ha⟩
    · exact ⟨0, fun h => absurd h he⟩
  choose par hpar using hex
  obtain ⟨F, lp, h1, h2, h3, h4, h5⟩ := config_scale plv hA nD hn k N hN labeling arrows sd args rnd hs harr (fun m h => by rw [hm] at h; cases h) sp hlen
    (by unfold configSpecies; rw [hm, hsp]) par hpar
  refine ⟨F, lp, h1, h3, ?_, ?_⟩
  · rw [h4, hm]
    rfl
  · intro param hp
    have hl : F.atoms.length = N := by simpa using congrArg List.length h4
    have e : F.atoms.map (fun a => param (sp.getD a.typ "")) = (F.atoms.map ConfigAtom.typ).map (fun t => param (sp.getD t "")) := by
      rw [List.map_map]
      rfl
    rw [hl, h5, e, h4, List.map_map, hm]
    congr 1
    apply List.map_congr_left
    intro j hj
    have hj : j < N := List.mem_range.mp hj
    obtain ⟨ch, -, -, -, -, hk⟩ := char_at hs.gIndx hs.nlabels hs.labels hj
    have hmem : sp.getD (atomLabel labeling sd.gIndx j) "" ∈ sp := by
      have hk' : atomLabel labeling sd.gIndx j < sp.length := hlen ▸ hk
      rw [List.getD_eq_getElem?_getD, List.getElem?_eq_getElem hk']
      exact List.getElem_mem hk'
    exact isElementParam_unique hA (hpar _ hmem) (hp _ hmem)

/-- C67. Config file of a subsystem: a mapping with one entry for each of the `k` labels into a longer list of species. The atom carries the number of the species
that the mapping gives its label, and the cell is scaled with the mean lattice parameter of these species. -/
theorem C67_mapped (plv : Matrix (Fin 3) (Fin 3) ℝ) (hA : plv.det ≠ 0) (nD : ℕ) (hn : 0 < nD) (k N : ℕ) (hN : 0 < N) (labeling arrows : Str) (sd : SpaceData)
    (args : StrArgs) (rnd : ℕ → ℕ → ℝ) (hs : StrData k N labeling arrows sd) (harr : ∀ ch ∈ arrows, ch.isDigit = true ∧ ch.toNat - 48 < 6)
    (sp : List String) (m : List ℕ) (hsp : args.species = some sp) (hm : args.mapping = some m) (hk : m.length = k) (hb : ∀ i ∈ m, i < sp.length)
    (hlen : sp.length ≠ k) (hknown : ∀ e ∈ sp, ∃ v, elementVolume e = .ok v) :
    ∃ F lp, writeConfig plv nD k N labeling arrows sd args rnd = .ok F ∧ F.cell = lp • sd.sLV ∧
      F.atoms.map ConfigAtom.typ = (List.range N).map (fun j => m.getD (atomLabel labeling sd.gIndx j) 0) ∧ Spec.ScaledForSpecies plv nD sp F lp := by
  classical
  have hex : ∀ e, ∃ a : ℝ, e ∈ sp → IsElementParam plv nD e a := by
    intro e
    by_cases he : e ∈ sp
    · obtain ⟨v, hv⟩ := hknown e he
      obtain ⟨a, -, ha⟩ := latParamElement_spec hA hn hv
      exact ⟨a, fun _ => ha⟩
    · exact ⟨0, fun h => absurd h he⟩
  choose par hpar using hex
  have hin : ∀ i, i < sp.length → sp.getD i "" ∈ sp := by
    intro i hi
    rw [List.getD_eq_getElem?_getD, List.getElem?_eq_getElem hi]
    exact List.getElem_mem hi
  have hsel : configSpecies args = .ok (some (m.map (fun i => sp.getD i ""))) := by
    unfold configSpecies
    rw [hm, hsp]
    simp only
    rw [if_pos (by omega), mapM_ok _ (fun i => sp.getD i "") m]
    · rfl
    · intro i hi
      exact pyGet_getD sp i "" (hb i hi)
  obtain ⟨F, lp, h1, h2, h3, h4, h5⟩ := config_scale plv hA nD hn k N hN labeling arrows sd args rnd hs harr (fun m' h => by rw [hm] at h; cases h; omega)
    (m.map (fun i => sp.getD i "")) (by simpa using hk) hsel par (by
      intro e he
      obtain ⟨i, hi, rfl⟩ := List.mem_map.mp he
      exact hpar _ (hin i (hb i hi)))
  refine ⟨F, lp, h1, h3, ?_, ?_⟩
  · rw [h4, hm]
    rfl
  · intro param hp
    have hl : F.atoms.length = N := by simpa using congrArg List.length h4
    have e : F.atoms.map (fun a => param (sp.getD a.typ "")) = (F.atoms.map ConfigAtom.typ).map (fun t => param (sp.getD t "")) := by
      rw [List.map_map]
      rfl
    rw [hl, h5, e, h4, List.map_map, hm]
    congr 1
    apply List.map_congr_left
    intro j hj
    have hj : j < N := List.mem_range.mp hj
    obtain ⟨ch, -, -, -, -, hLk⟩ := char_at hs.gIndx hs.nlabels hs.labels hj
    have hk' : atomLabel labeling sd.gIndx j < m.length := hk ▸ hLk
    have e1 : (m.map (fun i => sp.getD i "")).getD (atomLabel labeling sd.gIndx j) "" = sp.getD (m.getD (atomLabel labeling sd.gIndx j) 0) "" := by
      simp [List.getD_eq_getElem?_getD, hk']
    have hmem : m.getD (atomLabel labeling sd.gIndx j) 0 ∈ m := by
      rw [List.getD_eq_getElem?_getD, List.getElem?_eq_getElem hk']
      exact List.getElem_mem hk'
    rw [e1]
    exact isElementParam_unique hA (hpar _ (hin _ (hb _ hmem))) (hp _ (hin _ (hb _ hmem)))

/-- one aluminium atom at the origin -/
theorem oneAtom : StrData 2 1 "0".toList "0".toList ⟨1, [0], [0], [0], [1]⟩ where
  gIndx := by decide
  aBas := rfl
  labels := by unfold LabelsBelow; decide
  nlabels := rfl
  narrows := rfl

/-- Three species, of which the structure has the third and the first: the single atom of label 0 is the third species. -/
example : ∃ F lp, writeConfig 1 1 2 1 "0".toList "0".toList ⟨1, [0], [0], [0], [1]⟩ ⟨some ["Al", "Ni", "Cu"], false, 0, some [2, 0]⟩ (fun _ _ => 0) = .ok F ∧
    F.cell = lp • 1 ∧ F.atoms.map ConfigAtom.typ = [2] ∧ Spec.ScaledForSpecies 1 1 ["Al", "Ni", "Cu"] F lp :=
  C67_mapped 1 (by simp) 1 one_pos 2 1 one_pos _ _ _ _ _ oneAtom (by decide) ["Al", "Ni", "Cu"] [2, 0] rfl rfl rfl (by decide) (by decide) (by
    intro e he
    simp only [List.mem_cons, List.not_mem_nil, or_false] at he
    rcases he with rfl | rfl | rfl
    · exact ⟨16.6075, by decide +kernel⟩
    · exact ⟨10.9036, by decide +kernel⟩
    · exact ⟨11.7615, by decide +kernel⟩)

/-- C67. Finding: a mapping with as many entries as there are species is not applied to the lattice parameter. With the species Al and Ni exchanged, the single atom of
label 0 is written as nickel in a cell with the lattice parameter of aluminium. -/
theorem C67_permutation : ∃ F lp, writeConfig 1 1 2 1 "0".toList "0".toList ⟨1, [0], [0], [0], [1]⟩ ⟨some ["Al", "Ni"], false, 0, some [1, 0]⟩ (fun _ _ => 0) = .ok F ∧
    F.cell = lp • 1 ∧ F.atoms.map ConfigAtom.typ = [1] ∧ IsElementParam 1 1 "Al" lp ∧ ¬ IsElementParam 1 1 "Ni" lp := by
  have hAl : elementVolume "Al" = .ok 16.6075 := by decide +kernel
  have hNi : elementVolume "Ni" = .ok 10.9036 := by decide +kernel
  have hdet : (1 : Matrix (Fin 3) (Fin 3) ℝ).det ≠ 0 := by simp
  obtain ⟨a, -, ha⟩ := latParamElement_spec hdet one_pos hAl
  obtain ⟨b, -, hb⟩ := latParamElement_spec hdet one_pos hNi
  obtain ⟨F, lp, h1, h2, h3, h4, h5⟩ := config_scale 1 hdet 1 one_pos 2 1 one_pos "0".toList "0".toList ⟨1, [0], [0], [0], [1]⟩
    ⟨some ["Al", "Ni"], false, 0, some [1, 0]⟩ (fun _ _ => 0) oneAtom (by decide) (by intro m h; cases h; decide) ["Al", "Ni"] rfl rfl
    (fun e => if e = "Al" then a else b) (by
      intro e he
      simp only [List.mem_cons, List.not_mem_nil, or_false] at he
      rcases he with rfl | rfl
      · simpa using ha
      · simpa using hb)
  have hlp : lp = a := by
    have : atomLabel ['0'] [0] 0 = 0 := by decide
    simpa [List.range_succ, this] using h5
  refine ⟨F, lp, h1, h3, ?_, hlp ▸ ha, ?_⟩
  · rw [h4]
    decide
  · rw [hlp]
    rintro ⟨-, w, hw, h⟩
    obtain ⟨-, v, hv, h'⟩ := ha
    rw [hAl] at hv
    rw [hNi] at hw
    cases hv
    cases hw
    rw [h] at h'
    norm_num at h'

end Phenum
