import Verif.Proof.Poscar
import Verif.Props.RealSpace
import Verif.Proof.SnfFuel
/-
C37, C38: the structures written as POSCAR or MTP config.
-/
namespace Phenum

/-- The data of a structure handed to the writers fit together: `N` atoms, whose label positions are a permutation of the
positions of the labeling, and as many arrows. `C28_map_real_space` provides the first three. -/
structure StrData (k N : ℕ) (labeling arrows : Str) (sd : SpaceData) : Prop where
  gIndx : sd.gIndx.Perm ((List.range N).map (fun i : ℕ => (i : ℤ)))
  aBas : sd.aBas.length = N
  labels : LabelsBelow k labeling
  nlabels : labeling.length = N
  narrows : arrows.length = N

/-- Where `write_POSCAR` puts atom `j`. -/
noncomputable def poscarPos (labeling arrows : Str) (sd : SpaceData) (displace lp : ℝ) (rnd : ℕ → ℕ → ℝ) (j : ℕ) : V3 :=
  fun i => sd.aBas.getD j 0 i + (1 + rnd (atomLabel labeling sd.gIndx j) j) * (displace * lp) * (dirAt poscarDirs (arrows.getD j '0') i : ℝ)

/-- C38. The POSCAR lists every atom exactly once (`order` is a permutation of the atoms), grouped by species in the
order of the labels, and the counts in its heading are the numbers of sites with each label: expanding the counts gives
the labels of the atoms as they are listed. Zero counts are left out only on request. -/
theorem C38_poscar (plv : Matrix (Fin 3) (Fin 3) ℝ) (nD k N : ℕ) (labeling arrows : Str) (sd : SpaceData) (args : StrArgs)
    (rnd : ℕ → ℕ → ℝ) (hs : StrData k N labeling arrows sd) (harr : ∀ ch ∈ arrows, ch.isDigit = true ∧ ch.toNat - 48 < 7)
    (lp : ℝ) (names : List String)
    (hlp : latticeParameter args.species ((List.range k).map (labelCount labeling)) plv nD args.removeZeros = .ok (lp, names)) :
    ∃ (P : Poscar) (order : List ℕ), writePoscar plv nD k N labeling arrows sd args rnd = .ok P ∧
      order.Perm (List.range N) ∧
      order.map (atomLabel labeling sd.gIndx) = (List.range k).flatMap (fun i => List.replicate (labelCount labeling i) i) ∧
      P.counts = (if args.removeZeros = true ∧ args.species.isSome = true then
        ((List.range k).map (labelCount labeling)).filter (fun c => c ≠ 0) else (List.range k).map (labelCount labeling)) ∧
      P.atoms = order.map (poscarPos labeling arrows sd args.displace lp rnd) ∧
      P.scale = lp ∧ P.names = names ∧ P.cell = sd.sLV := by
  set L := atomLabel labeling sd.gIndx with hL
  have hstep : ∀ p ∈ pairsOf k N, poscarStep labeling sd.gIndx sd.aBas (arrows.map (dirAt poscarDirs)) args.displace lp rnd p =
      .ok (if L p.2 = p.1 then [fun i => sd.aBas.getD p.2 0 i + displacement (dirAt poscarDirs (arrows.getD p.2 '0')) args.displace lp (rnd p.1 p.2) i] else []) := by
    intro p hp
    have hp2 : p.2 < N := by
      simp only [pairsOf, List.mem_flatMap, List.mem_map, List.mem_range] at hp
      obtain ⟨i, -, j, hj, rfl⟩ := hp
      exact hj
    obtain ⟨ch, g1, g2, g3, g4, -⟩ := char_at hs.gIndx hs.nlabels hs.labels hp2
    have hd : pyGet (arrows.map (dirAt poscarDirs)) p.2 = .ok (dirAt poscarDirs (arrows.getD p.2 '0')) := by
      have h1 : p.2 < arrows.length := by rw [hs.narrows]; exact hp2
      rw [pyGet_getD _ _ 0 (by simpa using h1)]
      simp [h1]
    have ha := pyGet_getD sd.aBas p.2 0 (by rw [hs.aBas]; exact hp2)
    unfold poscarStep
    simp only [hd, g1, g2, bind, Except.bind]
    by_cases h : L p.2 = p.1
    · rw [if_pos h, if_pos ((char_eq_natStr g3 _).mpr (by rw [g4, ← h])), ha]
      rfl
    · rw [if_neg h, if_neg (fun hc => h (by rw [hL, ← g4]; exact (char_eq_natStr g3 _).mp hc))]
  have hlines := mapM_ok _ _ _ hstep
  refine ⟨⟨names, lp, sd.sLV, if args.removeZeros = true ∧ args.species.isSome = true then
        ((List.range k).map (labelCount labeling)).filter (fun c => c ≠ 0) else (List.range k).map (labelCount labeling),
        ((pairsOf k N).map (fun p => if L p.2 = p.1 then [fun i => sd.aBas.getD p.2 0 i +
          displacement (dirAt poscarDirs (arrows.getD p.2 '0')) args.displace lp (rnd p.1 p.2) i] else [])).flatten⟩,
    (List.range k).flatMap (fun i => (List.range N).filter (fun j => L j = i)), ?_, ?_, ?_, rfl, ?_, rfl, rfl, rfl⟩
  · unfold writePoscar
    simp only [countLoop_ok hs.gIndx hs.nlabels hs.labels, hlp, dirs_ok poscarDirs arrows harr, hlines, bind, Except.bind]
  · refine (group_perm L (List.range N) k).trans ?_
    rw [List.filter_eq_self.mpr]
    intro j hj
    obtain ⟨ch, -, -, -, -, h⟩ := char_at hs.gIndx hs.nlabels hs.labels (List.mem_range.mp hj)
    exact decide_eq_true h
  · rw [block_labels]
    congr 1
    funext i
    rw [countP_atoms hs.gIndx hs.nlabels i]
  · rw [pairs_blocks k N L (fun i j => (fun t => sd.aBas.getD j 0 t +
      displacement (dirAt poscarDirs (arrows.getD j '0')) args.displace lp (rnd i j) t))]
    apply List.map_congr_left
    intro j _
    funext t
    unfold poscarPos displacement
    ring

/-! ## write_config -/

/-- Where `write_config` puts atom `j`. -/
noncomputable def configPos (labeling arrows : Str) (sd : SpaceData) (displace lp : ℝ) (rnd : ℕ → ℕ → ℝ) (j : ℕ) : V3 :=
  fun i => (lp • sd.sLV).transpose.mulVec (sd.aBas.getD j 0) i +
    (1 + rnd (atomLabel labeling sd.gIndx j) j) * (displace * lp) * (dirAt configDirs (arrows.getD j '0') i : ℝ)

/-- The species written for label `i`. -/
def mappedLabel (mapping : Option (List ℕ)) (i : ℕ) : ℕ :=
  match mapping with
  | none => i
  | some m => m.getD i 0

theorem config_blocks {β : Type} (k N : ℕ) (L : ℕ → ℕ) (hL : ∀ j, j < N → L j < k) (f : ℕ → ℕ → β) :
    (((List.range N).flatMap (fun i => (List.range k).map (fun j => (i, j)))).map (fun p => if L p.1 = p.2 then [f p.1 p.2] else [])).flatten =
      (List.range N).map (fun j => f j (L j)) := by
  rw [← List.flatMap_def, List.flatMap_assoc]
  have hN : ∀ j ∈ List.range N, L j < k := fun j hj => hL j (List.mem_range.mp hj)
  generalize List.range N = l at hN
  induction l with
  | nil => rfl
  | cons j l ih =>
    rw [List.flatMap_cons, List.map_cons, ih (fun i hi => hN i (List.mem_cons_of_mem _ hi)), List.flatMap_map]
    have hj := hN j List.mem_cons_self
    have : ∀ k, (List.range k).flatMap (fun i => if L j = i then [f j i] else []) = if L j < k then [f j (L j)] else [] := by
      intro k
      induction k with
      | zero => rfl
      | succ k ihk =>
        rw [List.range_succ, List.flatMap_append, ihk, List.flatMap_singleton]
        by_cases h : L j = k
        · subst h; simp
        · by_cases h2 : L j < k
          · rw [if_pos h2, if_neg h, if_pos (by omega)]; rfl
          · rw [if_neg h2, if_neg h, if_neg (by omega)]; rfl
    rw [this, if_pos hj]
    rfl

/-- C38. The config file lists the atoms one after the other, numbered from 1, each once, with the species of its label
(translated by the mapping if there is one). -/
theorem C38_config (plv : Matrix (Fin 3) (Fin 3) ℝ) (nD k N : ℕ) (labeling arrows : Str) (sd : SpaceData) (args : StrArgs)
    (rnd : ℕ → ℕ → ℝ) (hs : StrData k N labeling arrows sd) (harr : ∀ ch ∈ arrows, ch.isDigit = true ∧ ch.toNat - 48 < 6)
    (hmap : ∀ m, args.mapping = some m → k ≤ m.length)
    (sp : Option (List String)) (hsp : configSpecies args = .ok sp) (lp : ℝ) (names : List String)
    (hlp : latticeParameter sp ((List.range k).map (labelCount labeling)) plv nD true = .ok (lp, names)) :
    writeConfig plv nD k N labeling arrows sd args rnd = .ok ⟨N, lp • sd.sLV, (List.range N).map (fun j =>
      ⟨j + 1, mappedLabel args.mapping (atomLabel labeling sd.gIndx j), configPos labeling arrows sd args.displace lp rnd j⟩), names⟩ := by
  set L := atomLabel labeling sd.gIndx with hL
  have hLk : ∀ j, j < N → L j < k := by
    intro j hj
    obtain ⟨ch, -, -, -, -, h⟩ := char_at hs.gIndx hs.nlabels hs.labels hj
    exact h
  have hcounts : configCounts labeling sd.gIndx k N = .ok ((List.range k).map (labelCount labeling)) := by
    unfold configCounts
    apply mapM_ok
    intro i _
    rw [mapM_ok _ (fun j => decide (L j = i)) (List.range N)]
    · show Except.ok _ = _
      congr 1
      rw [← countP_atoms hs.gIndx hs.nlabels i, List.countP_map]
      rfl
    · intro j hj
      obtain ⟨ch, g1, g2, g3, g4, -⟩ := char_at hs.gIndx hs.nlabels hs.labels (List.mem_range.mp hj)
      simp only [g1, g2, bind, Except.bind]
      congr 1
      rw [Bool.eq_iff_iff, decide_eq_true_eq, decide_eq_true_eq, char_eq_natStr g3, g4]
  have hstep : ∀ p ∈ (List.range N).flatMap (fun i => (List.range k).map (fun j => (i, j))),
      configStep labeling sd (lp • sd.sLV) (arrows.map (dirAt configDirs)) args lp rnd p =
      .ok (if L p.1 = p.2 then [⟨p.1 + 1, mappedLabel args.mapping p.2, fun i => (lp • sd.sLV).transpose.mulVec (sd.aBas.getD p.1 0) i +
        displacement (dirAt configDirs (arrows.getD p.1 '0')) args.displace lp (rnd p.2 p.1) i⟩] else []) := by
    intro p hp
    simp only [List.mem_flatMap, List.mem_map, List.mem_range] at hp
    obtain ⟨j, hj, i, hi, rfl⟩ := hp
    simp only
    obtain ⟨ch, g1, g2, g3, g4, -⟩ := char_at hs.gIndx hs.nlabels hs.labels hj
    have hd : pyGet (arrows.map (dirAt configDirs)) j = .ok (dirAt configDirs (arrows.getD j '0')) := by
      have h1 : j < arrows.length := by rw [hs.narrows]; exact hj
      rw [pyGet_getD _ _ 0 (by simpa using h1)]
      simp [h1]
    have ha := pyGet_getD sd.aBas j 0 (by rw [hs.aBas]; exact hj)
    unfold configStep
    simp only [hd, g1, g2, bind, Except.bind]
    by_cases h : L j = i
    · rw [if_pos h, if_pos ((char_eq_natStr g3 _).mpr (by rw [g4, ← h])), ha]
      cases hm : args.mapping with
      | none => rfl
      | some m =>
        have := hmap m hm
        have him : i < m.length := by omega
        simp [mappedLabel, him]
    · rw [if_neg h, if_neg (fun hc => h (by rw [hL, ← g4]; exact (char_eq_natStr g3 _).mp hc))]
  unfold writeConfig
  simp only [hcounts, hsp, hlp, dirs_ok configDirs arrows harr, mapM_ok _ _ _ hstep, bind, Except.bind]
  rw [config_blocks k N L hLk (fun j i => (⟨j + 1, mappedLabel args.mapping i, fun t => (lp • sd.sLV).transpose.mulVec (sd.aBas.getD j 0) t +
        displacement (dirAt configDirs (arrows.getD j '0')) args.displace lp (rnd i j) t⟩ : ConfigAtom))]
  congr 2
  apply List.map_congr_left
  intro j _
  congr 1
  funext t
  unfold configPos displacement
  rw [← hL]
  ring

/-! ## C37 -/

theorem poscarDirs_zero {ch : Char} (h : ch = '0') : dirAt poscarDirs ch = 0 := by
  subst h; funext i; fin_cases i <;> rfl

/-- C37. In a POSCAR an atom whose entry in the arrow string is `0` is not displaced, and neither is any atom if the
displacement asked for is 0. -/
theorem C37_not_displaced (labeling arrows : Str) (sd : SpaceData) (displace lp : ℝ) (rnd : ℕ → ℕ → ℝ) (j : ℕ)
    (h : arrows.getD j '0' = '0' ∨ displace = 0) : poscarPos labeling arrows sd displace lp rnd j = sd.aBas.getD j 0 := by
  funext i
  unfold poscarPos
  rcases h with h | h
  · rw [poscarDirs_zero h]; simp
  · rw [h]; simp

/-- C37. Any other atom is displaced along one coordinate axis, by the displacement asked for in units of the lattice
parameter, changed by no more than the rattle fraction. -/
theorem C37_displaced (labeling arrows : Str) (sd : SpaceData) (displace lp rattle : ℝ) (rnd : ℕ → ℕ → ℝ)
    (hr : ∀ i j, |rnd i j| ≤ rattle) (hd : 0 ≤ displace * lp) (j : ℕ) (d : ℕ) (hd1 : 1 ≤ d) (hd6 : d ≤ 6) (hj : arrows.getD j '0' = digitChar d) :
    ∃ (axis : Fin 3) (sign t : ℝ), (sign = 1 ∨ sign = -1) ∧ (1 - rattle) * (displace * lp) ≤ t ∧ t ≤ (1 + rattle) * (displace * lp) ∧
      poscarPos labeling arrows sd displace lp rnd j = fun i => sd.aBas.getD j 0 i + (if i = axis then sign * t else 0) := by
  have h0 := hr (atomLabel labeling sd.gIndx j) j
  rw [abs_le] at h0
  have hdir : ∃ (axis : Fin 3) (sign : ℤ), (sign = 1 ∨ sign = -1) ∧ dirAt poscarDirs (digitChar d) = fun i => if i = axis then sign else 0 := by
    interval_cases d
    · exact ⟨2, -1, Or.inr rfl, by funext i; fin_cases i <;> rfl⟩
    · exact ⟨1, -1, Or.inr rfl, by funext i; fin_cases i <;> rfl⟩
    · exact ⟨0, -1, Or.inr rfl, by funext i; fin_cases i <;> rfl⟩
    · exact ⟨0, 1, Or.inl rfl, by funext i; fin_cases i <;> rfl⟩
    · exact ⟨1, 1, Or.inl rfl, by funext i; fin_cases i <;> rfl⟩
    · exact ⟨2, 1, Or.inl rfl, by funext i; fin_cases i <;> rfl⟩
  obtain ⟨axis, sign, hs, hdir⟩ := hdir
  refine ⟨axis, sign, (1 + rnd (atomLabel labeling sd.gIndx j) j) * (displace * lp), ?_, ?_, ?_, ?_⟩
  · rcases hs with h | h <;> simp [h]
  · exact mul_le_mul_of_nonneg_right (by linarith) hd
  · exact mul_le_mul_of_nonneg_right (by linarith) hd
  · funext i
    unfold poscarPos
    rw [hj, hdir]
    by_cases h : i = axis
    · simp [h]; ring
    · simp [h]

/-- C37. The directions are not those of the enumeration: arrow `a` (0 to 5) is written as the digit `a+1`, and for none
of them is the entry of the table of `write_POSCAR` the direction that the enumeration uses. It is not a mere change of
the axes either: arrows 0 and 1, opposite in the enumeration, are displaced at right angles. -/
theorem C37_wrong_directions : (∀ a, a < 6 → dirAt poscarDirs (digitChar (a + 1)) ≠ arrowDirs.getD a 0) ∧
    arrowDirs.getD 0 0 = -arrowDirs.getD 1 0 ∧
    (dirAt poscarDirs (digitChar 1) ⬝ᵥ dirAt poscarDirs (digitChar 2) : ℤ) = 0 := by
  refine ⟨?_, ?_, ?_⟩
  · intro a ha
    interval_cases a <;> decide
  · decide
  · decide

/-- the label positions of the points of a cell, computed with bounded loops -/
def siteOrder (n a b c d e f : ℕ) : List ℤ :=
  match snfFuel n (Spec.hnfMat a b c d e f) with
  | some (.ok s) => (interiorPoints a b c d e f).map (fun z => groupIndex s.A (fun i => s.M i i) 0 z)
  | _ => []

theorem siteOrder_eq {n a b c d e f : ℕ} {l : List ℤ} (h : siteOrder n a b c d e f = l) (hl : l ≠ []) (s : SnfState)
    (hs : smithNormalForm (Spec.hnfMat a b c d e f) = some (.ok s)) :
    (interiorPoints a b c d e f).map (fun z => groupIndex s.A (fun i => s.M i i) 0 z) = l := by
  unfold siteOrder at h
  split at h
  · rename_i s' hf
    have := snfFuel_eq _ _ _ hf
    rw [hs] at this
    rw [Except.ok.inj (Option.some.inj this)]
    exact h
  · exact absurd h.symm hl

/-- C37. The arrow is looked up at the number of the atom instead of its position in the labeling. For the HNF
`[1,0,3,0,0,1]` the second atom sits at label position 2; with the arrow string `010`, where position 2 carries no arrow,
this atom is displaced. -/
theorem C37_wrong_site (s : SnfState) (hs : smithNormalForm (Spec.hnfMat 1 0 3 0 0 1) = some (.ok s)) (A : Spec.M3 ℝ) (dv : List V3) (hdv : dv.length = 1) (k : ℕ)
    (labeling : Str) (eps : ℝ) (sd : SpaceData) (hsd : mapToRealSpace A dv k eps (structOf 1 0 3 0 0 1 s labeling) false = .ok sd) (displace lp : ℝ) (hd : displace * lp ≠ 0) :
    sd.gIndx = [0, 2, 1] ∧ "010".toList.getD 2 '0' = '0' ∧
    poscarPos labeling "010".toList sd displace lp (fun _ _ => 0) 1 ≠ sd.aBas.getD 1 0 := by
  have hg : sd.gIndx = (interiorPoints 1 0 3 0 0 1).map (fun z => groupIndex s.A (fun i => s.M i i) 0 z) := by
    rw [mapToRealSpace_eq A dv k eps 1 0 3 0 0 1 s labeling false rfl] at hsd
    simp only at hsd
    split at hsd
    · exact absurd hsd (by simp)
    · split at hsd
      · exact absurd hsd (by simp)
      · rw [← Except.ok.inj hsd]
        rw [hdv]
        simp [List.range_succ]
  refine ⟨?_, by decide, ?_⟩
  · rw [hg]
    exact siteOrder_eq (n := 4) (by decide +kernel) (by simp) s hs
  · intro h
    have h2 := congrFun h 2
    unfold poscarPos at h2
    have h3 : (dirAt poscarDirs ("010".toList.getD 1 '0') 2 : ℤ) = -1 := by decide
    rw [h3] at h2
    apply hd
    simp at h2
    rcases h2 with h2 | h2 <;> simp [h2]

/-- C37. `write_config` displaces the atoms without arrow as well, along the first axis, and stops with an error for the
last arrow. -/
theorem C37_config_wrong (plv : Matrix (Fin 3) (Fin 3) ℝ) (nD k N : ℕ) (labeling arrows : Str) (sd : SpaceData) (args : StrArgs)
    (rnd : ℕ → ℕ → ℝ) (lp : ℝ) (j : ℕ) :
    (arrows.getD j '0' = '0' → (1 + rnd (atomLabel labeling sd.gIndx j) j) * (args.displace * lp) ≠ 0 →
      configPos labeling arrows sd args.displace lp rnd j ≠ (lp • sd.sLV).transpose.mulVec (sd.aBas.getD j 0)) ∧
    ('6' ∈ arrows → ∃ e, writeConfig plv nD k N labeling arrows sd args rnd = .error e) := by
  constructor
  · intro h h1 h2
    have h3 := congrFun h2 0
    unfold configPos at h3
    have h4 : (dirAt configDirs '0' 0 : ℤ) = 1 := by decide
    rw [h, h4] at h3
    apply h1
    simpa using h3
  · intro h
    have herr : ∃ e, arrows.mapM (dirOf configDirs) = .error e := by
      induction arrows with
      | nil => exact absurd h List.not_mem_nil
      | cons c l ih =>
        rw [List.mapM_cons]
        cases hc : dirOf configDirs c with
        | error e => exact ⟨e, rfl⟩
        | ok v =>
          rcases List.mem_cons.mp h with h | h
          · subst h
            have : dirOf configDirs '6' = .error .indexError := by rfl
            rw [this] at hc
            exact absurd hc (by simp)
          · obtain ⟨e, he⟩ := ih h
            exact ⟨e, by simp only [he, bind, Except.bind]⟩
    obtain ⟨e, he⟩ := herr
    unfold writeConfig
    simp only [bind, Except.bind, he]
    split
    · exact ⟨_, rfl⟩
    · split
      · exact ⟨_, rfl⟩
      · split
        · exact ⟨_, rfl⟩
        · exact ⟨_, rfl⟩

/-- Two atoms, label positions exchanged. -/
example : StrData 2 2 "01".toList "03".toList ⟨1, [0, fun _ => 1 / 2], [-1, 1], [1, 0], [1 / 2, 1 / 2]⟩ where
  gIndx := by decide
  aBas := rfl
  labels := by unfold LabelsBelow; decide
  nlabels := rfl
  narrows := rfl

end Phenum
