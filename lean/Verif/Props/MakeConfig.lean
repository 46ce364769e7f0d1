import Verif.Props.MakePoscar
import Verif.Props.MakeDir
/-
C86. From enum.out to a config file (makeStr -config t): the structures of the rows.
-/
namespace Phenum
open Spec

/-- What the run of one structure does for a config file, when the structure can be mapped to real space. -/
theorem makeOne_config_eq (m : MakeArgs) (mapping : Option (List ℕ)) (rz : Bool) (sys : ReadSystem) (rnd : ℕ → ℕ → ℝ) (st : ReadStruct)
    (k : ℕ) (eps : ℚ) (hk : sys.k = some (k : ℤ)) (he : sys.eps = some eps) (hconf : m.config = .str "t".toList) (sd : SpaceData)
    (hsd : mapToRealSpace (plvOf sys) (dvecsOf sys) k eps (structData st) m.mink.truth = .ok sd) (w : V3 → V3)
    (hw : ∀ p ∈ sd.aBas, cartesian2direct sd.sLV p (eps : ℝ) = some (.ok (w p))) (C : ConfigFile)
    (hC : writeConfig (plvOf sys) sys.nD.toNat k (st.n.toNat * sys.nD.toNat) st.labeling st.directions { sd with aBas := sd.aBas.map w }
      { species := m.species, removeZeros := rz, displace := m.displace, mapping := mapping } rnd = .ok C) :
    makeOne m mapping rz sys rnd st = some (.ok [.config m.outfile C]) := by
  have h1 : sd.aBas.mapM (fun p => runO (cartesian2direct sd.sLV p (eps : ℝ))) = (pure (sd.aBas.map w) : Run (List V3)) :=
    run_mapM_ok _ _ _ hw
  have hr : ∀ {α : Type} (v : α), runPy (.ok v) = (pure v : Run α) := fun _ => rfl
  have hne : ¬ Flag.str "t".toList = Flag.str "f".toList := by decide
  unfold makeOne
  simp only [hk, he, getKey, pure_bind, Int.toNat_natCast, hsd, hr, h1, hconf, if_true, hne, if_false, hC]
  rfl

/-- The structure `C` of a config file is that of the row `x`, enlarged by the lattice parameter `lp`: its cell generates the enlarged superlattice, its atoms are numbered from 1,
their species are those of the labels, and repeated with the cell they are the enlarged crystal that has at site `g` of the supercell the species given by the character `g` of the labeling (translated by the mapping). -/
def Spec.ConfigDescribes (A : M3 ℝ) (dv : List V3) (mapping : Option (List ℕ)) (x : EnumEntry) (lp : ℝ) (C : ConfigFile) : Prop :=
  ∃ (a b c d e f : ℕ) (s : SnfState), OfCell x a b c d e f s ∧ C.size = x.labeling.length ∧ C.atoms.map (·.id) = List.range' 1 x.labeling.length ∧
    (C.atoms.map (·.typ)).Perm ((List.range x.labeling.length).map (fun g : ℕ => mappedLabel mapping (labelAt x.labeling g))) ∧
    ColLattice C.cell.transpose = (fun v => lp • v) '' ColLattice (A * castM (hnfMat a b c d e f)) ∧
    Crystal (ColLattice C.cell.transpose) (C.atoms.map (fun t => (t.typ, t.pos))) =
      (fun p : ℕ × V3 => (mappedLabel mapping p.1, lp • p.2)) '' Crystal (ColLattice (A * castM (hnfMat a b c d e f))) ((List.range x.labeling.length).map (fun g : ℕ =>
        (labelAt x.labeling g, sitePos (castM s.A * A⁻¹)⁻¹ (fun i => s.M i i) dv (a * c * f) g)))

theorem colLat_scale (lp : ℝ) (M : M3 ℝ) : ColLattice (lp • M) = (fun v => lp • v) '' ColLattice M := by
  ext v
  constructor
  · rintro ⟨z, hz⟩
    exact ⟨_, ⟨z, rfl⟩, by rw [← hz, Matrix.smul_mulVec]⟩
  · rintro ⟨u, ⟨z, rfl⟩, rfl⟩
    exact ⟨z, by rw [Matrix.smul_mulVec]⟩

/-- C86, one structure. -/
theorem C86_config_is_structure (m : MakeArgs) (mapping : Option (List ℕ)) (rz : Bool) (sys : ReadSystem) (rnd : ℕ → ℕ → ℝ)
    (hA : (plvOf sys).det ≠ 0) (hnD : sys.nD = (dvecsOf sys).length)
    (k : ℕ) (eps : ℚ) (hk : sys.k = some (k : ℤ)) (he : sys.eps = some eps) (he0 : 0 ≤ eps)
    (x : EnumEntry) (t u a b c d e f : ℕ) (s : SnfState) (hx : OfCell x a b c d e f s)
    (hlab : x.labeling.length = a * c * f * (dvecsOf sys).length) (hk' : LabelsBelow k x.labeling)
    (harr : ∀ ch ∈ x.arrowing, ch.isDigit = true ∧ ch.toNat - 48 < 6) (hnarr : x.arrowing.length = x.labeling.length)
    (hmink : m.mink.truth = true → eps < 1 ∧ (eps : ℝ) < |(plvOf sys * castM (hnfMat a b c d e f)).det|)
    (hconf : m.config = .str "t".toList) (hmap : ∀ mp, mapping = some mp → k ≤ mp.length) (sp : Option (List String))
    (hsp : configSpecies { species := m.species, removeZeros := rz, displace := m.displace, mapping := mapping } = .ok sp)
    (lp : ℝ) (names : List String)
    (hlp : latticeParameter sp ((List.range k).map (labelCount x.labeling)) (plvOf sys) sys.nD.toNat true = .ok (lp, names))
    (hdisp : m.displace = 0) (sd : SpaceData)
    (hsd : mapToRealSpace (plvOf sys) (dvecsOf sys) k eps (structOf a b c d e f s x.labeling) m.mink.truth = .ok sd) :
    ∃ C, makeOne m mapping rz sys rnd (outRow (t, u, x)) = some (.ok [.config m.outfile C]) ∧ C.names = names ∧
      ConfigDescribes (plvOf sys) (dvecsOf sys) mapping x lp C := by
  set A := plvOf sys with hAdef
  set dv := dvecsOf sys with hdv
  set H := hnfMat a b c d e f with hH
  set N := x.labeling.length with hN
  obtain ⟨ha, hc, hf, hef⟩ := hx.pos
  have he0' : (0 : ℝ) ≤ (eps : ℝ) := by exact_mod_cast he0
  obtain ⟨c1, c2, c3, -, -, -, c7⟩ := C28_map_real_space A hA dv k a b c d e f ha hc hf hef s hx.smith x.labeling hlab hk' eps m.mink.truth
    (fun h => ⟨he0', by exact_mod_cast (hmink h).1, (hmink h).2⟩) sd hsd
  rw [← hlab] at c1 c2
  have hdetH : (A * castM H).det ≠ 0 := by
    rw [Matrix.det_mul, castM_det, hH, hnfMat_det]
    refine mul_ne_zero hA ?_
    have h0 : 0 < a * c * f := Nat.mul_pos (Nat.mul_pos ha hc) hf
    exact_mod_cast h0.ne'
  have hdet : sd.sLV.det ≠ 0 := by
    obtain ⟨T, hT⟩ := colLat_subset.mp (le_of_eq c7.symm : ColLattice (A * castM H) ⊆ ColLattice sd.sLV.transpose)
    intro h0
    apply hdetH
    rw [hT, Matrix.det_mul, Matrix.det_transpose, h0, zero_mul]
  choose w hw using fun p => C27_cartesian2direct sd.sLV p (eps : ℝ) he0' hdet
  have hstr : StrData k N x.labeling x.arrowing { sd with aBas := sd.aBas.map w } :=
    ⟨c2, by simpa using c1, hk', rfl, hnarr⟩
  have hC := C38_config A sys.nD.toNat k N x.labeling x.arrowing
    { sd with aBas := sd.aBas.map w } { species := m.species, removeZeros := rz, displace := m.displace, mapping := mapping } rnd hstr harr hmap sp hsp lp names hlp
  have hNn : x.size.toNat * sys.nD.toNat = N := by
    rw [hx.size, hnD, hlab, Int.toNat_natCast, Int.toNat_natCast]
  have hmake := makeOne_config_eq m mapping rz sys rnd (outRow (t, u, x)) k eps hk he hconf sd (by rw [structData_row hx]; exact hsd) w
    (fun p _ => (hw p).1) _ (by
      show writeConfig A sys.nD.toNat k (x.size.toNat * sys.nD.toNat) x.labeling x.arrowing _ _ rnd = _
      rw [hNn]; exact hC)
  refine ⟨_, hmake, rfl, a, b, c, d, e, f, s, hx, rfl, ?_, ?_, ?_, ?_⟩
  · simp only [List.map_map]
    rw [List.range'_eq_map_range]
    exact List.map_congr_left (fun j _ => by simp [add_comm])
  · have h1 : (List.range N).map (fun j => mappedLabel mapping (atomLabel x.labeling sd.gIndx j)) = sd.gIndx.map (fun g => mappedLabel mapping (labelAt x.labeling g)) := by
      conv_rhs => rw [show sd.gIndx = (List.range N).map (fun j => sd.gIndx.getD j 0) by rw [← gIndx_length c2, map_getD_range]]
      rw [List.map_map]
      rfl
    rw [List.map_map]
    show ((List.range N).map (fun j => mappedLabel mapping (atomLabel x.labeling sd.gIndx j))).Perm _
    rw [h1]
    have := c2.map (fun g => mappedLabel mapping (labelAt x.labeling g))
    rw [List.map_map] at this
    exact this
  · show ColLattice (lp • sd.sLV).transpose = _
    rw [Matrix.transpose_smul, colLat_scale, c7]
  have hgl : sd.gIndx.length = N := gIndx_length c2
  -- the position written
  have hpos : ∀ j, j < N → configPos x.labeling x.arrowing { sd with aBas := sd.aBas.map w } m.displace lp rnd j = lp • Matrix.vecMul (w (sd.aBas.getD j 0)) sd.sLV := by
    intro j hj
    have hj2 : j < sd.aBas.length := by rw [c1]; exact hj
    unfold configPos
    simp only [hdisp, zero_mul, mul_zero, add_zero]
    rw [Matrix.transpose_smul, Matrix.smul_mulVec, Matrix.mulVec_transpose]
    have e : (sd.aBas.map w).getD j 0 = w (sd.aBas.getD j 0) := by simp [List.getD_eq_getElem?_getD, hj2]
    rw [e]
  have hone : ∀ j, j < N → ∃ g, g < N ∧ sd.gIndx[j]? = some (g : ℤ) ∧
      Matrix.vecMul (w (sd.aBas.getD j 0)) sd.sLV - sitePos (castM s.A * A⁻¹)⁻¹ (fun i => s.M i i) dv (a * c * f) g ∈ ColLattice (A * castM H) := by
    intro j hj
    have hj1 : j < sd.gIndx.length := by rw [hgl]; exact hj
    have hj2 : j < sd.aBas.length := by rw [c1]; exact hj
    obtain ⟨g, hg, hgeq⟩ := List.mem_map.mp (c2.mem_iff.mp (List.getElem_mem hj1))
    have hg' : sd.gIndx[j]? = some (g : ℤ) := by rw [List.getElem?_eq_getElem hj1, ← hgeq]
    refine ⟨g, List.mem_range.mp hg, hg', ?_⟩
    have h3 := c3 j (sd.aBas.getD j 0) (g : ℤ) (by simp [List.getD_eq_getElem?_getD, hj2]) hg'
    obtain ⟨z, hz⟩ := (hw (sd.aBas.getD j 0)).2.2
    have h4 : -(Matrix.vecMul (fun i => (z i : ℝ)) sd.sLV) ∈ ColLattice (A * castM H) := by
      rw [← c7]
      apply colLat_neg
      exact ⟨z, by rw [Matrix.mulVec_transpose]⟩
    rw [hz]
    have : sd.aBas.getD j 0 - Matrix.vecMul (fun i => (z i : ℝ)) sd.sLV - sitePos (castM s.A * A⁻¹)⁻¹ (fun i => s.M i i) dv (a * c * f) g =
        (sd.aBas.getD j 0 - sitePos (castM s.A * A⁻¹)⁻¹ (fun i => s.M i i) dv (a * c * f) g) + -(Matrix.vecMul (fun i => (z i : ℝ)) sd.sLV) := by abel
    rw [this]
    exact colLat_add h3 h4
  have hlat : ColLattice (lp • sd.sLV).transpose = (fun v => lp • v) '' ColLattice (A * castM H) := by
    rw [Matrix.transpose_smul, colLat_scale, c7]
  ext y
  constructor
  · rintro ⟨q, hq, hq1, hq2⟩
    simp only [List.map_map] at hq
    obtain ⟨j, hj, rfl⟩ := List.mem_map.mp hq
    have hjN := List.mem_range.mp hj
    obtain ⟨g, hg, hgj, hl⟩ := hone j hjN
    simp only [Function.comp] at hq1 hq2
    rw [hlat, hpos j hjN] at hq2
    obtain ⟨v, hv, hv2⟩ := hq2
    refine ⟨(labelAt x.labeling g, Matrix.vecMul (w (sd.aBas.getD j 0)) sd.sLV + v), ⟨_, List.mem_map.mpr ⟨g, List.mem_range.mpr hg, rfl⟩, rfl, ?_⟩, ?_⟩
    · have : Matrix.vecMul (w (sd.aBas.getD j 0)) sd.sLV + v - sitePos (castM s.A * A⁻¹)⁻¹ (fun i => s.M i i) dv (a * c * f) g =
          (Matrix.vecMul (w (sd.aBas.getD j 0)) sd.sLV - sitePos (castM s.A * A⁻¹)⁻¹ (fun i => s.M i i) dv (a * c * f) g) + v := by abel
      simp only
      rw [this]
      exact colLat_add hl hv
    · refine Prod.ext ?_ ?_
      · rw [← hq1]
        simp only [atomLabel, List.getD_eq_getElem?_getD, hgj, Option.getD_some]
      · simp only at hv2 ⊢
        rw [smul_add, hv2]
        abel
  · rintro ⟨p, ⟨q, hq, hq1, hq2⟩, rfl⟩
    obtain ⟨g, hg, rfl⟩ := List.mem_map.mp hq
    have hgm : (g : ℤ) ∈ sd.gIndx := c2.mem_iff.mpr (List.mem_map.mpr ⟨g, hg, rfl⟩)
    obtain ⟨j, hj, hje⟩ := List.getElem_of_mem hgm
    have hjN : j < N := by rw [← hgl]; exact hj
    obtain ⟨g', hg', hgj', hl⟩ := hone j hjN
    have : g' = g := by
      rw [List.getElem?_eq_getElem hj, hje] at hgj'
      exact_mod_cast (Option.some.inj hgj').symm
    subst this
    refine ⟨(mappedLabel mapping (atomLabel x.labeling sd.gIndx j), configPos x.labeling x.arrowing { sd with aBas := sd.aBas.map w } m.displace lp rnd j), ?_, ?_, ?_⟩
    · rw [List.map_map]
      exact List.mem_map.mpr ⟨j, List.mem_range.mpr hjN, rfl⟩
    · simp only at hq1 ⊢
      rw [← hq1]
      simp only [atomLabel, List.getD_eq_getElem?_getD, hgj', Option.getD_some]
    · show _ ∈ ColLattice (lp • sd.sLV).transpose
      rw [hlat]
      simp only
      rw [hpos j hjN, ← smul_sub]
      refine ⟨_, ?_, rfl⟩
      have e : p.2 - Matrix.vecMul (w (sd.aBas.getD j 0)) sd.sLV =
          (p.2 - sitePos (castM s.A * A⁻¹)⁻¹ (fun i => s.M i i) dv (a * c * f) g') +
            -(Matrix.vecMul (w (sd.aBas.getD j 0)) sd.sLV - sitePos (castM s.A * A⁻¹)⁻¹ (fun i => s.M i i) dv (a * c * f) g') := by abel
      rw [e]
      exact colLat_add hq2 (colLat_neg hl)

/-- The row `x` can be written to a config file, with lattice parameter `lp`. -/
def ConfigPrintable (A : M3 ℝ) (dv : List V3) (k : ℕ) (m : MakeArgs) (x : EnumEntry) (lp : ℝ) : Prop :=
  ∃ (a b c d e f : ℕ) (s : SnfState), OfCell x a b c d e f s ∧ x.labeling.length = a * c * f * dv.length ∧ LabelsBelow k x.labeling ∧
    (∀ ch ∈ x.arrowing, ch.isDigit = true ∧ ch.toNat - 48 < 6) ∧ x.arrowing.length = x.labeling.length ∧
    (m.mink.truth = true → (1 / 10 ^ 7 : ℝ) < |(A * castM (hnfMat a b c d e f)).det|) ∧ m.displace = 0 ∧
    (∃ sp names, configSpecies { species := m.species, removeZeros := zerosLeft m, displace := m.displace, mapping := m.speciesMapping } = .ok sp ∧
      latticeParameter sp ((List.range k).map (labelCount x.labeling)) A dv.length true = .ok (lp, names)) ∧
    ∃ sd, mapToRealSpace A dv k ((1 / 10 ^ 7 : ℚ) : ℝ) (structOf a b c d e f s x.labeling) m.mink.truth = .ok sd

/-- C86. makeStr -config t on an enum.out written by the enumeration, if the rows asked for can be written: the config file is extended by one structure for each of these rows, in order,
which describes the structure of the row. -/
theorem C86_make_config (p : EnumParams) (now : Str) (l : List EnumEntry) (hlat : p.latVecs.length = 3)
    (hb : p.basisVecs ≠ []) (hnow : '\n' ∉ now) (hfit : ∀ x ∈ l, x.Fits) (hlen : l.length < 10 ^ 11)
    (m : MakeArgs) (sel : Option (List ℤ)) (hsel : selectStructures m.structures = .ok sel) (hs : ∀ w, sel = some w → ∀ i ∈ w, 1 ≤ i)
    (hconf : m.config = .str "t".toList) (hmap : ∀ mp, m.speciesMapping = some mp → p.nspecies ≤ mp.length)
    (hA : (plvOf (sysOf p now)).det ≠ 0) (rnd : ReadStruct → ℕ → ℕ → ℝ) (lp : EnumEntry → ℝ)
    (hx : ∀ x ∈ l, ConfigPrintable (plvOf (sysOf p now)) (dvecsOf (sysOf p now)) p.nspecies m x (lp x)) :
    ∃ cs : List ConfigFile, makeStr (some m) (enumOutFile p now l) rnd = some (.ok (cs.map (OutFile.config m.outfile))) ∧
      List.Forall₂ (fun r C => ConfigDescribes (plvOf (sysOf p now)) (dvecsOf (sysOf p now)) m.speciesMapping r.2.2 (lp r.2.2) C)
        ((enumOutRows l).filter (fun r => Asked sel r.1)) cs := by
  set sys := sysOf p now with hsys
  have hread := enumOut_read p now l sel hlat hb hnow hfit hlen hs
  have hnD : sys.nD = (dvecsOf sys).length := by simp [hsys, dvecsOf, sysOf]
  have hrow : ∀ r ∈ (enumOutRows l).filter (fun r => Asked sel r.1), ∃ o,
      makeOne m m.speciesMapping (zerosLeft m) sys (rnd (outRow r)) (outRow r) = some (.ok o) ∧
      ∃ C, o = [OutFile.config m.outfile C] ∧ ConfigDescribes (plvOf sys) (dvecsOf sys) m.speciesMapping r.2.2 (lp r.2.2) C := by
    intro r hr
    have hmem : r.2.2 ∈ l := (C50_rows_are_the_structures l).mem_iff.mp (List.mem_map.mpr ⟨r, (List.mem_filter.mp hr).1, rfl⟩)
    obtain ⟨a, b, c, d, e, f, s, h1, h2, h3, h4, h5, h6, h7, ⟨sp, names, h8, h8'⟩, sd, h9⟩ := hx _ hmem
    obtain ⟨C, g1, -, g2⟩ := C86_config_is_structure m m.speciesMapping (zerosLeft m) sys (rnd (outRow r)) hA hnD p.nspecies (1 / 10 ^ 7) rfl rfl
      (by norm_num) r.2.2 r.1 r.2.1 a b c d e f s h1 h2 h3 h4 h5 (fun hm => ⟨by norm_num, by have := h6 hm; push_cast; exact this⟩) hconf hmap sp h8 (lp r.2.2) names
      (by rw [hnD, Int.toNat_natCast]; exact h8') h7 sd h9
    exact ⟨_, g1, C, rfl, g2⟩
  obtain ⟨bs, hbs, hF⟩ := run_mapM_forall (fun r => makeOne m m.speciesMapping (zerosLeft m) sys (rnd (outRow r)) (outRow r)) _ _ hrow
  have hmake : makeStr (some m) (enumOutFile p now l) rnd = (pure bs.flatten : Run (List OutFile)) := by
    have hr : ∀ {α : Type} (v : α), runPy (.ok v) = (pure v : Run α) := fun _ => rfl
    unfold makeStr
    simp only [hsel, hr, pure_bind, hread]
    rw [List.mapM_map]
    show (do
      let outs ← ((enumOutRows l).filter (fun r => Asked sel r.1)).mapM (fun r => makeOne m m.speciesMapping (zerosLeft m) sys (rnd (outRow r)) (outRow r))
      pure outs.flatten : Run (List OutFile)) = _
    rw [hbs, pure_bind]
  obtain ⟨cs, hcs, hF2⟩ : ∃ cs : List ConfigFile, bs.flatten = cs.map (OutFile.config m.outfile) ∧
      List.Forall₂ (fun (r : ℕ × ℕ × EnumEntry) C => ConfigDescribes (plvOf sys) (dvecsOf sys) m.speciesMapping r.2.2 (lp r.2.2) C)
        ((enumOutRows l).filter (fun r => Asked sel r.1)) cs := by
    clear hbs hmake hrow
    generalize (enumOutRows l).filter (fun r => Asked sel r.1) = rows at hF ⊢
    induction hF with
    | nil => exact ⟨[], rfl, List.Forall₂.nil⟩
    | cons h _ ih =>
      obtain ⟨C, rfl, h3⟩ := h
      obtain ⟨cs, e1, e2⟩ := ih
      exact ⟨C :: cs, by rw [List.flatten_cons, e1]; rfl, List.Forall₂.cons h3 e2⟩
  exact ⟨cs, by rw [hmake, hcs]; rfl, hF2⟩

/-! ## A case: a structure of two atoms on the simple cubic lattice -/

/-- The options `makeStr 1 1 -config t`, called from Python without reduction. -/
noncomputable def configArgs : MakeArgs := { callArgs with outfile := "train.cfg".toList, config := .str "t".toList }

theorem cubic_config (rnd : ReadStruct → ℕ → ℕ → ℝ) : ∃ s C, makeStr (some configArgs) (enumOutFile cubicParams "now".toList [cubicRow s]) rnd =
      some (.ok [OutFile.config "train.cfg".toList C]) ∧ ConfigDescribes 1 (dvecsOf (sysOf cubicParams "now".toList)) none (cubicRow s) 1 C := by
  obtain ⟨s, hs, hf⟩ := row_smith
  have hd1 : (dvecsOf (sysOf cubicParams "now".toList)).length = 1 := rfl
  have hlab : LabelsBelow 2 (cubicRow s).labeling := by
    intro ch hch
    have : ∀ ch ∈ ['0', '1'], ch.isDigit = true ∧ ch.toNat - 48 < 2 := by decide
    exact this ch hch
  have harr : ∀ ch ∈ (cubicRow s).arrowing, ch = '0' := by
    intro ch hch
    have : ∀ ch ∈ ['0', '0'], ch = '0' := by decide
    exact this ch hch
  obtain ⟨sd, hsd⟩ := C28_returns 1 (dvecsOf (sysOf cubicParams "now".toList)) (by rw [hd1]; norm_num) 2 1 0 1 0 0 2 (by norm_num) (by norm_num) (by norm_num) (by norm_num)
    (Or.inl (by norm_num)) s hs (cubicRow s).labeling (by rw [hd1]; rfl) hlab ((1 / 10 ^ 7 : ℚ) : ℝ)
  obtain ⟨cs, h1, h2⟩ := C86_make_config cubicParams "now".toList [cubicRow s] rfl (by simp [cubicParams]) (by decide)
    (by intro x hx; rw [List.mem_singleton] at hx; rw [hx]; exact hf) (by simp) configArgs (some [1]) (by decide)
    (by rintro w hw i hi; rw [← Option.some.inj hw] at hi; simp at hi; omega) rfl (by intro mp h; cases h) (by rw [cubic_plv]; simp) rnd (fun _ => 1) (by
      intro x hx
      rw [List.mem_singleton] at hx
      subst hx
      rw [cubic_plv]
      exact ⟨1, 0, 1, 0, 0, 2, s, ⟨hs, by norm_num, rfl, rfl, rfl, rfl⟩, by rw [hd1]; rfl, hlab, (fun ch hch => by rw [harr ch hch]; decide), rfl,
        (fun h => absurd h (by decide)), rfl, ⟨none, [], rfl, rfl⟩, sd, hsd⟩)
  have hrows : (enumOutRows [cubicRow s]).filter (fun r => Asked (some [1]) r.1) = [(1, 1, cubicRow s)] := by
    have : [cubicRow s].mergeSort entryLe = [cubicRow s] := List.mergeSort_singleton _
    unfold enumOutRows
    rw [this]
    rfl
  rw [hrows] at h2
  cases h2 with
  | cons h h' =>
    cases h'
    exact ⟨s, _, h1, cubic_plv ▸ h⟩

/-- The hypotheses of C85 for config files are met: in a directory with only this enum.out the call comes to its end, and a second call doubles the file. -/
example (rnd : ReadStruct → ℕ → ℕ → ℝ) : ∃ file d' text d'', makeStrDir configArgs "enum.out".toList rnd [("enum.out".toList, file)] = (pure d' : Run Dir) ∧
    dictGet d' "train.cfg".toList = some text ∧ text ≠ [] ∧ makeStrDir configArgs "enum.out".toList rnd d' = (pure d'' : Run Dir) ∧
    dictGet d'' "train.cfg".toList = some (text ++ text) := by
  obtain ⟨s, C, h, -⟩ := cubic_config rnd
  obtain ⟨st, sys, sts, os, h1, h2, h3, h4⟩ := makeStr_ok h
  have hr : MakeReads configArgs "enum.out".toList [("enum.out".toList, enumOutFile cubicParams "now".toList [cubicRow s])] sys sts := ⟨st, _, h1, rfl, h2⟩
  obtain ⟨h5, h6⟩ := makeLoop_outs sts [("enum.out".toList, enumOutFile cubicParams "now".toList [cubicRow s])] os h3
  rw [← makeStrDir_reads hr] at h6
  have hne : sts ≠ [] := by
    rintro rfl
    cases h5
    cases h4
  have hin : "enum.out".toList ≠ configArgs.outfile := by
    show "enum.out".toList ≠ "train.cfg".toList
    decide
  obtain ⟨text, d'', g1, g2, g3, g4⟩ := C85_config_twice (m := configArgs) rfl hin (by
    show dictGet _ "train.cfg".toList = none
    rw [dictGet_none]
    show "train.cfg".toList ∉ ["enum.out".toList]
    decide) hr hne h6
  exact ⟨_, _, text, d'', h6, g1, g2, g3, g4⟩

/-- The same for POSCAR files: the file vasp.1 is written, and it can be read. -/
example (rnd : ReadStruct → ℕ → ℕ → ℝ) : ∃ file d' text R, makeStrDir callArgs "enum.out".toList rnd [("enum.out".toList, file)] = (pure d' : Run Dir) ∧
    dictGet d' "vasp.1".toList = some text ∧ readPoscarText text = .ok R := by
  obtain ⟨s, P, h, -⟩ := cubic_poscar rnd
  obtain ⟨d', h1, -, h2⟩ := C85_written (m := callArgs) (input := "enum.out".toList) (outs := [("vasp.1".toList, P)]) rfl h (by simp)
    (d := [("enum.out".toList, enumOutFile cubicParams "now".toList [cubicRow s])]) rfl
  obtain ⟨_, _, text, h3, -, R, h4, -⟩ := h2 _ List.mem_cons_self
  exact ⟨_, d', text, R, h1, h3, h4⟩

/-- The hypotheses of `C85_written_cut` are met by the same call, stopped at any moment. -/
example (rnd : ReadStruct → ℕ → ℕ → ℝ) : ∃ file d', makeStrDir callArgs "enum.out".toList rnd [("enum.out".toList, file)] = (pure d' : Run Dir) ∧
    ∀ x ∈ makeStrStops callArgs "enum.out".toList rnd [("enum.out".toList, file)],
      ∃ cut : Str, (∀ f, f ≠ cut → dictGet x f = dictGet [("enum.out".toList, file)] f ∨ dictGet x f = dictGet d' f) ∧
        (dictGet x cut = dictGet [("enum.out".toList, file)] cut ∨ ∃ t t', dictGet x cut = some t ∧ dictGet d' cut = some t' ∧ t <+: t') := by
  obtain ⟨s, P, h, -⟩ := cubic_poscar rnd
  obtain ⟨d', h1, h2⟩ := C85_written_cut (m := callArgs) (input := "enum.out".toList) (outs := [("vasp.1".toList, P)]) rfl h (by simp)
    (d := [("enum.out".toList, enumOutFile cubicParams "now".toList [cubicRow s])]) rfl
  exact ⟨_, d', h1, h2⟩

end Phenum
