import Verif.Props.MakeStr
/-
C51: the POSCAR files written by makeStr describe the structures of enum.out.
-/
namespace Phenum
open Spec

/-- The row of enum.out belongs to the supercell `[[a,0,0],[b,c,0],[d,e,f]]`: it carries its size, its Hermite normal
form, and the Smith normal form and left transform computed for it, as `_enum_out` writes them (enumeration.py:178-186). -/
structure OfCell (x : EnumEntry) (a b c d e f : ℕ) (s : SnfState) : Prop where
  smith : smithNormalForm (hnfMat a b c d e f) = some (.ok s)
  pos : 0 < a ∧ 0 < c ∧ 0 < f ∧ e < f
  size : x.size = (a * c * f : ℕ)
  hnf : x.hnf = [(a : ℤ), b, c, d, e, f]
  snf : x.snf = [s.M 0 0, s.M 1 1, s.M 2 2]
  lt : x.lt = [s.A 0 0, s.A 0 1, s.A 0 2, s.A 1 0, s.A 1 1, s.A 1 2, s.A 2 0, s.A 2 1, s.A 2 2]

/-- The species of the atoms listed in a POSCAR: `counts[0]` times the first species, and so on. -/
def poscarTypes (species counts : List ℕ) : List ℕ := (species.zip counts).flatMap (fun p => List.replicate p.2 p.1)

/-- The atoms of a POSCAR: species and Cartesian position (in units of the scale factor). -/
noncomputable def poscarAtoms (species : List ℕ) (P : Poscar) : List (ℕ × V3) :=
  (poscarTypes species P.counts).zip (P.atoms.map (fun p => Matrix.vecMul p P.cell))

/-- The species listed in the heading: all of them, or those that occur if zeros are removed. -/
def headingSpecies (m : MakeArgs) (rz : Bool) (k : ℕ) (labeling : Str) : List ℕ :=
  if rz = true ∧ m.species.isSome = true then (List.range k).filter (fun i => labelCount labeling i ≠ 0) else List.range k

theorem poscarTypes_all (k : ℕ) (cnt : ℕ → ℕ) :
    poscarTypes (List.range k) ((List.range k).map cnt) = (List.range k).flatMap (fun i => List.replicate (cnt i) i) := by
  unfold poscarTypes
  generalize List.range k = l
  induction l with
  | nil => rfl
  | cons a l ih => rw [List.map_cons, List.zip_cons_cons, List.flatMap_cons, ih, List.flatMap_cons]

theorem poscarTypes_nonzero (k : ℕ) (cnt : ℕ → ℕ) :
    poscarTypes ((List.range k).filter (fun i => cnt i ≠ 0)) (((List.range k).map cnt).filter (fun c => c ≠ 0)) =
      (List.range k).flatMap (fun i => List.replicate (cnt i) i) := by
  unfold poscarTypes
  generalize List.range k = l
  induction l with
  | nil => rfl
  | cons a l ih =>
    rw [List.map_cons, List.flatMap_cons]
    by_cases h : cnt a = 0
    · rw [List.filter_cons_of_neg (by simpa using h), List.filter_cons_of_neg (by simpa using h), ih, h]; rfl
    · rw [List.filter_cons_of_pos (by simpa using h), List.filter_cons_of_pos (by simpa using h), List.zip_cons_cons,
        List.flatMap_cons, ih]

theorem structData_row {x : EnumEntry} {a b c d e f : ℕ} {s : SnfState} (h : OfCell x a b c d e f s) (t u : ℕ) :
    structData (outRow (t, u, x)) = structOf a b c d e f s x.labeling := by
  unfold structData structOf outRow
  simp only [h.size, h.hnf, h.snf, h.lt, Int.toNat_natCast]
  congr 1
  · funext i; fin_cases i <;> rfl
  · funext i j; fin_cases i <;> fin_cases j <;> rfl

/-- What the run of one structure does, when the structure can be mapped to real space. -/
theorem makeOne_eq (m : MakeArgs) (mapping : Option (List ℕ)) (rz : Bool) (sys : ReadSystem) (rnd : ℕ → ℕ → ℝ) (st : ReadStruct)
    (k : ℕ) (eps : ℚ) (hk : sys.k = some (k : ℤ)) (he : sys.eps = some eps) (hconf : m.config = .str "f".toList) (name : Str)
    (hname : poscarName m.outfile st.strN = .ok name) (sd : SpaceData)
    (hsd : mapToRealSpace (plvOf sys) (dvecsOf sys) k eps (structData st) m.mink.truth = .ok sd) (w : V3 → V3)
    (hw : ∀ p ∈ sd.aBas, cartesian2direct sd.sLV p (eps : ℝ) = some (.ok (w p))) (P : Poscar)
    (hP : writePoscar (plvOf sys) sys.nD.toNat k (st.n.toNat * sys.nD.toNat) st.labeling st.directions { sd with aBas := sd.aBas.map w }
      { species := m.species, removeZeros := rz, displace := m.displace, mapping := mapping } rnd = .ok P) :
    makeOne m mapping rz sys rnd st = some (.ok [.poscar name P]) := by
  have h1 : sd.aBas.mapM (fun p => runO (cartesian2direct sd.sLV p (eps : ℝ))) = (pure (sd.aBas.map w) : Run (List V3)) :=
    run_mapM_ok _ _ _ hw
  have hr : ∀ {α : Type} (v : α), runPy (.ok v) = (pure v : Run α) := fun _ => rfl
  unfold makeOne
  simp only [hk, he, getKey, pure_bind, Int.toNat_natCast, hsd, hr, h1, hconf, if_true, hname, hP]
  rfl

/-- C51, one structure. Let the file read give the parent lattice `A` (columns), the basis atoms `dv`, `k` species and
the tolerance `eps`, and let `x` be a row of the file that belongs to a supercell, labelled with species below `k` and
without displaced arrows. If the structure can be mapped to real space (see `C28_returns`), exactly one POSCAR is
written; the rows of its cell generate the superlattice, and its atoms, repeated with the superlattice, are the crystal
that has at the site `g` of the supercell the species given by the character `g` of the labeling. -/
theorem C51_poscar_is_structure (m : MakeArgs) (mapping : Option (List ℕ)) (rz : Bool) (sys : ReadSystem) (rnd : ℕ → ℕ → ℝ)
    (hA : (plvOf sys).det ≠ 0) (hnD : sys.nD = (dvecsOf sys).length)
    (k : ℕ) (eps : ℚ) (hk : sys.k = some (k : ℤ)) (he : sys.eps = some eps) (he0 : 0 ≤ eps)
    (x : EnumEntry) (t u a b c d e f : ℕ) (s : SnfState) (hx : OfCell x a b c d e f s)
    (hlab : x.labeling.length = a * c * f * (dvecsOf sys).length) (hk' : LabelsBelow k x.labeling)
    (harr : ∀ ch ∈ x.arrowing, ch.isDigit = true ∧ ch.toNat - 48 < 7) (hnarr : x.arrowing.length = x.labeling.length)
    (hmink : m.mink.truth = true → eps < 1 ∧ (eps : ℝ) < |(plvOf sys * castM (hnfMat a b c d e f)).det|)
    (hconf : m.config = .str "f".toList) (name : Str) (hname : poscarName m.outfile t = .ok name)
    (lp : ℝ) (names : List String)
    (hlp : latticeParameter m.species ((List.range k).map (labelCount x.labeling)) (plvOf sys) sys.nD.toNat rz = .ok (lp, names))
    (hdisp : m.displace = 0 ∨ ∀ ch ∈ x.arrowing, ch = '0') (sd : SpaceData)
    (hsd : mapToRealSpace (plvOf sys) (dvecsOf sys) k eps (structOf a b c d e f s x.labeling) m.mink.truth = .ok sd) :
    ∃ P, makeOne m mapping rz sys rnd (outRow (t, u, x)) = some (.ok [.poscar name P]) ∧
      P.names = names ∧ P.scale = lp ∧ P.cell.det ≠ 0 ∧
      ColLattice P.cell.transpose = ColLattice (plvOf sys * castM (hnfMat a b c d e f)) ∧
      P.atoms.length = x.labeling.length ∧ P.counts = (headingSpecies m rz k x.labeling).map (labelCount x.labeling) ∧ (poscarTypes (headingSpecies m rz k x.labeling) P.counts).length = x.labeling.length ∧
      Crystal (ColLattice (plvOf sys * castM (hnfMat a b c d e f))) (poscarAtoms (headingSpecies m rz k x.labeling) P) =
        Crystal (ColLattice (plvOf sys * castM (hnfMat a b c d e f))) ((List.range x.labeling.length).map (fun g : ℕ =>
          (labelAt x.labeling g, sitePos (castM s.A * (plvOf sys)⁻¹)⁻¹ (fun i => s.M i i) (dvecsOf sys) (a * c * f) g))) := by
  set A := plvOf sys with hAdef
  set dv := dvecsOf sys with hdv
  set H := hnfMat a b c d e f with hH
  set N := x.labeling.length with hN
  obtain ⟨ha, hc, hf, hef⟩ := hx.pos
  have he0' : (0 : ℝ) ≤ (eps : ℝ) := by exact_mod_cast he0
  obtain ⟨c1, c2, c3, -, -, -, c7⟩ := C28_map_real_space A hA dv k a b c d e f ha hc hf hef s hx.smith x.labeling hlab hk' eps m.mink.truth
    (fun h => ⟨he0', by exact_mod_cast (hmink h).1, (hmink h).2⟩) sd hsd
  rw [← hlab] at c1 c2
  -- the cell is not singular
  have hdetH : (A * castM H).det ≠ 0 := by
    rw [Matrix.det_mul, castM_det, hH, hnfMat_det]
    refine mul_ne_zero hA ?_
    have h0 : 0 < a * c * f := Nat.mul_pos (Nat.mul_pos ha hc) hf
    exact_mod_cast h0.ne'
  have hdet : sd.sLV.det ≠ 0 := by
    obtain ⟨T, hT⟩ := colLat_subset.mp (le_of_eq c7.symm : ColLattice (A * castM H) ⊆ ColLattice sd.sLV.transpose)
    intro h0
    apply hdetH
    rw [hT, Matrix.det_mul, Matrix.det_transpose, h0, zero_mul]
  choose w hw using fun p => C27_cartesian2direct sd.sLV p (eps : ℝ) he0' hdet
  have hstr : StrData k N x.labeling x.arrowing { sd with aBas := sd.aBas.map w } :=
    ⟨c2, by simpa using c1, hk', rfl, hnarr⟩
  obtain ⟨P, order, hP, o1, o2, o3, o4, o5, o6, o7⟩ := C38_poscar A sys.nD.toNat k N x.labeling x.arrowing
    { sd with aBas := sd.aBas.map w } { species := m.species, removeZeros := rz, displace := m.displace, mapping := mapping } rnd hstr harr lp names hlp
  have hNn : x.size.toNat * sys.nD.toNat = N := by
    rw [hx.size, hnD, hlab, Int.toNat_natCast, Int.toNat_natCast]
  have hmake := makeOne_eq m mapping rz sys rnd (outRow (t, u, x)) k eps hk he hconf name hname sd (by rw [structData_row hx]; exact hsd) w
    (fun p _ => (hw p).1) P (by
      show writePoscar A sys.nD.toNat k (x.size.toNat * sys.nD.toNat) x.labeling x.arrowing _ _ rnd = _
      rw [hNn]; exact hP)
  -- the species of the atoms as they are listed
  have htypes : poscarTypes (headingSpecies m rz k x.labeling) P.counts = order.map (atomLabel x.labeling sd.gIndx) := by
    rw [show order.map (atomLabel x.labeling sd.gIndx) = _ from o2, o3]
    unfold headingSpecies
    simp only
    split
    · exact poscarTypes_nonzero k (labelCount x.labeling)
    · exact poscarTypes_all k (labelCount x.labeling)
  have hordlen : order.length = N := by simpa using o1.length_eq
  refine ⟨P, hmake, o6, o5, ?_, ?_, ?_, ?_, ?_, ?_⟩
  · rw [o7]; exact hdet
  · rw [o7]; exact c7
  · rw [o4, List.length_map, hordlen]
  · rw [o3]
    unfold headingSpecies
    simp only
    split
    · rw [List.filter_map]; rfl
    · rfl
  · rw [htypes, List.length_map, hordlen]
  -- the atoms
  have hatoms : poscarAtoms (headingSpecies m rz k x.labeling) P =
      order.map (fun j => (atomLabel x.labeling sd.gIndx j, Matrix.vecMul (w (sd.aBas.getD j 0)) sd.sLV)) := by
    unfold poscarAtoms
    rw [htypes, o4, o7, List.map_map, List.zip_map']
    apply List.map_congr_left
    intro j hj
    have hjN : j < N := List.mem_range.mp (o1.mem_iff.mp hj)
    congr 1
    simp only [Function.comp]
    rw [C37_not_displaced]
    · congr 1
      have hj2 : j < sd.aBas.length := by rw [c1]; exact hjN
      simp [List.getD_eq_getElem?_getD, hj2]
    · rcases hdisp with h | h
      · exact Or.inr h
      · left
        have hj2 : j < x.arrowing.length := by rw [hnarr]; exact hjN
        rw [List.getD_eq_getElem?_getD, List.getElem?_eq_getElem hj2]
        exact h _ (List.getElem_mem hj2)
  rw [hatoms]
  have hgl : sd.gIndx.length = N := gIndx_length c2
  -- one atom
  have hone : ∀ j, j < N → ∃ g, g < N ∧ sd.gIndx[j]? = some (g : ℤ) ∧
      Matrix.vecMul (w (sd.aBas.getD j 0)) sd.sLV - sitePos (castM s.A * A⁻¹)⁻¹ (fun i => s.M i i) dv (a * c * f) g ∈ ColLattice (A * castM H) := by
    intro j hj
    have hj1 : j < sd.gIndx.length := by rw [hgl]; exact hj
    have hj2 : j < sd.aBas.length := by rw [c1]; exact hj
    obtain ⟨g, hg, hgeq⟩ := List.mem_map.mp (c2.mem_iff.mp (List.getElem_mem hj1))
    have hg' : sd.gIndx[j]? = some (g : ℤ) := by rw [List.getElem?_eq_getElem hj1, ← hgeq]
    refine ⟨g, List.mem_range.mp hg, hg', ?_⟩
    have h3 := c3 j (sd.aBas.getD j 0) (g : ℤ) (by simp [List.getD_eq_getElem?_getD, hj2]) hg'
    obtain ⟨z, hz⟩ := (hw (sd.aBas.getD j 0)).2.2
    have h4 : -(Matrix.vecMul (fun i => (z i : ℝ)) sd.sLV) ∈ ColLattice (A * castM H) := by
      rw [← c7]
      apply colLat_neg
      exact ⟨z, by rw [Matrix.mulVec_transpose]⟩
    rw [hz]
    have : sd.aBas.getD j 0 - Matrix.vecMul (fun i => (z i : ℝ)) sd.sLV - sitePos (castM s.A * A⁻¹)⁻¹ (fun i => s.M i i) dv (a * c * f) g =
        (sd.aBas.getD j 0 - sitePos (castM s.A * A⁻¹)⁻¹ (fun i => s.M i i) dv (a * c * f) g) + -(Matrix.vecMul (fun i => (z i : ℝ)) sd.sLV) := by abel
    rw [this]
    exact colLat_add h3 h4
  apply crystal_eq
  · intro y hy
    obtain ⟨j, hj, rfl⟩ := List.mem_map.mp hy
    obtain ⟨g, hg, hgj, hl⟩ := hone j (List.mem_range.mp (o1.mem_iff.mp hj))
    refine ⟨_, List.mem_map.mpr ⟨g, List.mem_range.mpr hg, rfl⟩, ?_, hl⟩
    simp only [atomLabel, List.getD_eq_getElem?_getD, hgj, Option.getD_some]
  · intro y hy
    obtain ⟨g, hg, rfl⟩ := List.mem_map.mp hy
    have hgm : (g : ℤ) ∈ sd.gIndx := c2.mem_iff.mpr (List.mem_map.mpr ⟨g, hg, rfl⟩)
    obtain ⟨j, hj, hje⟩ := List.getElem_of_mem hgm
    have hjN : j < N := by rw [← hgl]; exact hj
    obtain ⟨g', hg', hgj', hl⟩ := hone j hjN
    have : g' = g := by
      rw [List.getElem?_eq_getElem hj, hje] at hgj'
      exact_mod_cast (Option.some.inj hgj').symm
    subst this
    refine ⟨_, List.mem_map.mpr ⟨j, o1.mem_iff.mpr (List.mem_range.mpr hjN), rfl⟩, ?_, hl⟩
    simp only [atomLabel, List.getD_eq_getElem?_getD, hgj', Option.getD_some]

/-- The row `x` can be turned into a POSCAR, for the parent lattice `A`, basis atoms `dv` and `k` species: it belongs to a
supercell, is labelled with species below `k`, has no displaced arrows, can be mapped to real space, and the lattice
parameter can be found. -/
def Printable (A : M3 ℝ) (dv : List V3) (k : ℕ) (m : MakeArgs) (rz : Bool) (x : EnumEntry) : Prop :=
  ∃ (a b c d e f : ℕ) (s : SnfState), OfCell x a b c d e f s ∧ x.labeling.length = a * c * f * dv.length ∧ LabelsBelow k x.labeling ∧
    (∀ ch ∈ x.arrowing, ch.isDigit = true ∧ ch.toNat - 48 < 7) ∧ x.arrowing.length = x.labeling.length ∧
    (m.mink.truth = true → (1 / 10 ^ 7 : ℝ) < |(A * castM (hnfMat a b c d e f)).det|) ∧
    (m.displace = 0 ∨ ∀ ch ∈ x.arrowing, ch = '0') ∧
    (∃ r, latticeParameter m.species ((List.range k).map (labelCount x.labeling)) A dv.length rz = .ok r) ∧
    ∃ sd, mapToRealSpace A dv k ((1 / 10 ^ 7 : ℚ) : ℝ) (structOf a b c d e f s x.labeling) m.mink.truth = .ok sd

/-- The POSCAR describes the structure of the row `x`: its scale factor and names are those of `latticeParameter`, its cell
generates the superlattice of `x`, its numbers of atoms are those of the labels, and its atoms repeated with the superlattice are the crystal that has at site `g` of
the supercell the species given by the character `g` of the labeling. -/
def Describes (A : M3 ℝ) (dv : List V3) (k : ℕ) (m : MakeArgs) (rz : Bool) (x : EnumEntry) (P : Poscar) : Prop :=
  ∃ (a b c d e f : ℕ) (s : SnfState), OfCell x a b c d e f s ∧
    latticeParameter m.species ((List.range k).map (labelCount x.labeling)) A dv.length rz = .ok (P.scale, P.names) ∧ P.cell.det ≠ 0 ∧
    ColLattice P.cell.transpose = ColLattice (A * castM (hnfMat a b c d e f)) ∧ P.atoms.length = x.labeling.length ∧
    P.counts = (headingSpecies m rz k x.labeling).map (labelCount x.labeling) ∧
    (poscarTypes (headingSpecies m rz k x.labeling) P.counts).length = x.labeling.length ∧
    Crystal (ColLattice (A * castM (hnfMat a b c d e f))) (poscarAtoms (headingSpecies m rz k x.labeling) P) =
      Crystal (ColLattice (A * castM (hnfMat a b c d e f))) ((List.range x.labeling.length).map (fun g : ℕ =>
        (labelAt x.labeling g, sitePos (castM s.A * A⁻¹)⁻¹ (fun i => s.M i i) dv (a * c * f) g)))

theorem run_mapM_forall {α β : Type} (f : α → Run β) (R : α → β → Prop) (l : List α) (h : ∀ a ∈ l, ∃ b, f a = some (.ok b) ∧ R a b) :
    ∃ bs, l.mapM f = (pure bs : Run (List β)) ∧ List.Forall₂ R l bs := by
  induction l with
  | nil => exact ⟨[], rfl, List.Forall₂.nil⟩
  | cons a l ih =>
    obtain ⟨b, hb, hR⟩ := h a List.mem_cons_self
    obtain ⟨bs, hbs, hF⟩ := ih (fun x hx => h x (List.mem_cons_of_mem _ hx))
    refine ⟨b :: bs, ?_, List.Forall₂.cons hR hF⟩
    rw [List.mapM_cons, show f a = (pure b : Run β) from hb, hbs]
    rfl

/-- The lattice that makeStr reads from the file: that of the enumeration, to the seven decimals printed. -/
theorem C51_lattice_read (p : EnumParams) (now : Str) (hlat : p.latVecs.length = 3) (i j : Fin 3) :
    |plvOf (sysOf p now) i j - (((p.latVecs.getD j 0) i : ℚ) : ℝ)| ≤ 1 / 2 / 10 ^ 7 := by
  obtain ⟨v1, v2, v3, hv⟩ : ∃ v1 v2 v3, p.latVecs = [v1, v2, v3] := by
    match h : p.latVecs, hlat with
    | [v1, v2, v3], _ => exact ⟨v1, v2, v3, rfl⟩
  have key : ∀ q : ℚ, |((read7 q : ℚ) : ℝ) - (q : ℝ)| ≤ 1 / 2 / 10 ^ 7 := by
    intro q
    have := read7_near q
    have h2 : ((|read7 q - q| : ℚ) : ℝ) ≤ ((1 / 2 / 10 ^ 7 : ℚ) : ℝ) := by exact_mod_cast this
    push_cast at h2
    exact h2
  unfold plvOf sysOf
  simp only [hv]
  fin_cases j <;> fin_cases i <;> exact key _

/-- C51. Running makeStr on the file written by the enumeration: if the rows asked for can be turned into POSCARs, one
POSCAR is written for each of them, in the order of the file, under the name made from its number, and it describes the
structure of the row. -/
theorem C51_make_structures (p : EnumParams) (now : Str) (l : List EnumEntry) (hlat : p.latVecs.length = 3)
    (hb : p.basisVecs ≠ []) (hnow : '\n' ∉ now) (hfit : ∀ x ∈ l, x.Fits) (hlen : l.length < 10 ^ 11)
    (m : MakeArgs) (sel : Option (List ℤ)) (hsel : selectStructures m.structures = .ok sel) (hs : ∀ w, sel = some w → ∀ i ∈ w, 1 ≤ i)
    (hconf : m.config = .str "f".toList) (hname : ∀ n : ℕ, ∃ name, poscarName m.outfile n = .ok name)
    (hA : (plvOf (sysOf p now)).det ≠ 0) (rnd : ReadStruct → ℕ → ℕ → ℝ)
    (rz : Bool) (hrz : rz = (if m.removeZeros = .str "t".toList then true else m.removeZeros.truth))
    (hx : ∀ x ∈ l, Printable (plvOf (sysOf p now)) (dvecsOf (sysOf p now)) p.nspecies m rz x) :
    ∃ outs, makeStr (some m) (enumOutFile p now l) rnd = some (.ok outs) ∧
      List.Forall₂ (fun r o => ∃ name P, o = OutFile.poscar name P ∧ poscarName m.outfile (r.1 : ℕ) = .ok name ∧
        Describes (plvOf (sysOf p now)) (dvecsOf (sysOf p now)) p.nspecies m rz r.2.2 P)
        ((enumOutRows l).filter (fun r => Asked sel r.1)) outs := by
  set sys := sysOf p now with hsys
  have hread := enumOut_read p now l sel hlat hb hnow hfit hlen hs
  have hnD : sys.nD = (dvecsOf sys).length := by simp [hsys, dvecsOf, sysOf]
  have hrow : ∀ r ∈ (enumOutRows l).filter (fun r => Asked sel r.1), ∃ o,
      makeOne m m.speciesMapping rz sys (rnd (outRow r)) (outRow r) = some (.ok o) ∧
      ∃ name P, o = [OutFile.poscar name P] ∧ poscarName m.outfile (r.1 : ℕ) = .ok name ∧
        Describes (plvOf sys) (dvecsOf sys) p.nspecies m rz r.2.2 P := by
    intro r hr
    have hmem : r.2.2 ∈ l := (C50_rows_are_the_structures l).mem_iff.mp (List.mem_map.mpr ⟨r, (List.mem_filter.mp hr).1, rfl⟩)
    obtain ⟨a, b, c, d, e, f, s, h1, h2, h3, h4, h5, h6, h7, ⟨q, h8⟩, sd, h9⟩ := hx _ hmem
    obtain ⟨name, hn⟩ := hname r.1
    obtain ⟨P, g1, q1, q2, g2, g3, g4, g4', g5, g6⟩ := C51_poscar_is_structure m m.speciesMapping rz sys (rnd (outRow r)) hA hnD p.nspecies (1 / 10 ^ 7) rfl rfl
      (by norm_num) r.2.2 r.1 r.2.1 a b c d e f s h1 h2 h3 h4 h5 (fun hm => ⟨by norm_num, by have := h6 hm; push_cast; exact this⟩) hconf name hn q.1 q.2
      (by rw [hnD, Int.toNat_natCast]; exact h8) h7 sd h9
    exact ⟨_, g1, name, P, rfl, hn, a, b, c, d, e, f, s, h1, by rw [h8, q1, q2], g2, g3, g4, g4', g5, g6⟩
  obtain ⟨bs, hbs, hF⟩ := run_mapM_forall (fun r => makeOne m m.speciesMapping rz sys (rnd (outRow r)) (outRow r)) _ _ hrow
  have hmake : makeStr (some m) (enumOutFile p now l) rnd = (pure bs.flatten : Run (List OutFile)) := by
    have hr : ∀ {α : Type} (v : α), runPy (.ok v) = (pure v : Run α) := fun _ => rfl
    unfold makeStr
    simp only [hsel, hr, pure_bind, hread, ← hrz]
    rw [List.mapM_map]
    show (do
      let outs ← ((enumOutRows l).filter (fun r => Asked sel r.1)).mapM (fun r => makeOne m m.speciesMapping rz sys (rnd (outRow r)) (outRow r))
      pure outs.flatten : Run (List OutFile)) = _
    rw [hbs, pure_bind]
  refine ⟨bs.flatten, hmake, ?_⟩
  clear hbs hmake hrow
  generalize (enumOutRows l).filter (fun r => Asked sel r.1) = rows at hF
  induction hF with
  | nil => exact List.Forall₂.nil
  | cons h _ ih =>
    obtain ⟨name, P, rfl, h2, h3⟩ := h
    exact List.Forall₂.cons ⟨name, P, rfl, h2, h3⟩ ih

/-- C52. The files written have different names, so that none is overwritten. -/
theorem C52_no_overwriting (l : List EnumEntry) (sel : Option (List ℤ)) (pre post outfile : Str) (hpre : ∀ c ∈ pre, c ≠ '{' ∧ c ≠ '}')
    (hpost : ∀ c ∈ post, c ≠ '{' ∧ c ≠ '}') (ho : outfile = pre ++ '{' :: '}' :: post ∨ outfile = pre) :
    (((enumOutRows l).filter (fun r => Asked sel r.1)).map (fun r => poscarName outfile (r.1 : ℕ))).Nodup := by
  have h1 : ((enumOutRows l).map (fun r => r.1)).Nodup := by
    obtain ⟨sz, h, -⟩ := enumOutRows_eq l
    rw [h, numberEntries_count]
    exact List.nodup_range'
  have h2 : (((enumOutRows l).filter (fun r => Asked sel r.1)).map (fun r => r.1)).Nodup :=
    h1.sublist (List.filter_sublist.map _)
  rw [show (fun r : ℕ × ℕ × EnumEntry => poscarName outfile (r.1 : ℕ)) = (fun n : ℕ => poscarName outfile n) ∘ (fun r => r.1) from rfl, ← List.map_map]
  exact h2.map (fun a b hab => by
    have := C52_names_differ pre post hpre hpost outfile ho a b hab
    exact_mod_cast this)

/-! ## A case: a structure of two atoms on the simple cubic lattice -/

/-- The simple cubic lattice with one atom per cell and two species. -/
def cubicParams : EnumParams :=
  { bulk := true, latVecs := [![1, 0, 0], ![0, 1, 0], ![0, 0, 1]], basisVecs := [![0, 0, 0]], nspecies := 2, sizes := [2, 2], restricted := false }

theorem cubic_plv : plvOf (sysOf cubicParams "now".toList) = 1 := by
  have h1 : read7 1 = 1 := by decide +kernel
  have h0 : read7 0 = 0 := by decide +kernel
  ext i j
  unfold plvOf sysOf cubicParams
  fin_cases i <;> fin_cases j <;> simp [vals7, h0, h1]

/-- A row of the file with its supercell. -/
def cubicRow (s : SnfState) : EnumEntry :=
  ⟨2, [1, 0, 1, 0, 0, 2], [s.M 0 0, s.M 1 1, s.M 2 2], [s.A 0 0, s.A 0 1, s.A 0 2, s.A 1 0, s.A 1 1, s.A 1 2, s.A 2 0, s.A 2 1, s.A 2 2], "01".toList, "00".toList⟩

theorem row_smith : ∃ s, smithNormalForm (hnfMat 1 0 1 0 0 2) = some (.ok s) ∧ (cubicRow s).Fits := by
  have h : (match snfFuel 20 (hnfMat 1 0 1 0 0 2) with
    | some (.ok s) => decide ((∀ z ∈ (cubicRow s).snf, 0 ≤ z ∧ z < 100) ∧ (∀ z ∈ (cubicRow s).lt, -1000 < z ∧ z < 10000))
    | _ => false) = true := by decide +kernel
  split at h
  · rename_i s hs
    rw [decide_eq_true_eq] at h
    exact ⟨s, snfFuel_eq _ _ _ hs, ⟨by simp [cubicRow], ⟨rfl, h.1⟩, ⟨rfl, by simp [cubicRow]⟩, ⟨rfl, h.2⟩, ⟨by simp [cubicRow], show ∀ ch ∈ ['0', '1'], isWs ch = false by decide⟩, ⟨by simp [cubicRow], show ∀ ch ∈ ['0', '0'], isWs ch = false by decide⟩⟩⟩
  · exact absurd h (by simp)

/-- The options `makeStr 1 1`, called from Python without reduction. -/
noncomputable def callArgs : MakeArgs :=
  { structures := some ["1".toList, "1".toList], displace := 0, mink := .bool false, species := none, speciesMapping := none,
    outfile := "vasp.{}".toList, config := .str "f".toList, removeZeros := .str "f".toList }

theorem cubic_poscar (rnd : ReadStruct → ℕ → ℕ → ℝ) : ∃ s P, makeStr (some callArgs) (enumOutFile cubicParams "now".toList [cubicRow s]) rnd =
      some (.ok [OutFile.poscar "vasp.1".toList P]) ∧ Describes 1 (dvecsOf (sysOf cubicParams "now".toList)) 2 callArgs true (cubicRow s) P := by
  obtain ⟨s, hs, hf⟩ := row_smith
  have hd1 : (dvecsOf (sysOf cubicParams "now".toList)).length = 1 := rfl
  have hlab : LabelsBelow 2 (cubicRow s).labeling := by
    intro ch hch
    have : ∀ ch ∈ ['0', '1'], ch.isDigit = true ∧ ch.toNat - 48 < 2 := by decide
    exact this ch hch
  have harr : ∀ ch ∈ (cubicRow s).arrowing, ch = '0' := by
    intro ch hch
    have : ∀ ch ∈ ['0', '0'], ch = '0' := by decide
    exact this ch hch
  obtain ⟨sd, hsd⟩ := C28_returns 1 (dvecsOf (sysOf cubicParams "now".toList)) (by rw [hd1]; norm_num) 2 1 0 1 0 0 2 (by norm_num) (by norm_num) (by norm_num) (by norm_num)
    (Or.inl (by norm_num)) s hs (cubicRow s).labeling (by rw [hd1]; rfl) hlab ((1 / 10 ^ 7 : ℚ) : ℝ)
  have hname : ∀ n : ℕ, poscarName callArgs.outfile n = .ok ("vasp.".toList ++ natStr n) := by
    intro n
    have := (C52_name "vasp.".toList [] (by decide) (by simp) n).1
    rw [List.append_nil] at this
    exact this
  obtain ⟨outs, h1, h2⟩ := C51_make_structures cubicParams "now".toList [cubicRow s] rfl (by simp [cubicParams]) (by decide)
    (by intro x hx; rw [List.mem_singleton] at hx; rw [hx]; exact hf) (by simp) callArgs (some [1]) (by decide)
    (by rintro w hw i hi; rw [← Option.some.inj hw] at hi; simp at hi; omega) rfl (fun n => ⟨_, hname n⟩) (by rw [cubic_plv]; simp) rnd true (by decide) (by
      intro x hx
      rw [List.mem_singleton] at hx
      subst hx
      rw [cubic_plv]
      exact ⟨1, 0, 1, 0, 0, 2, s, ⟨hs, by norm_num, rfl, rfl, rfl, rfl⟩, by rw [hd1]; rfl, hlab, (fun ch hch => by rw [harr ch hch]; decide), rfl,
        (fun h => absurd h (by decide)), Or.inl rfl, ⟨_, rfl⟩, sd, hsd⟩)
  have hrows : (enumOutRows [cubicRow s]).filter (fun r => Asked (some [1]) r.1) = [(1, 1, cubicRow s)] := by
    have : [cubicRow s].mergeSort entryLe = [cubicRow s] := List.mergeSort_singleton _
    unfold enumOutRows
    rw [this]
    rfl
  rw [hrows] at h2
  cases h2 with
  | cons h h' =>
    cases h'
    obtain ⟨name, P, rfl, g1, g2⟩ := h
    refine ⟨s, P, ?_, cubic_plv ▸ g2⟩
    rw [h1]
    rw [hname] at g1
    rw [← Except.ok.inj g1, natStr_lt (by norm_num)]
    rfl

end Phenum
