import Verif.Props.ProgramRanges
import Verif.Props.Elements
/-
C79: from lattice.in to POSCAR files with the names of the elements and the volumes of these.
-/
namespace Phenum
open Spec

/-- The options of makeStr: all structures, one POSCAR file for each, with the given names of the species; the name of the files has one field for the number, or none. -/
structure Spec.NamedPoscars (m : MakeArgs) (els : List String) : Prop where
  structures : selectStructures m.structures = .ok none
  config : m.config = .str "f".toList
  species : m.species = some els
  outfile : ∃ pre post : Str, (∀ c ∈ pre, c ≠ '{' ∧ c ≠ '}') ∧ (∀ c ∈ post, c ≠ '{' ∧ c ≠ '}') ∧ (m.outfile = pre ++ '{' :: '}' :: post ∨ m.outfile = pre)

/-- different elements of the table -/
structure Spec.KnownElements (els : List String) : Prop where
  different : els.Nodup
  known : ∀ e ∈ els, ∃ v, elementVolume e = .ok v

/-- The atoms listed in a POSCAR with names: the first `counts[0]` positions are of the first name, and so on; the positions are Cartesian, in units of the scale factor. -/
noncomputable def Spec.namedAtoms (P : Poscar) : List (String × V3) :=
  ((P.names.zip P.counts).flatMap (fun p => List.replicate p.2 p.1)).zip (P.atoms.map (fun p => Matrix.vecMul p P.cell))

/-- The POSCAR shows the decoration `ψ` of the sites `S` with the elements `els`: its atoms, repeated with its cell, are an atom of the element `els[t]` at each site `x` with
`ψ x = (t + 1, not displaced)`, and nothing else. Its scale factor is the mean over its atoms of the lattice parameters at which the parent cell `A` (with `nb` atoms) has the volume
of the element. The heading lists all elements, or those that occur (`rz`), in the order given. -/
structure Spec.PoscarOf (A : M3 ℝ) (nb : ℕ) (S : Set V3) (els : List String) (rz : Bool) (P : Poscar) (ψ : Decoration) : Prop where
  cell : P.cell.det ≠ 0
  numbers : P.names.length = P.counts.length ∧ P.counts.sum = P.atoms.length
  heading : if rz = true then P.names.Sublist els ∧ 0 ∉ P.counts else P.names = els
  atoms : {a : String × V3 | ∃ b ∈ namedAtoms P, b.1 = a.1 ∧ a.2 - b.2 ∈ ColLattice P.cell.transpose} = {a | a.2 ∈ S ∧ ∃ t, els[t]? = some a.1 ∧ ψ a.2 = (t + 1, 0)}
  scale : ∀ param : String → ℝ, (∀ e ∈ els, IsElementParam A nb e (param e)) → P.scale * P.atoms.length = ((namedAtoms P).map (fun a => param a.1)).sum

theorem flatMap_replicate_map (h : List ℕ) (f : ℕ → String) (cnt : ℕ → ℕ) :
    ((h.map f).zip (h.map cnt)).flatMap (fun p => List.replicate p.2 p.1) = (poscarTypes h (h.map cnt)).map f := by
  unfold poscarTypes
  induction h with
  | nil => rfl
  | cons a h ih => simp only [List.map_cons, List.zip_cons_cons, List.flatMap_cons, List.map_append, List.map_replicate, ih]

theorem types_sum (h : List ℕ) (g : ℕ → ℝ) (cnt : ℕ → ℕ) : ((poscarTypes h (h.map cnt)).map g).sum = (h.map (fun i => (cnt i : ℝ) * g i)).sum := by
  unfold poscarTypes
  induction h with
  | nil => rfl
  | cons a h ih => simp only [List.map_cons, List.zip_cons_cons, List.flatMap_cons, List.map_append, List.map_replicate, List.sum_append, List.sum_replicate, ih, List.sum_cons, nsmul_eq_mul]

theorem types_length (h : List ℕ) (cnt : ℕ → ℕ) : (poscarTypes h (h.map cnt)).length = (h.map cnt).sum := by
  unfold poscarTypes
  induction h with
  | nil => rfl
  | cons a h ih => simp only [List.map_cons, List.zip_cons_cons, List.flatMap_cons, List.length_append, List.length_replicate, ih, List.sum_cons]

theorem sum_filter_absent (l : List ℕ) (cnt : ℕ → ℕ) (g : ℕ → ℝ) :
    ((l.filter (fun i => cnt i ≠ 0)).map (fun i => (cnt i : ℝ) * g i)).sum = (l.map (fun i => (cnt i : ℝ) * g i)).sum := by
  induction l with
  | nil => rfl
  | cons a l ih =>
    by_cases h : cnt a = 0
    · rw [List.filter_cons_of_neg (by simpa using h), ih, List.map_cons, List.sum_cons, h]; simp
    · rw [List.filter_cons_of_pos (by simpa using h), List.map_cons, List.map_cons, List.sum_cons, List.sum_cons, ih]

theorem element_params {els : List String} (hel : KnownElements els) {A : M3 ℝ} (hA : A.det ≠ 0) {nb : ℕ} (hnb : 0 < nb) :
    ∃ param : String → ℝ, ∀ e ∈ els, IsElementParam A nb e (param e) := by
  have hex : ∀ e, ∃ a : ℝ, e ∈ els → IsElementParam A nb e a := by
    intro e
    by_cases he : e ∈ els
    · obtain ⟨v, hv⟩ := hel.known e he
      obtain ⟨a, -, ha⟩ := latParamElement_spec hA hnb hv
      exact ⟨a, fun _ => ha⟩
    · exact ⟨0, fun h => absurd h he⟩
  choose param h using hex
  exact ⟨param, h⟩

section
variable {n k : ℕ} {u : M3 ℤ} {snf : SnfState} {z : Config}

theorem describes_named {P0 : M3 ℝ} (hP : P0.det ≠ 0) {bas : List V3} (hbas : 0 < bas.length) (hn : 1 ≤ n) (hk : k ≤ 10) (hu : u ∈ findAllHNFs n) (hs : smithNormalForm u = some (.ok snf))
    (hp : IsNumbering (CrystalSites (ColLattice P0.transpose) bas) (SupLat P0 u) (bas.length * n)
      (sitePos (castM snf.A * P0.transpose⁻¹)⁻¹ (fun i => snf.M i i) bas n))
    (hlen : z.length = bas.length * n) (hz : ∀ p ∈ z, p.1 = -1 ∧ 1 ≤ p.2 ∧ p.2 ≤ k) {m : MakeArgs} {els : List String} (hel : KnownElements els) (hlk : els.length = k)
    (hsp : m.species = some els) {rz : Bool} {Q : Poscar}
    (hQ : Describes P0.transpose bas k m rz (enumEntry (hnfNumbers u) snf z) Q) {ψ : Decoration} (hψ : RowDescribes P0 bas (enumEntry (hnfNumbers u) snf z) ψ) :
    PoscarOf P0.transpose bas.length (CrystalSites (ColLattice P0.transpose) bas) els rz Q ψ := by
  obtain ⟨h1, h2, h3⟩ := describes_crystal hP hn hk hu hs hp hlen hz hQ hψ
  obtain ⟨-, -, -, -, -, -, -, -, q1, -, -, -, q2, -⟩ := hQ
  set lab := (enumEntry (hnfNumbers u) snf z).labeling with hlab
  set cnt := labelCount lab with hcnt
  set h := headingSpecies m rz k lab with hh
  set f : ℕ → String := fun i => els.getD i "" with hf
  have hcs : ((List.range k).map cnt).sum = z.length := labelCounts_sum hk hz (hnfNumbers u)
  have hhead : h = if rz = true then (List.range k).filter (fun i => cnt i ≠ 0) else List.range k := by
    rw [hh]
    unfold headingSpecies
    rw [hsp]
    simp [hcnt]
  have hels : els = (List.range k).map f := by
    apply List.ext_getElem
    · simp [hlk]
    · intro i h1 h2
      simp [hf, h1]
  have hAt : P0.transpose.det ≠ 0 := by rw [Matrix.det_transpose]; exact hP
  have hpos : 0 < ((List.range k).map cnt).sum := by rw [hcs, hlen]; exact Nat.mul_pos hbas hn
  have hnames : Q.names = h.map f ∧ ∀ param : String → ℝ, (∀ e ∈ els, IsElementParam P0.transpose bas.length e (param e)) →
      Q.scale * ((List.range k).map cnt).sum = ((List.range k).map (fun i => (cnt i : ℝ) * param (f i))).sum := by
    have hve : ∀ param : String → ℝ, (∀ e ∈ els, IsElementParam P0.transpose bas.length e (param e)) →
        Q.names = h.map f ∧ Q.scale * ((List.range k).map cnt).sum = ((List.range k).map (fun i => (cnt i : ℝ) * param (f i))).sum := by
      intro param hpar
      obtain ⟨a, v1, v2, -⟩ := C42_vegard els ((List.range k).map cnt) (by simp [hlk]) P0.transpose hAt bas.length hbas rz param hpar hpos
      rw [hsp, v1] at q1
      have e := Prod.mk.inj (Except.ok.inj q1)
      have hz2 : els.zip ((List.range k).map cnt) = (List.range k).map (fun i => (f i, cnt i)) := by
        conv_lhs => rw [hels]
        exact List.zip_map' ..
      rw [hz2] at e v2
      refine ⟨?_, ?_⟩
      · rw [← e.2, hhead, List.filter_map, List.map_map]
        cases rz with
        | false =>
          rw [List.filter_eq_self.mpr (by intro i _; simp)]
          rfl
        | true =>
          rw [if_pos rfl]
          have : (fun i => decide (cnt i ≠ 0)) = (fun p : String × ℕ => decide (0 < p.2) || !true) ∘ (fun i => (f i, cnt i)) := by
            funext i
            simp [Nat.pos_iff_ne_zero]
          rw [← this]
          rfl
      · rw [← e.1, v2, List.map_map]
        rfl
    obtain ⟨param, hpar⟩ := element_params hel hAt hbas
    exact ⟨(hve param hpar).1, fun p hp => (hve p hp).2⟩
  have hatoms : namedAtoms Q = (poscarAtoms h Q).map (fun a => (f a.1, a.2)) := by
    unfold namedAtoms poscarAtoms
    rw [hnames.1, q2, flatMap_replicate_map]
    rw [List.zip_map_left]
    rfl
  have hsum : (h.map cnt).sum = Q.atoms.length := by rw [← types_length, ← q2, h2]
  refine ⟨h1, ⟨by rw [hnames.1, q2, List.length_map, List.length_map], by rw [q2, hsum]⟩, ?_, ?_, ?_⟩
  · split
    · rename_i hr
      rw [hnames.1, hhead, if_pos hr]
      refine ⟨?_, ?_⟩
      · conv_rhs => rw [hels]
        exact List.filter_sublist.map f
      · rw [q2, hhead, if_pos hr]
        intro hc
        obtain ⟨i, hi, e⟩ := List.mem_map.mp hc
        have := (List.mem_filter.mp hi).2
        simp at this
        exact this e
    · rename_i hr
      rw [hnames.1, hhead, if_neg hr, ← hels]
  · rw [hatoms]
    ext ⟨e, x⟩
    simp only [Set.mem_setOf_eq, List.mem_map]
    constructor
    · rintro ⟨_, ⟨⟨t, y⟩, hb, rfl⟩, rfl, hx⟩
      have hc : (t, x) ∈ Crystal (ColLattice Q.cell.transpose) (poscarAtoms h Q) := ⟨(t, y), hb, rfl, hx⟩
      rw [h3] at hc
      have ht : t ∈ h := by
        have := (List.of_mem_zip hb).1
        unfold poscarTypes at this
        obtain ⟨p, hp, hr⟩ := List.mem_flatMap.mp this
        rw [List.eq_of_mem_replicate hr]
        exact (List.of_mem_zip hp).1
      have htk : t < k := by
        rw [hhead] at ht
        split at ht
        · exact List.mem_range.mp (List.mem_filter.mp ht).1
        · exact List.mem_range.mp ht
      refine ⟨hc.1, t, ?_, hc.2⟩
      have : t < els.length := by omega
      simp [hf, this]
    · rintro ⟨hx, t, he, hψx⟩
      have hc : (t, x) ∈ Crystal (ColLattice Q.cell.transpose) (poscarAtoms h Q) := by rw [h3]; exact ⟨hx, hψx⟩
      obtain ⟨⟨t', y⟩, hb, rfl, hy⟩ := hc
      refine ⟨_, ⟨(t', y), hb, rfl⟩, ?_, hy⟩
      simp only at he
      simp [hf, he]
  · intro param hpar
    have e1 : ((namedAtoms Q).map (fun a => param a.1)).sum = ((List.range k).map (fun i => (cnt i : ℝ) * param (f i))).sum := by
      rw [hatoms, List.map_map]
      have : (poscarAtoms h Q).map ((fun a : String × V3 => param a.1) ∘ fun a => (f a.1, a.2)) = (poscarTypes h (h.map cnt)).map (fun i => param (f i)) := by
        unfold poscarAtoms
        rw [show ((fun a : String × V3 => param a.1) ∘ fun a : ℕ × V3 => (f a.1, a.2)) = (fun i => param (f i)) ∘ Prod.fst from rfl, ← List.map_map,
          List.map_fst_zip (by rw [h2, List.length_map]), q2]
      rw [this, types_sum, hhead]
      split
      · exact sum_filter_absent (List.range k) cnt (fun i => param (f i))
      · rfl
    have e2 : ((List.range k).map cnt).sum = Q.atoms.length := by
      rw [← hsum, hhead]
      split
      · have := sum_filter_absent (List.range k) cnt (fun _ => 1)
        simp only [mul_one] at this
        have e : ∀ l : List ℕ, (l.map (fun i => (cnt i : ℝ))).sum = (((l.map cnt).sum : ℕ) : ℝ) := fun l => by
          rw [Nat.cast_list_sum, List.map_map]; rfl
        rw [e, e] at this
        exact_mod_cast this.symm
      · rfl
    rw [e1, ← hnames.2 param hpar, e2]

end

/-- auxiliary: makeStr with the names of elements on an enum.out whose rows are known -/
theorem named_of_rows {lat : LatticeIn} {P0 : Matrix (Fin 3) (Fin 3) ℚ} {b0 : List (Fin 3 → ℚ)} {hi k : ℕ}
    (hcell : Usable (realMat P0) (realVecs b0) (realVecs b0) true) (hprim : PrimitiveCell (realMat P0) (realVecs b0)) (hspec : lat.nspecies.toNat = k)
    (hk3 : k ≤ 3) (h7 : hi ≤ 7) (hsize : b0.length * hi ≤ 18)
    (hdec : ∀ i j, SevenDecimals (P0 i j)) (hdec' : ∀ v ∈ b0, ∀ i, SevenDecimals (v i)) {now : Str} (hnow : '\n' ∉ now) {rows : List EnumEntry} (r3 : rows.Nodup)
    {E : Decoration → Prop} (r4 : ∀ row ∈ rows, RowOfCell b0.length 1 hi (fun n => concsFree n k b0.length) row ∧ ∃ ψ, RowDescribes (realMat P0) (realVecs b0) row ψ ∧ E ψ)
    {D : Decoration → Prop} (r5 : ∀ χ, D χ → ∃! row, row ∈ rows ∧ ∃ ψ, RowDescribes (realMat P0) (realVecs b0) row ψ ∧
            SameDecoration (ColLattice (realMat P0).transpose) (realVecs b0) χ ψ) {els : List String} (hel : KnownElements els) (hlk : els.length = k) :
    ∀ m : MakeArgs, NamedPoscars m els → CanReduce (realMat P0).transpose hi m.mink.truth → ∀ rnd : ReadStruct → ℕ → ℕ → ℝ,
        ∃ outs : List (Str × Poscar), makeStr (some m) (enumOutFile (lat.enumParams (P0, b0)) now rows) rnd = some (.ok (outs.map (fun o => OutFile.poscar o.1 o.2))) ∧
          (outs.map (·.1)).Nodup ∧
          (∀ o ∈ outs, ∃ ψ, E ψ ∧ PoscarOf (realMat P0).transpose b0.length (CrystalSites (ColLattice (realMat P0).transpose) (realVecs b0)) els
            (if m.removeZeros = .str "t".toList then true else m.removeZeros.truth) o.2 ψ) ∧
          ∀ χ, D χ → ∃! o, o ∈ outs ∧ ∃ ψ, PoscarOf (realMat P0).transpose b0.length (CrystalSites (ColLattice (realMat P0).transpose) (realVecs b0)) els
              (if m.removeZeros = .str "t".toList then true else m.removeZeros.truth) o.2 ψ ∧
              SameDecoration (ColLattice (realMat P0).transpose) (realVecs b0) χ ψ := by
  intro m hm hred rnd
  have hb0 : 0 < b0.length := by
    have := List.length_pos_iff.mpr hcell.nonempty
    rwa [realVecs_length] at this
  have hAt : (realMat P0).transpose.det ≠ 0 := by rw [Matrix.det_transpose]; exact hcell.det
  obtain ⟨param, hpar⟩ := element_params hel hAt hb0
  refine files_of_rows hcell hspec hk3 h7 hsize hdec hdec' hnow r3 r4 r5 m hm.structures hm.config hm.outfile hred ?_
    (fun Q ψ => PoscarOf (realMat P0).transpose b0.length (CrystalSites (ColLattice (realMat P0).transpose) (realVecs b0)) els
      (if m.removeZeros = .str "t".toList then true else m.removeZeros.truth) Q ψ) ?_ ?_ rnd
  · intro rz concs hl hs
    rw [hm.species]
    obtain ⟨a, h, -⟩ := C42_vegard els concs (by omega) _ hAt b0.length hb0 rz param hpar hs
    exact ⟨_, h⟩
  · intro n u snf z h1 h2 h3 h4 h6 hz Q ψ hQ hψ
    have := describes_named hcell.det (by rw [realVecs_length]; exact hb0) h1 (by omega) h3 h4 (numbering_hnf hcell hprim h1 (by omega) h3 h4)
      (by rw [realVecs_length]; exact h6) hz hel hlk hm.species hQ hψ
    rw [realVecs_length] at this
    exact this
  · intro Q ψ ψ' h0 hψ x hx l hlk' hl
    have hlt : l < els.length := by omega
    have hm1 : (els[l], x) ∈ {a : String × V3 | a.2 ∈ CrystalSites (ColLattice (realMat P0).transpose) (realVecs b0) ∧ ∃ t, els[t]? = some a.1 ∧ ψ a.2 = (t + 1, 0)} :=
      ⟨hx, l, by simp [hlt], hl⟩
    rw [← h0.atoms, hψ.atoms] at hm1
    obtain ⟨-, t, ht, hψt⟩ := hm1
    have htl : t < els.length := by
      by_contra hcon
      rw [List.getElem?_eq_none (by omega)] at ht
      cases ht
    rw [List.getElem?_eq_getElem htl] at ht
    have := (List.Nodup.getElem_inj_iff hel.different).mp (Option.some.inj ht)
    rw [← this]
    exact hψt

section
variable {fl : ℚ → ℚ} {δ : ℝ} {text : Str} {lat : LatticeIn} {P0 : Matrix (Fin 3) (Fin 3) ℚ} {b0 : List (Fin 3 → ℚ)} {hi k : ℕ} {ranges : List ConcRange} {d : ℤ} {els : List String}

/-- auxiliary: without restrictions, each row describes a crystal of the kind asked for -/
theorem free_crystals_at (h : CrystalInput text lat P0 b0 1 hi k) (hfree : lat.restricted = false) (hk3 : k ≤ 3) (hsize : b0.length * hi ≤ 20) {tol : Tol} (ht : ExactTol P0 b0 hi tol) :
    ∀ (w : World) (a : Args) (lattice : Str) (dir : Dir), (∀ l, (w.listdir l).Perm l) →
        PlainCall a lattice false → FreshDir lattice text dir →
      ∃ (rows : List EnumEntry) (dir' : Dir), scriptEnum w tol a dir = (pure dir' : Run Dir) ∧
        dictGet dir' "enum.out".toList = some (enumOutFile (lat.enumParams (P0, b0)) w.now rows) ∧ rows.Nodup ∧
        (∀ row ∈ rows, RowOfCell b0.length 1 hi (fun n => concsFree n k b0.length) row ∧
          ∃ ψ, RowDescribes (realMat P0) (realVecs b0) row ψ ∧ AllowedCrystal (realMat P0) (realVecs b0) hi k [] ψ) ∧
        ∀ χ, AllowedCrystal (realMat P0) (realVecs b0) hi k [] χ →
          ∃! row, row ∈ rows ∧ ∃ ψ, RowDescribes (realMat P0) (realVecs b0) row ψ ∧
            SameDecoration (ColLattice (realMat P0).transpose) (realVecs b0) χ ψ := by
  have hb : 0 < b0.length := by
    have := List.length_pos_iff.mpr h.cell.nonempty
    rwa [realVecs_length] at this
  have hhi : hi < 2 ^ 24 := by
    have := Nat.le_mul_of_pos_left hi hb
    have : hi ≤ 20 := by omega
    exact lt_of_le_of_lt this (by norm_num)
  have hal : lat.arrowFractions = List.replicate lat.nspecies.toNat 0 := free_fractions hfree
  intro w a lattice d hw ha hd
  have hin := free_input h hfree hhi
  obtain ⟨rows, d', r1, r2, r3, r4, r5⟩ := crystals_rows hin hk3 (by rw [hal]; simp) hsize ht (Set.mem_univ _) w a lattice d hw ha hd
  refine ⟨rows, d', r1, r2, r3.nodup, fun row hrow => ⟨(r4 row hrow).1, ?_⟩, fun χ hχ => ?_⟩
  · obtain ⟨n, u, snf, z, h1, h2, h3, h4, h5, -⟩ := (r4 row hrow).1
    obtain ⟨n', h1', h2', hsz, c, hc, ψ, q1, q2, q3, -⟩ := r3.valid row hrow
    have hn : n' = n := by
      rw [h5, entry_size h1 h3] at hsz
      exact_mod_cast hsz.symm
    subst hn
    rw [h5, rowLattice_entry h1 h3] at q2 q3
    have hdet := findAll_det h1 h3
    have hab : u.det.natAbs = n' := by rw [hdet]; rfl
    obtain ⟨pos, z', hp, hdr, hco⟩ := q3
    refine ⟨ψ, q1, u, by rw [hab]; exact h1, by rw [hab]; exact h2, q2, ?_, pos, by rw [hab]; exact hp, by simp⟩
    intro x hx
    obtain ⟨j, ⟨hj, hm⟩, -⟩ := hp.unique x hx
    obtain ⟨p, e1, e2⟩ := hdr.2 x hx j hj hm
    have hmem := List.mem_of_getElem? e1
    have hpl := (plain_iff_composed (no_arrows (by rw [hal]; intro x hx; exact (List.eq_of_mem_replicate hx).ge) (by rw [hal]; simp) c) z').mpr hco
    have hs := hco.species p hmem
    rw [((C25_concs_complete n' k b0.length).2 c).mp hc |>.1] at hs
    rw [e2]
    refine ⟨?_, hs⟩
    simp [siteValue, hpl.1 p hmem]
  · obtain ⟨M, m1, m2, hper, hsp, -⟩ := hχ
    refine r5 M m1 m2 χ hper hsp (fun M' c _ _ _ _ c1 c2 _ => ?_)
    rw [(C25_concs_complete _ k b0.length).2]
    exact ⟨c1, by rw [c2, mul_comm]⟩

/-- What makeStr makes of the file with the names `els`: it writes POSCAR files with different names; each shows a crystal of the kind asked for, and every such crystal
is, up to a symmetry of the parent crystal, shown by exactly one of them. -/
def Spec.OneNamedPoscarEach (P0 : Matrix (Fin 3) (Fin 3) ℚ) (b0 : List (Fin 3 → ℚ)) (hi k : ℕ) (ranges : List ConcRange) (els : List String) (file : Str) : Prop :=
  ∀ m : MakeArgs, NamedPoscars m els → CanReduce (realMat P0).transpose hi m.mink.truth → ∀ (rnd : ReadStruct → ℕ → ℕ → ℝ) (rz : Bool),
    rz = (if m.removeZeros = .str "t".toList then true else m.removeZeros.truth) →
    ∃ outs : List (Str × Poscar), makeStr (some m) file rnd = some (.ok (outs.map (fun o => OutFile.poscar o.1 o.2))) ∧ (outs.map (·.1)).Nodup ∧
      (∀ o ∈ outs, ∃ ψ, AllowedCrystal (realMat P0) (realVecs b0) hi k ranges ψ ∧
        PoscarOf (realMat P0).transpose b0.length (CrystalSites (ColLattice (realMat P0).transpose) (realVecs b0)) els rz o.2 ψ) ∧
      ∀ χ, AllowedCrystal (realMat P0) (realVecs b0) hi k ranges χ →
        ∃! o, o ∈ outs ∧ ∃ ψ, PoscarOf (realMat P0).transpose b0.length (CrystalSites (ColLattice (realMat P0).transpose) (realVecs b0)) els rz o.2 ψ ∧
          SameDecoration (ColLattice (realMat P0).transpose) (realVecs b0) χ ψ

/-- C61. Without restrictions, with the tolerances of the code: each row describes a crystal with the species `1 .. k` that is periodic with respect to some superlattice of at most `hi` cells,
and every such crystal is, up to a symmetry of the parent crystal, described by exactly one row. -/
theorem C61_nothing_else (h : CrystalInput text lat P0 b0 1 hi k) (hfree : lat.restricted = false) (hk3 : k ≤ 3) (hsize : b0.length * hi ≤ 20)
    {K K' : ℝ} {g D : ℕ} (hc : Coarse (realMat P0) (realVecs b0) K K' g D (1 / 10 ^ 7)) :
    ∀ (w : World) (a : Args) (lattice : Str) (dir : Dir), (∀ l, (w.listdir l).Perm l) →
        PlainCall a lattice false → FreshDir lattice text dir →
      ∃ (rows : List EnumEntry) (dir' : Dir), scriptEnum w shippedTol a dir = (pure dir' : Run Dir) ∧
        dictGet dir' "enum.out".toList = some (enumOutFile (lat.enumParams (P0, b0)) w.now rows) ∧ rows.Nodup ∧
        (∀ row ∈ rows, ∃ ψ, RowDescribes (realMat P0) (realVecs b0) row ψ ∧ AllowedCrystal (realMat P0) (realVecs b0) hi k [] ψ) ∧
        ∀ χ, AllowedCrystal (realMat P0) (realVecs b0) hi k [] χ →
          ∃! row, row ∈ rows ∧ ∃ ψ, RowDescribes (realMat P0) (realVecs b0) row ψ ∧
            SameDecoration (ColLattice (realMat P0).transpose) (realVecs b0) χ ψ := by
  intro w a lattice dir hw ha hdir
  obtain ⟨rows, dir', r1, r2, r3, r4, r5⟩ := free_crystals_at h hfree hk3 hsize (coarse_exact h.cell.det hc (size_hi h hsize)) w a lattice dir hw ha hdir
  exact ⟨rows, dir', r1, r2, r3, fun row hrow => (r4 row hrow).2, r5⟩

/-- C79. From lattice.in with ranges of concentrations to POSCAR files with the names of elements, with the tolerances of the code: exactly one POSCAR is written for each crystal asked for,
with these elements on its sites, and scaled to the mean lattice parameter of its atoms. -/
theorem C79_named_poscars (h : CrystalInput text lat P0 b0 1 hi k) (hr : RangesInput lat k ranges d) (hk3 : k ≤ 3) (hna : lat.arrowFractions.sum = 0) (h7 : hi ≤ 7)
    (hsize : b0.length * hi ≤ 18) (hdec : ∀ i j, SevenDecimals (P0 i j)) (hdec' : ∀ v ∈ b0, ∀ i, SevenDecimals (v i))
    (hne : ∃ n c, 1 ≤ n ∧ n ≤ hi ∧ InConcRanges ranges (b0.length * n) c) (hd : d ≤ 10 ^ 8) (hel : KnownElements els) (hlk : els.length = k)
    {K K' : ℝ} {g D : ℕ} (hc : Coarse (realMat P0) (realVecs b0) K K' g D (1 / 10 ^ 7)) :
    ∀ (w : World) (a : Args) (lattice : Str) (dir : Dir), (∀ l, (w.listdir l).Perm l) → '\n' ∉ w.now →
        PlainCall a lattice false → FreshDir lattice text dir →
      ∃ (file : Str) (dir' : Dir), scriptEnum w shippedTol a dir = (pure dir' : Run Dir) ∧ dictGet dir' "enum.out".toList = some file ∧
        OneNamedPoscarEach P0 b0 hi k ranges els file := by
  intro w a lattice dir hw hnow ha hdir
  have hd' : (d : ℚ) ≤ 10 ^ 8 := by exact_mod_cast hd
  obtain ⟨rows, dir', r1, r2, r3, r4, r5⟩ := ranges_crystals_at h hr hk3 hna (by omega) hne (coarse_exact h.cell.det hc (size_hi h (by omega)))
    (show (0 : ℚ) ≤ 1 / 10 ^ 10 by norm_num) (show (1 / 10 ^ 10 : ℚ) * 20 * d < 1 by linarith) w a lattice dir hw ha hdir
  refine ⟨_, dir', r1, r2, fun m hm hred rnd rz hrz => ?_⟩
  subst hrz
  exact named_of_rows h.cell h.primitive (by rw [h.species.1]; simp) hk3 h7 hsize hdec hdec' hnow r3 r4 r5 hel hlk m hm hred rnd

/-- C79. The same without restrictions. -/
theorem C79_named_free (h : CrystalInput text lat P0 b0 1 hi k) (hfree : lat.restricted = false) (hk3 : k ≤ 3) (h7 : hi ≤ 7)
    (hsize : b0.length * hi ≤ 18) (hdec : ∀ i j, SevenDecimals (P0 i j)) (hdec' : ∀ v ∈ b0, ∀ i, SevenDecimals (v i)) (hel : KnownElements els) (hlk : els.length = k)
    {K K' : ℝ} {g D : ℕ} (hc : Coarse (realMat P0) (realVecs b0) K K' g D (1 / 10 ^ 7)) :
    ∀ (w : World) (a : Args) (lattice : Str) (dir : Dir), (∀ l, (w.listdir l).Perm l) → '\n' ∉ w.now →
        PlainCall a lattice false → FreshDir lattice text dir →
      ∃ (file : Str) (dir' : Dir), scriptEnum w shippedTol a dir = (pure dir' : Run Dir) ∧ dictGet dir' "enum.out".toList = some file ∧
        OneNamedPoscarEach P0 b0 hi k [] els file := by
  intro w a lattice dir hw hnow ha hdir
  obtain ⟨rows, dir', r1, r2, r3, r4, r5⟩ := free_crystals_at h hfree hk3 (by omega) (coarse_exact h.cell.det hc (size_hi h (by omega))) w a lattice dir hw ha hdir
  refine ⟨_, dir', r1, r2, fun m hm hred rnd rz hrz => ?_⟩
  subst hrz
  exact named_of_rows h.cell h.primitive (by rw [h.species.1]; simp) hk3 h7 hsize hdec hdec' hnow r3 r4 r5 hel hlk m hm hred rnd

/-- C79. The same when enumeration.py has rounding errors (makeStr is computed exactly): every run writes the same enum.out. -/
theorem C79_named_noise (h : CrystalInput text lat P0 b0 1 hi k) (hr : RangesInput lat k ranges d) (hk3 : k ≤ 3) (hna : lat.arrowFractions.sum = 0) (h7 : hi ≤ 7)
    (hle : ∀ r ∈ ranges, max r.1 r.2.1 ≤ d) (hsize : b0.length * hi ≤ 18) (hdec : ∀ i j, SevenDecimals (P0 i j)) (hdec' : ∀ v ∈ b0, ∀ i, SevenDecimals (v i))
    (hne : ∃ n c, 1 ≤ n ∧ n ≤ hi ∧ InConcRanges ranges (b0.length * n) c) (hd : d ≤ 10 ^ 8) (hel : KnownElements els) (hlk : els.length = k)
    {K K' : ℝ} {g D : ℕ} (h0 : 0 ≤ δ) (hlt : δ < 1 / 10 ^ 10) (hc : Coarse (realMat P0) (realVecs b0) K K' g D (1 / 10 ^ 7 + δ)) (hfl : RoundsToNearest fl) :
    ∀ (w : World) (a : Args) (lattice : Str) (dir : Dir), (∀ l, (w.listdir l).Perm l) → '\n' ∉ w.now →
        PlainCall a lattice false → FreshDir lattice text dir →
      ∃ (file : Str) (dir' : Dir), AlwaysReturns (scriptEnumN fl δ w shippedTol a dir) dir' ∧ dictGet dir' "enum.out".toList = some file ∧
        OneNamedPoscarEach P0 b0 hi k ranges els file := by
  intro w a lattice dir hw hnow ha hdir
  obtain ⟨file, dir', r1, r2⟩ := C79_named_poscars h hr hk3 hna h7 hsize hdec hdec' hne hd hel hlk (coarse_mono hc (by norm_num) (by linarith)) w a lattice dir hw hnow ha hdir
  exact ⟨file, dir', C74_same_files_ranges h hr hle hd (by omega) (Or.inl hna) hne h0 hlt hc hfl (arrowsKept_zero hfl (sum_zero hr.fractions hna) _)
    (numbersFit_small hna hk3 (by omega)) w a lattice false dir dir' hw ha hdir r1, r2⟩

/-- C79. The same without restrictions, with rounding errors in enumeration.py. -/
theorem C79_named_free_noise (h : CrystalInput text lat P0 b0 1 hi k) (hfree : lat.restricted = false) (hk3 : k ≤ 3) (h7 : hi ≤ 7)
    (hsize : b0.length * hi ≤ 18) (hdec : ∀ i j, SevenDecimals (P0 i j)) (hdec' : ∀ v ∈ b0, ∀ i, SevenDecimals (v i)) (hel : KnownElements els) (hlk : els.length = k)
    {K K' : ℝ} {g D : ℕ} (h0 : 0 ≤ δ) (hlt : δ < 1 / 10 ^ 10) (hc : Coarse (realMat P0) (realVecs b0) K K' g D (1 / 10 ^ 7 + δ)) (hfl : RoundsToNearest fl) :
    ∀ (w : World) (a : Args) (lattice : Str) (dir : Dir), (∀ l, (w.listdir l).Perm l) → '\n' ∉ w.now →
        PlainCall a lattice false → FreshDir lattice text dir →
      ∃ (file : Str) (dir' : Dir), AlwaysReturns (scriptEnumN fl δ w shippedTol a dir) dir' ∧ dictGet dir' "enum.out".toList = some file ∧
        OneNamedPoscarEach P0 b0 hi k [] els file := by
  intro w a lattice dir hw hnow ha hdir
  obtain ⟨file, dir', r1, r2⟩ := C79_named_free h hfree hk3 h7 hsize hdec hdec' hel hlk (coarse_mono hc (by norm_num) (by linarith)) w a lattice dir hw hnow ha hdir
  exact ⟨file, dir', C74_same_files h hfree (by omega) h0 hlt hc hfl (numbersFit_small (by rw [free_fractions hfree]; simp) hk3 (by omega)) w a lattice false dir dir' hw ha hdir r1, r2⟩

end

theorem alNi_known : KnownElements ["Al", "Ni"] := by
  refine ⟨by decide, ?_⟩
  have h : ∀ e ∈ ["Al", "Ni"], (elementVolume e).isOk = true := by decide +kernel
  intro e he
  have := h e he
  cases hv : elementVolume e with
  | ok v => exact ⟨v, rfl⟩
  | error x => rw [hv] at this; cases this

/-- makeStr for all structures with the elements Al and Ni, leaving out absent elements -/
noncomputable def alNiArgs : MakeArgs :=
  { structures := some ["all".toList], displace := 0, mink := .bool false, species := some ["Al", "Ni"], speciesMapping := none,
    outfile := "vasp.{}".toList, config := .str "f".toList, removeZeros := .str "t".toList }

/-- C79 for the simple cubic lattice with one or two cells and between one and three quarters of each element: the two programs write exactly one POSCAR of alternating layers of Al and Ni. -/
example (w : World) (hw : ∀ l, (w.listdir l).Perm l) (hnow : '\n' ∉ w.now) (rnd : ReadStruct → ℕ → ℕ → ℝ) :
    ∃ (file : Str) (d' : Dir),
      scriptEnum w shippedTol ⟨false, true, "lattice.in".toList, none, none, none, none, false, none, false, none⟩
        [("notes.txt".toList, []), ("lattice.in".toList, scrText)] = (pure d' : Run Dir) ∧
      dictGet d' "enum.out".toList = some file ∧
      ∃ outs : List (Str × Poscar), makeStr (some alNiArgs) file rnd = some (.ok (outs.map (fun o => OutFile.poscar o.1 o.2))) ∧
        (∃! o, o ∈ outs ∧ ∃ ψ, PoscarOf (1 : M3 ℝ).transpose 1 (CrystalSites (ColLattice (1 : M3 ℝ).transpose) [0]) ["Al", "Ni"] true o.2 ψ ∧
          SameDecoration (ColLattice (1 : M3 ℝ).transpose) [0] layers ψ) := by
  have h0 : SevenDecimals 0 := ⟨0, by norm_num⟩
  have h1 : SevenDecimals 1 := ⟨10 ^ 7, by norm_num⟩
  obtain ⟨file, d', r1, r2, r3⟩ := C79_named_poscars scr_crystal scr_ranges (by norm_num) (by rw [scr_fractions]; simp) (by norm_num) (by simp)
    (by intro i j; fin_cases i <;> fin_cases j <;> first | exact h0 | exact h1)
    (by
      intro v hv i
      rw [List.mem_singleton] at hv
      subst hv
      fin_cases i <;> exact h0) ⟨2, [1, 1], by norm_num, le_refl _, scr_some⟩ (by norm_num) alNi_known rfl (decimal_coarse sc_decimal) w
    ⟨false, true, "lattice.in".toList, none, none, none, none, false, none, false, none⟩ "lattice.in".toList [("notes.txt".toList, []), ("lattice.in".toList, scrText)] hw hnow
    (by constructor <;> rfl) (by
      refine ⟨by decide +kernel, ?_, by decide +kernel⟩
      have : ∀ f ∈ ["notes.txt".toList, "lattice.in".toList], ¬ f.head? = some 'p' := by decide +kernel
      exact fun f hf h => this f hf h.2)
  refine ⟨file, d', r1, r2, ?_⟩
  obtain ⟨outs, q1, -, -, q4⟩ := r3 alNiArgs ⟨by decide, rfl, rfl, "vasp.".toList, [], by decide, by simp, Or.inl rfl⟩ (fun h => absurd h (by decide)) rnd true rfl
  rw [realVecs_zero, realMat_sc] at q4
  exact ⟨outs, q1, q4 layers scr_layers⟩

/-- C40. The fractions of displaced atoms that the programs use: without restrictions, or if the file switches the arrows off, they are all 0; otherwise the fraction of each species is the
fourth number of its line, or 0 if there is none. -/
theorem C40_fractions_of_file (lat : LatticeIn) (i : ℕ) :
    (lat.restricted = false ∨ lat.arrows = false → ∀ a ∈ lat.arrowFractions, a = 0) ∧
    (lat.restricted = true → lat.arrowFractions.length = lat.concs.length ∧
      ∀ lo hi d a : ℚ, lat.concs[i]? = some [lo, hi, d, a] → lat.arrows = true → lat.arrowFractions[i]? = some a) ∧
    (∀ lo hi d : ℚ, lat.restricted = true → lat.concs[i]? = some [lo, hi, d] → lat.arrowFractions[i]? = some 0) := by
  unfold LatticeIn.arrowFractions getArrowConcs
  refine ⟨fun h a ha => ?_, fun h => ?_, fun lo hi d h hc => ?_⟩
  · split at ha
    · rename_i hr
      obtain ⟨c, -, rfl⟩ := List.mem_map.mp ha
      rw [hr] at h
      have : lat.arrows = false := by simpa using h
      rw [this]; simp
    · exact List.eq_of_mem_replicate ha
  · rw [if_pos h]
    refine ⟨by simp, fun lo hi d a hc ha => ?_⟩
    rw [List.getElem?_map, hc, ha]
    rfl
  · rw [if_pos h, List.getElem?_map, hc]
    rfl

/-- C78 and C79 apply to files that switch the arrows off, whatever stands in the fourth column -/
theorem C78_arrows_off {lat : LatticeIn} (h : lat.arrows = false) : lat.arrowFractions.sum = 0 :=
  List.sum_eq_zero (fun a ha => (C40_fractions_of_file lat 0).1 (Or.inr h) a ha)

/-- the file of the examples with fractions of displaced atoms, arrows switched off -/
example : ({ scrLat with concs := [[1, 3, 4, 1 / 2], [3, 1, 4, 1]] } : LatticeIn).arrowFractions.sum = 0 := C78_arrows_off rfl

/-- and switched on -/
example : ({ scrLat with concs := [[1, 3, 4, 1 / 2], [3, 1, 4, 1]], arrows := true } : LatticeIn).arrowFractions[1]? = some 1 :=
  ((C40_fractions_of_file { scrLat with concs := [[1, 3, 4, 1 / 2], [3, 1, 4, 1]], arrows := true } 1).2.1 rfl).2 3 1 4 1 rfl rfl

/-- C37. In a config file the arrow with number `a` of the enumeration (written as the digit `a + 1`) moves its atom along the direction of the next arrow, `a + 1`, and an atom without
arrow along the direction of arrow 0, by the displacement asked for in units of the lattice parameter, changed by the rattle. -/
theorem C37_config_directions (labeling arrows : Str) (sd : SpaceData) (displace lp : ℝ) (rnd : ℕ → ℕ → ℝ) (j c : ℕ) (hc : c < 6) (hj : arrows.getD j '0' = digitChar c)
    (v : Fin 3 → ℤ) (hv : IsArrowDir c v) :
    configPos labeling arrows sd displace lp rnd j = (lp • sd.sLV).transpose.mulVec (sd.aBas.getD j 0) +
      ((1 + rnd (atomLabel labeling sd.gIndx j) j) * (displace * lp)) • (fun i => (v i : ℝ)) := by
  have hd : dirAt configDirs (digitChar c) = v := by
    unfold IsArrowDir at hv
    interval_cases c <;> (funext i; fin_cases i <;> simp_all [dirAt, configDirs, digitChar] <;> rfl)
  funext i
  unfold configPos
  rw [hj, hd]
  simp

/-- arrow 3 of the enumeration, down the second axis, is written as `4` and moves the atom up the third -/
example (sd : SpaceData) (displace lp : ℝ) : configPos "0".toList "4".toList sd displace lp (fun _ _ => 0) 0 =
    (lp • sd.sLV).transpose.mulVec (sd.aBas.getD 0 0) + ((1 + 0) * (displace * lp)) • (fun i => ((![0, 0, 1] i : ℤ) : ℝ)) :=
  C37_config_directions "0".toList "4".toList sd displace lp (fun _ _ => 0) 0 4 (by norm_num) rfl ![0, 0, 1] (by unfold IsArrowDir; simp)

end Phenum
