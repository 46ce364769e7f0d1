import Verif.Props.PoscarNames
import Verif.Props.MakeConfig
import Verif.Props.Extras
/-
C88: from lattice.in to a config file: the two programs enumeration.py and makeStr -config t one after the other.
-/
namespace Phenum
open Spec

/-- The species given to makeStr for `k` labels: none; one known element for each label; or a mapping of the labels to different elements of another number of known elements. -/
def Spec.SpeciesGiven (k : ℕ) : Option (List String) → Option (List ℕ) → Prop
  | none, none => True
  | some sp, none => sp.length = k ∧ ∀ e ∈ sp, ∃ v, elementVolume e = .ok v
  | some sp, some mp => mp.length = k ∧ mp.Nodup ∧ sp.length ≠ k ∧ (∀ i ∈ mp, i < sp.length) ∧ ∀ e ∈ sp, ∃ v, elementVolume e = .ok v
  | none, some _ => False

/-- The options of makeStr: all structures, written to one config file, without displacements. -/
structure Spec.AllConfigs (m : MakeArgs) (k : ℕ) : Prop where
  structures : selectStructures m.structures = .ok none
  config : m.config = .str "t".toList
  displace : m.displace = 0
  species : SpeciesGiven k m.species m.speciesMapping

/-- The number written for the atoms of species `t` (counted from 0). -/
def Spec.typeWritten (mapping : Option (List ℕ)) (t : ℕ) : Option ℕ :=
  match mapping with
  | none => some t
  | some mp => mp[t]?

/-- The structure of a config file shows the decoration `ψ` of the sites `S`: its atoms are numbered from 1 and, repeated with its cell, are an atom of the number belonging to species
`t` at the (enlarged) place of each site `x` with `ψ x = (t + 1, not displaced)`, and nothing else. Places are enlarged by 1 if no species are given, and otherwise by the mean over
the atoms of the lattice parameters at which the parent cell `A` (with `nb` atoms) has the volume of the element whose number is written. -/
structure Spec.ConfigOf (A : M3 ℝ) (nb : ℕ) (S : Set V3) (species : Option (List String)) (mapping : Option (List ℕ)) (C : ConfigFile) (ψ : Decoration) : Prop where
  cell : C.cell.det ≠ 0
  numbers : C.size = C.atoms.length ∧ C.atoms.map (·.id) = List.range' 1 C.size
  atoms : ∃ lp : ℝ, 0 < lp ∧ (species = none → lp = 1) ∧ (∀ sp, species = some sp → ScaledForSpecies A nb sp C lp) ∧
    Crystal (ColLattice C.cell.transpose) (C.atoms.map (fun a => (a.typ, a.pos))) =
      {a | ∃ x ∈ S, ∃ t, ψ x = (t + 1, 0) ∧ typeWritten mapping t = some a.1 ∧ a.2 = lp • x}

/-- the species whose lattice parameters are used -/
theorem species_given {k : ℕ} {sp : Option (List String)} {mp : Option (List ℕ)} (h : SpeciesGiven k sp mp) (rz : Bool) (disp : ℝ) :
    ∃ els, configSpecies { species := sp, removeZeros := rz, displace := disp, mapping := mp } = .ok els ∧ (sp = none → els = none) ∧
      (∀ s, sp = some s → ∃ l, els = some l ∧ l.length = k ∧ (∀ t, t < k → l.getD t "" = s.getD (mappedLabel mp t) "") ∧ (∀ e ∈ l, e ∈ s) ∧
        ∀ e ∈ s, ∃ v, elementVolume e = .ok v) ∧ (∀ l, mp = some l → l.length = k ∧ l.Nodup) := by
  match sp, mp, h with
  | none, none, _ => exact ⟨none, rfl, fun _ => rfl, by simp, by simp⟩
  | some s, none, h =>
    refine ⟨some s, rfl, by simp, ?_, by simp⟩
    rintro s' e
    cases e
    exact ⟨s, rfl, h.1, fun t _ => rfl, fun e he => he, h.2⟩
  | some s, some l, h =>
    obtain ⟨h1, h2, h3, h4, h5⟩ := h
    have e : configSpecies { species := some s, removeZeros := rz, displace := disp, mapping := some l } = .ok (some (l.map (fun i => s.getD i ""))) := by
      unfold configSpecies
      simp only
      rw [if_pos (by omega), mapM_ok _ (fun i => s.getD i "")]
      · rfl
      · intro i hi
        simp [pyGet, h4 i hi]
    refine ⟨_, e, by simp, ?_, ?_⟩
    · rintro s' e'
      cases e'
      refine ⟨_, rfl, by simp [h1], ?_, ?_, h5⟩
      · intro t ht
        have : t < l.length := by omega
        simp [mappedLabel, this]
      · intro e he
        obtain ⟨i, hi, rfl⟩ := List.mem_map.mp he
        simp [h4 i hi]
    · rintro l' e'
      cases e'
      exact ⟨h1, h2⟩

/-- the mean lattice parameter as a sum over the sites -/
theorem label_scale {A : M3 ℝ} (hA : A.det ≠ 0) {nb k : ℕ} (hnb : 0 < nb) {lab : Str} (hk : LabelsBelow k lab) (hN : 0 < lab.length) {els : List String} (hl : els.length = k)
    (param : String → ℝ) (hp : ∀ e ∈ els, IsElementParam A nb e (param e)) :
    ∃ lp names, latticeParameter (some els) ((List.range k).map (labelCount lab)) A nb true = .ok (lp, names) ∧
      lp * lab.length = ((List.range lab.length).map (fun g : ℕ => param (els.getD (labelAt lab g) ""))).sum := by
  have hLk : ∀ j : ℕ, j < lab.length → labelAt lab (j : ℤ) < k := by
    intro j hj
    unfold labelAt
    rw [Int.toNat_natCast, getD_lt hj]
    exact (hk _ (List.getElem_mem hj)).2
  have hcnt : ∀ i, (List.range lab.length).countP (fun j : ℕ => labelAt lab (j : ℤ) = i) = labelCount lab i := by
    intro i
    rw [← countP_atoms (gIndx := (List.range lab.length).map (fun i : ℕ => (i : ℤ))) (List.Perm.refl _) rfl i]
    apply List.countP_congr
    intro j hj
    have hj' := List.mem_range.mp hj
    simp [atomLabel, List.getD_eq_getElem?_getD, hj']
  have hone : ((List.range k).map (labelCount lab)).sum = lab.length := by
    have h1 := sum_by_label k lab.length (fun j : ℕ => labelAt lab (j : ℤ)) hLk (fun _ => 1)
    have h2 : ((List.range k).map (fun i => ((List.range lab.length).countP (fun j : ℕ => labelAt lab (j : ℤ) = i) : ℝ) * 1)).sum =
        ((((List.range k).map (labelCount lab)).sum : ℕ) : ℝ) := by
      rw [Nat.cast_list_sum, List.map_map]
      congr 1
      apply List.map_congr_left
      intro i _
      rw [hcnt i]
      simp
    rw [h2] at h1
    have h3 : ((List.range lab.length).map (fun _ => (1 : ℝ))).sum = lab.length := by simp
    rw [h3] at h1
    exact_mod_cast h1
  obtain ⟨lp, h1, h2, -⟩ := C42_vegard els ((List.range k).map (labelCount lab)) (by simp [hl]) A hA nb hnb true param hp (by rw [hone]; exact hN)
  refine ⟨lp, _, h1, ?_⟩
  rw [hone] at h2
  rw [h2, ← sum_by_label k lab.length (fun j : ℕ => labelAt lab (j : ℤ)) hLk (fun i => param (els.getD i ""))]
  congr 1
  apply List.ext_getElem
  · simp [hl]
  · intro i hi1 hi2
    have hi : i < k := by simpa using hi2
    simp only [List.getElem_map, List.getElem_zip, List.getElem_range, List.getD_eq_getElem?_getD]
    rw [List.getElem?_eq_getElem (by omega), hcnt i]
    rfl

section
variable {n k : ℕ} {u : M3 ℤ} {snf : SnfState} {z : Config}

theorem row_config_printable {hi : ℕ} (hn : 1 ≤ n) (hhi : n ≤ hi) (h7 : n ≤ 7) (hk : k ≤ 10) {dv : List V3} (hdv : 0 < dv.length) (hu : u ∈ findAllHNFs n)
    (hs : smithNormalForm u = some (.ok snf)) (hlen : z.length = dv.length * n) (hz : ∀ p ∈ z, p.1 = -1 ∧ 1 ≤ p.2 ∧ p.2 ≤ k) (A : M3 ℝ)
    (m : MakeArgs) (hm : CanReduce A hi m.mink.truth) (hd : m.displace = 0) {lp : ℝ}
    (hlp : ∃ sp names, configSpecies { species := m.species, removeZeros := zerosLeft m, displace := m.displace, mapping := m.speciesMapping } = .ok sp ∧
      latticeParameter sp ((List.range k).map (labelCount (enumEntry (hnfNumbers u) snf z).labeling)) A dv.length true = .ok (lp, names)) :
    ConfigPrintable A dv k m (enumEntry (hnfNumbers u) snf z) lp := by
  obtain ⟨a, b, c, d, e, f, s, h1, h2, h3, h4, h5, h6, h7', h8, h9⟩ := row_printable hn hhi h7 hk hdv hu hs hlen hz A { m with species := none } hm true ⟨_, rfl⟩
  obtain ⟨-, w1, w2⟩ := row_strings (snf := snf) hk hz (hnfNumbers u)
  refine ⟨a, b, c, d, e, f, s, h1, h2, h3, ?_, h5, h6, hd, hlp, h9⟩
  rw [w2]
  intro ch hch
  obtain ⟨p, -, rfl⟩ := List.mem_map.mp hch
  decide

theorem typeWritten_mapped {mapping : Option (List ℕ)} (hmap : ∀ l, mapping = some l → l.length = k ∧ l.Nodup) {t : ℕ} (ht : t < k) :
    typeWritten mapping t = some (mappedLabel mapping t) := by
  cases mapping with
  | none => rfl
  | some l =>
    have : t < l.length := by rw [(hmap l rfl).1]; exact ht
    simp [typeWritten, mappedLabel, this]

theorem typeWritten_inj {mapping : Option (List ℕ)} (hmap : ∀ l, mapping = some l → l.length = k ∧ l.Nodup) {t t' a : ℕ} (h : typeWritten mapping t = some a)
    (h' : typeWritten mapping t' = some a) : t = t' := by
  cases mapping with
  | none => exact (Option.some.inj h).trans (Option.some.inj h').symm
  | some l =>
    simp only [typeWritten] at h h'
    have h1 : t < l.length := (List.getElem?_eq_some_iff.mp h).1
    exact (List.getElem?_inj h1 (hmap l rfl).2).mp (h.trans h'.symm)

/-- The structure of a config file that describes a row shows the decoration the row describes. -/
theorem describes_config {P0 : M3 ℝ} (hP : P0.det ≠ 0) {bas : List V3} (hbas : 0 < bas.length) (hn : 1 ≤ n) (hk : k ≤ 10) (hu : u ∈ findAllHNFs n) (hs : smithNormalForm u = some (.ok snf))
    (hp : IsNumbering (CrystalSites (ColLattice P0.transpose) bas) (SupLat P0 u) (bas.length * n)
      (sitePos (castM snf.A * P0.transpose⁻¹)⁻¹ (fun i => snf.M i i) bas n))
    (hlen : z.length = bas.length * n) (hz : ∀ p ∈ z, p.1 = -1 ∧ 1 ≤ p.2 ∧ p.2 ≤ k) {species : Option (List String)} {mapping : Option (List ℕ)}
    (hsp : SpeciesGiven k species mapping) {lp : ℝ} {rz : Bool} {disp : ℝ}
    (hlp : ∃ sp names, configSpecies { species := species, removeZeros := rz, displace := disp, mapping := mapping } = .ok sp ∧
      latticeParameter sp ((List.range k).map (labelCount (enumEntry (hnfNumbers u) snf z).labeling)) P0.transpose bas.length true = .ok (lp, names))
    {C : ConfigFile} (hC : ConfigDescribes P0.transpose bas mapping (enumEntry (hnfNumbers u) snf z) lp C) {ψ : Decoration}
    (hψ : RowDescribes P0 bas (enumEntry (hnfNumbers u) snf z) ψ) :
    ConfigOf P0.transpose bas.length (CrystalSites (ColLattice P0.transpose) bas) species mapping C ψ := by
  obtain ⟨a, b, c, d, e, f, s, hx, q1, q2, q3, q4, q5⟩ := hC
  obtain ⟨hw, w1, w2⟩ := row_strings (snf := snf) hk hz (hnfNumbers u)
  obtain ⟨a', b', c', d', e', f', hue, hprod, hx', -⟩ := row_ofCell hn hu hs z
  have hh := hx.hnf
  rw [hx'.hnf] at hh
  simp only [List.cons.injEq, Nat.cast_inj, and_true] at hh
  obtain ⟨rfl, rfl, rfl, rfl, rfl, rfl⟩ := hh
  have hss : s = snf := by
    have h1 := hx.smith
    have h2 := hx'.smith
    rw [h1] at h2
    exact Except.ok.inj (Option.some.inj h2)
  subst hss
  have hsupl : ColLattice (P0.transpose * castM (hnfMat a' b' c' d' e' f')) = SupLat P0 u := by rw [hue]; rfl
  have hdraw := ((row_describes hP (by rw [hue, hnfMat_det, hprod]) hs hp hlen hw (hnfNumbers u) ψ).mp hψ).2
  have hlat : ∀ t ∈ SupLat P0 u, t ∈ ColLattice P0.transpose := fun t ht => supLat_sub P0 u ht
  have hN : (enumEntry (hnfNumbers u) s z).labeling.length = bas.length * n := by rw [w1, List.length_map, hlen]
  have hNpos : 0 < (enumEntry (hnfNumbers u) s z).labeling.length := by rw [hN]; exact Nat.mul_pos hbas hn
  have hAt : P0.transpose.det ≠ 0 := by rw [Matrix.det_transpose]; exact hP
  have hlb : LabelsBelow k (enumEntry (hnfNumbers u) s z).labeling := by
    rw [w1]
    intro ch hch
    obtain ⟨p, hp, rfl⟩ := List.mem_map.mp hch
    obtain ⟨q1, q2, -⟩ := digitChar_digit (d := p.2 - 1) (by have := hz p hp; omega)
    exact ⟨q1, by rw [q2]; have := hz p hp; omega⟩
  have hLk : ∀ j : ℕ, j < (enumEntry (hnfNumbers u) s z).labeling.length → labelAt (enumEntry (hnfNumbers u) s z).labeling (j : ℤ) < k := by
    intro j hj
    unfold labelAt
    rw [Int.toNat_natCast, getD_lt hj]
    exact (hlb _ (List.getElem_mem hj)).2
  obtain ⟨els, g1, g2, g3, g4⟩ := species_given hsp rz disp
  obtain ⟨sp, names, l1, l2⟩ := hlp
  rw [g1] at l1
  obtain rfl : els = sp := Except.ok.inj l1
  have hlpos : 0 < lp ∧ (species = none → lp = 1) ∧ (∀ sp, species = some sp → ScaledForSpecies P0.transpose bas.length sp C lp) := by
    cases species with
    | none =>
      have : els = none := g2 rfl
      subst this
      have := (Prod.mk.inj (Except.ok.inj (show Except.ok ((1 : ℝ), ([] : List String)) = Except.ok (lp, names) from l2))).1
      subst this
      exact ⟨one_pos, fun _ => rfl, by simp⟩
    | some sp =>
      obtain ⟨l, rfl, k1, k2, k3, k4⟩ := g3 sp rfl
      have key : ∀ param : String → ℝ, (∀ e ∈ l, IsElementParam P0.transpose bas.length e (param e)) →
          lp * (enumEntry (hnfNumbers u) s z).labeling.length =
            ((List.range (enumEntry (hnfNumbers u) s z).labeling.length).map (fun g : ℕ => param (l.getD (labelAt (enumEntry (hnfNumbers u) s z).labeling g) ""))).sum := by
        intro param hpar
        obtain ⟨lp', nm, j1, j2⟩ := label_scale hAt hbas hlb hNpos k1 param hpar
        rw [l2] at j1
        rw [(Prod.mk.inj (Except.ok.inj j1)).1]
        exact j2
      refine ⟨?_, by simp, ?_⟩
      · obtain ⟨param, hpar⟩ : ∃ param : String → ℝ, ∀ e ∈ l, IsElementParam P0.transpose bas.length e (param e) := by
          have hex : ∀ e, ∃ a : ℝ, e ∈ l → IsElementParam P0.transpose bas.length e a := by
            intro e
            by_cases he : e ∈ l
            · obtain ⟨v, hv⟩ := k4 e (k3 e he)
              obtain ⟨a, -, ha⟩ := latParamElement_spec hAt hbas hv
              exact ⟨a, fun _ => ha⟩
            · exact ⟨0, fun h => absurd h he⟩
          choose param h using hex
          exact ⟨param, h⟩
        have h1 := key param hpar
        have h2 : 0 < lp * ((enumEntry (hnfNumbers u) s z).labeling.length : ℝ) := by
          rw [h1]
          apply List.sum_pos
          · intro y hy
            obtain ⟨g, hg, rfl⟩ := List.mem_map.mp hy
            have hg' := hLk g (List.mem_range.mp hg)
            refine (hpar _ ?_).1
            rw [getD_lt (by rw [k1]; exact hg')]
            exact List.getElem_mem _
          · intro h0
            have := congrArg List.length h0
            simp at this
            rw [this] at hNpos
            simp at hNpos
        exact (pos_iff_pos_of_mul_pos h2).mpr (by exact_mod_cast hNpos)
      · rintro sp' e param hpar
        cases e
        have h1 := key param (fun e he => hpar e (k3 e he))
        have hcl : C.atoms.length = (enumEntry (hnfNumbers u) s z).labeling.length := by
          have := congrArg List.length q2
          simpa using this
        rw [hcl, h1]
        have h2 := (q3.map (fun t => param (sp.getD t ""))).sum_eq
        rw [List.map_map, List.map_map] at h2
        refine Eq.trans ?_ h2.symm
        congr 1
        apply List.map_congr_left
        intro g hg
        simp only [Function.comp]
        rw [k2 _ (hLk g (List.mem_range.mp hg))]
  have hlp0 : lp ≠ 0 := hlpos.1.ne'
  refine ⟨?_, ⟨?_, by rw [q2, q1]⟩, lp, hlpos.1, hlpos.2.1, hlpos.2.2, ?_⟩
  · -- the cell
    have hdet : (lp • (P0.transpose * castM (hnfMat a' b' c' d' e' f'))).det ≠ 0 := by
      rw [Matrix.det_smul, Matrix.det_mul, castM_det, hnfMat_det]
      have h0 : 0 < a' * c' * f' := by omega
      exact mul_ne_zero (pow_ne_zero _ hlp0) (mul_ne_zero hAt (by exact_mod_cast h0.ne'))
    rw [← colLat_scale] at q4
    obtain ⟨T, hT⟩ := colLat_subset.mp (le_of_eq q4.symm)
    intro h0
    apply hdet
    rw [hT, Matrix.det_mul, Matrix.det_transpose, h0, zero_mul]
  · have := congrArg List.length q2
    rw [q1]
    simpa using this.symm
  rw [q5, hsupl, hprod, hN]
  have hlab : ∀ (g : ℕ) (p : ℤ × ℕ), z[g]? = some p → labelAt (enumEntry (hnfNumbers u) s z).labeling g = p.2 - 1 := by
    intro g p hg
    have hp' := hz p (List.mem_of_getElem? hg)
    unfold labelAt
    rw [w1, Int.toNat_natCast, List.getD_eq_getElem?_getD, List.getElem?_map, hg]
    exact (digitChar_digit (by omega)).2.1
  ext ⟨t, y⟩
  simp only [Crystal, Set.mem_setOf_eq, List.mem_map, List.mem_range, Set.mem_image, Prod.mk.injEq]
  constructor
  · rintro ⟨⟨l, x⟩, ⟨_, ⟨g, hg, rfl⟩, ht, hx⟩, rfl, rfl⟩
    simp only at ht hx
    have hxs : x ∈ CrystalSites (ColLattice P0.transpose) bas := by
      obtain ⟨d, hd, hm⟩ := hp.site g hg
      refine ⟨d, hd, ?_⟩
      have := (colLat_isSub P0.transpose).add _ (hlat _ hx) _ hm
      convert this using 1
      abel
    obtain ⟨p, hpz, e⟩ := hdraw x hxs g hg hx
    have hp' := hz p (List.mem_of_getElem? hpz)
    rw [hlab g p hpz] at ht
    refine ⟨x, hxs, l, ?_, typeWritten_mapped g4 (by omega), rfl⟩
    rw [e]
    unfold siteValue
    rw [if_pos (by omega)]
    congr 1
    omega
  · rintro ⟨x, hxs, l, hψx, ht, rfl⟩
    obtain ⟨g, ⟨hg, hm⟩, -⟩ := hp.unique x hxs
    obtain ⟨p, hpz, e⟩ := hdraw x hxs g hg hm
    have hp' := hz p (List.mem_of_getElem? hpz)
    have hl : l = p.2 - 1 := by
      have := congrArg Prod.fst (hψx.symm.trans e)
      simp only [siteValue] at this
      omega
    refine ⟨(l, x), ⟨_, ⟨g, hg, rfl⟩, ?_, hm⟩, ?_, rfl⟩
    · simp only
      rw [hlab g p hpz, hl]
    · simp only
      rw [typeWritten_mapped g4 (by omega)] at ht
      exact Option.some.inj ht

end

/-- two decorations shown by the same structure agree on the sites -/
theorem configOf_unique {A : M3 ℝ} (hA : A.det ≠ 0) {nb k : ℕ} (hnb : 0 < nb) {S : Set V3} {species : Option (List String)} {mapping : Option (List ℕ)}
    (hsp : SpeciesGiven k species mapping) {C : ConfigFile} (hpos : 0 < C.atoms.length) {ψ ψ' : Decoration} (h : ConfigOf A nb S species mapping C ψ)
    (h' : ConfigOf A nb S species mapping C ψ') {x : V3} (hx : x ∈ S) {l : ℕ} (hl : l < k) (e : ψ x = (l + 1, 0)) : ψ' x = (l + 1, 0) := by
  obtain ⟨lp, a1, a2, a3, a4⟩ := h.atoms
  obtain ⟨lp', b1, b2, b3, b4⟩ := h'.atoms
  obtain ⟨els, g1, g2, g3, g4⟩ := species_given hsp true 0
  have hlp : lp = lp' := by
    cases species with
    | none => rw [a2 rfl, b2 rfl]
    | some sp =>
      obtain ⟨-, -, -, -, -, hkn⟩ := g3 sp rfl
      have hex : ∀ e, ∃ a : ℝ, e ∈ sp → IsElementParam A nb e a := by
        intro e
        by_cases he : e ∈ sp
        · obtain ⟨v, hv⟩ := hkn e he
          obtain ⟨a, -, ha⟩ := latParamElement_spec hA hnb hv
          exact ⟨a, fun _ => ha⟩
        · exact ⟨0, fun h => absurd h he⟩
      choose param hpar using hex
      have h1 := a3 sp rfl param hpar
      have h2 := b3 sp rfl param hpar
      exact mul_right_cancel₀ (by exact_mod_cast hpos.ne') (h1.trans h2.symm)
  subst hlp
  have hm : (mappedLabel mapping l, lp • x) ∈ {a : ℕ × V3 | ∃ x ∈ S, ∃ t, ψ x = (t + 1, 0) ∧ typeWritten mapping t = some a.1 ∧ a.2 = lp • x} :=
    ⟨x, hx, l, e, typeWritten_mapped g4 hl, rfl⟩
  rw [← a4, b4] at hm
  obtain ⟨x', -, t, e', ht, hxx⟩ := hm
  have h1 : t = l := typeWritten_inj g4 ht (typeWritten_mapped g4 hl)
  have h2 : x = x' := smul_right_injective V3 a1.ne' hxx
  rw [h2, ← h1]
  exact e'

/-- if the decoration agrees with the one described by a row, the row describes it -/
theorem rowDescribes_congr {P0 : M3 ℝ} {bas : List V3} {hi k : ℕ} (hk10 : k ≤ 10) {row : EnumEntry} (hrow : RowOfCell bas.length 1 hi (fun n => concsFree n k bas.length) row)
    {ψ ψ' : Decoration} (hψ : RowDescribes P0 bas row ψ)
    (h : ∀ x ∈ CrystalSites (ColLattice P0.transpose) bas, ∀ l < k, ψ x = (l + 1, 0) → ψ' x = (l + 1, 0)) : RowDescribes P0 bas row ψ' := by
  obtain ⟨n, u, snf, z, h1, h2, h3, h4, rfl, h6, hz⟩ := row_facts hrow
  obtain ⟨-, w1, w2⟩ := row_strings (snf := snf) hk10 hz (hnfNumbers u)
  intro b hb v
  obtain ⟨l, r, q1, q2, q3⟩ := hψ b hb v
  refine ⟨l, r, q1, q2, ?_⟩
  have hr0 : r = 0 := by
    obtain ⟨q4, q5⟩ := q2
    rw [w2, List.getElem?_map] at q5
    cases hzi : z[rowIndex (enumEntry (hnfNumbers u) snf z) b v]? with
    | none => rw [hzi] at q5; cases q5
    | some p =>
      rw [hzi] at q5
      exact (digitChar_inj (by norm_num) q4 (show digitChar 0 = digitChar r from Option.some.inj q5)).symm
  rw [hr0, if_pos rfl] at q3
  rw [hr0, if_pos rfl]
  have hsite : bas.getD b 0 + P0.transpose.mulVec (fun i => (v i : ℝ)) ∈ CrystalSites (ColLattice P0.transpose) bas :=
    ⟨bas.getD b 0, by rw [getD_lt hb]; exact List.getElem_mem hb, by rw [add_sub_cancel_left]; exact ⟨v, rfl⟩⟩
  refine h _ hsite l ?_ q3
  obtain ⟨q4, q5⟩ := q1
  rw [w1, List.getElem?_map] at q5
  cases hzi : z[rowIndex (enumEntry (hnfNumbers u) snf z) b v]? with
  | none => rw [hzi] at q5; cases q5
  | some p =>
    rw [hzi] at q5
    have hp := hz p (List.mem_of_getElem? hzi)
    have := digitChar_inj (by omega) q4 (show digitChar (p.2 - 1) = digitChar l from Option.some.inj q5)
    omega

/-- What is in the config file, as a reader finds it: if makeStr writes the structures `cs`, then in every directory that has the file enum.out it read, a text is appended to the config file
from which one reads these structures in this order, with the numbers rounded; their names end with their numbers in enum.out, and no other file is changed. -/
theorem config_written {m : MakeArgs} {input file : Str} {rnd : ReadStruct → ℕ → ℕ → ℝ} {cs : List ConfigFile} (hf : m.config = .str "t".toList)
    (h : makeStr (some m) file rnd = (pure (cs.map (OutFile.config m.outfile)) : Run _)) {d : Dir} (hd : dictGet d input = some file)
    {sel : Option (List ℤ)} (hsel : selectStructures m.structures = .ok sel) {sys : ReadSystem} {sts : List ReadStruct} (hread : readEnumOut sel file = .ok (sys, sts)) :
    ∃ d', makeStrDir m input rnd d = (pure d' : Run Dir) ∧ (∀ f, f ≠ m.outfile → dictGet d' f = dictGet d f) ∧
      ∃ (text : Str) (R : List ConfigRead), (cs ≠ [] → dictGet d' m.outfile = some ((dictGet d m.outfile).getD [] ++ text)) ∧ readConfigText text = .ok R ∧
        List.Forall₂ (fun C r => ConfigMatches (r.name, C) r) cs R ∧ List.Forall₂ (fun (st : ReadStruct) (r : ConfigRead) => ∃ p, r.name = p ++ '_' :: intStr st.strN) sts R := by
  obtain ⟨sel', sys', sts', os, h1, h2, h3, h4⟩ := makeStr_ok h
  rw [hsel] at h1
  cases h1
  rw [hread] at h2
  cases h2
  have hr : MakeReads m input d sys sts := ⟨sel, file, hsel, by unfold readFile; rw [hd], hread⟩
  obtain ⟨h5, h6⟩ := makeLoop_outs sts d os h3
  rw [← makeStrDir_reads hr] at h6
  have e1 : os = cs.map (fun C => [OutFile.config m.outfile C]) := by
    clear h6 hr hread h3 hd h
    induction h5 generalizing cs with
    | nil =>
      have : cs = [] := by simpa using h4
      subst this
      rfl
    | cons a b ih =>
      obtain ⟨C, rfl⟩ := makeOne_config hf a
      cases cs with
      | nil => simp at h4
      | cons C' cs =>
        rw [List.map_cons, List.flatten_cons, List.cons_append, List.nil_append, List.cons.injEq] at h4
        have := h4.1
        rw [OutFile.config.injEq] at this
        rw [ih h4.2, this.2]
        rfl
  subst e1
  rw [List.forall₂_map_right_iff] at h5
  refine ⟨_, h6, ?_⟩
  obtain ⟨sys', sts', cs', g1, g2, g3, g4, -⟩ := C85_config_file hf h6
  obtain ⟨rfl, rfl⟩ := makeReads_unique hr g1
  have hcs : cs' = cs := by
    clear * - g2 h5
    induction h5 generalizing cs' with
    | nil => cases g2; rfl
    | cons a b ih =>
      cases g2 with
      | cons a' b' =>
        rw [a] at a'
        have := run_pure_inj a'
        simp only [List.cons.injEq, OutFile.config.injEq, true_and, and_true] at this
        rw [ih _ b', this]
  subst hcs
  refine ⟨g4, (List.zipWith (fun st C => configText (configTitle m.species.isSome C.names sys.title st.strN) C) sts cs').flatten, ?_⟩
  have ht : '\n' ∉ sys.title := makeReads_title hr
  have hz : ∀ (sts : List ReadStruct) (cs : List ConfigFile),
      (List.zipWith (fun st C => configText (configTitle m.species.isSome C.names sys.title st.strN) C) sts cs).flatten =
        (List.zipWith (fun st C => (configTitle m.species.isSome C.names sys.title st.strN, C)) sts cs).flatMap (fun x => configText x.1 x.2) := by
    intro sts
    induction sts with
    | nil => intro cs; rfl
    | cons s l ih =>
      intro cs
      cases cs with
      | nil => rfl
      | cons C cs => rw [List.zipWith_cons_cons, List.zipWith_cons_cons, List.flatten_cons, List.flatMap_cons, ih]
  have hnames : List.Forall₂ (fun (st : ReadStruct) (C : ConfigFile) => ∃ p, configTitle m.species.isSome C.names sys.title st.strN = p ++ '_' :: intStr st.strN ∧
      '\n' ∉ configTitle m.species.isSome C.names sys.title st.strN) sts cs' :=
    g2.imp (fun st C hst => C84_config_name m.species.isSome C.names (fun e he => (makeOne_config_names hf hst e he).1) sys.title ht st.strN)
  obtain ⟨R, hR1, hR2⟩ := C84_config_text (List.zipWith (fun st C => (configTitle m.species.isSome C.names sys.title st.strN, C)) sts cs') (by
    intro x hx
    obtain ⟨i, hi, rfl⟩ := List.mem_iff_getElem.mp hx
    rw [List.getElem_zipWith]
    have hi1 : i < sts.length := by simp at hi; omega
    have hi2 : i < cs'.length := by simp at hi; omega
    obtain ⟨p, -, hp⟩ := hnames.get hi1 hi2
    exact hp)
  rw [hz]
  refine ⟨R, ?_, hR1, ?_, ?_⟩
  · intro hne
    rw [← hz]
    apply g3
    intro hs
    apply hne
    have := h5.length_eq
    rw [hs] at this
    exact List.length_eq_zero_iff.mp (by simpa using this.symm)
  · clear * - hR2 hnames
    induction hnames generalizing R with
    | nil =>
      cases hR2
      exact List.Forall₂.nil
    | cons a b ih =>
      rw [List.zipWith_cons_cons] at hR2
      cases hR2 with
      | cons c dd =>
        refine List.Forall₂.cons ?_ (ih _ dd)
        have := c.1
        simp only at this
        rw [this]
        exact c
  · clear * - hR2 hnames
    induction hnames generalizing R with
    | nil =>
      cases hR2
      exact List.Forall₂.nil
    | cons a b ih =>
      rw [List.zipWith_cons_cons] at hR2
      cases hR2 with
      | cons c dd =>
        refine List.Forall₂.cons ?_ (ih _ dd)
        obtain ⟨p, hp, -⟩ := a
        exact ⟨p, c.1.trans hp⟩

/-- auxiliary: makeStr -config t on an enum.out whose rows are known -/
theorem configs_of_rows {lat : LatticeIn} {P0 : Matrix (Fin 3) (Fin 3) ℚ} {b0 : List (Fin 3 → ℚ)} {hi k : ℕ}
    (hcell : Usable (realMat P0) (realVecs b0) (realVecs b0) true) (hprim : PrimitiveCell (realMat P0) (realVecs b0)) (hspec : lat.nspecies.toNat = k)
    (hk3 : k ≤ 3) (h7 : hi ≤ 7) (hsize : b0.length * hi ≤ 18)
    (hdec : ∀ i j, SevenDecimals (P0 i j)) (hdec' : ∀ v ∈ b0, ∀ i, SevenDecimals (v i)) {now : Str} (hnow : '\n' ∉ now) {rows : List EnumEntry} (r3 : rows.Nodup)
    {E : Decoration → Prop} (r4 : ∀ row ∈ rows, RowOfCell b0.length 1 hi (fun n => concsFree n k b0.length) row ∧ ∃ ψ, RowDescribes (realMat P0) (realVecs b0) row ψ ∧ E ψ)
    {D : Decoration → Prop} (r5 : ∀ χ, D χ → ∃! row, row ∈ rows ∧ ∃ ψ, RowDescribes (realMat P0) (realVecs b0) row ψ ∧
            SameDecoration (ColLattice (realMat P0).transpose) (realVecs b0) χ ψ) :
    ∀ m : MakeArgs, AllConfigs m k → CanReduce (realMat P0).transpose hi m.mink.truth → ∀ rnd : ReadStruct → ℕ → ℕ → ℝ,
      ∃ (cs : List ConfigFile) (sys : ReadSystem) (sts : List ReadStruct),
        makeStr (some m) (enumOutFile (lat.enumParams (P0, b0)) now rows) rnd = (pure (cs.map (OutFile.config m.outfile)) : Run _) ∧
        readEnumOut none (enumOutFile (lat.enumParams (P0, b0)) now rows) = .ok (sys, sts) ∧ sts.length = cs.length ∧ (∀ i (h : i < sts.length), sts[i].strN = ((i + 1 : ℕ) : ℤ)) ∧
          (∀ C ∈ cs, ∃ ψ, E ψ ∧ ConfigOf (realMat P0).transpose b0.length (CrystalSites (ColLattice (realMat P0).transpose) (realVecs b0)) m.species m.speciesMapping C ψ) ∧
          ∀ χ, D χ → ∃! i : ℕ, ∃ C, cs[i]? = some C ∧
            ∃ ψ, ConfigOf (realMat P0).transpose b0.length (CrystalSites (ColLattice (realMat P0).transpose) (realVecs b0)) m.species m.speciesMapping C ψ ∧
              SameDecoration (ColLattice (realMat P0).transpose) (realVecs b0) χ ψ := by
  intro m hm hred rnd
  set S := CrystalSites (ColLattice (realMat P0).transpose) (realVecs b0) with hS
  have hbl : (realVecs b0).length = b0.length := realVecs_length b0
  have hb0 : 0 < b0.length := by
    have := List.length_pos_iff.mpr hcell.nonempty
    rwa [hbl] at this
  have hAt : (realMat P0).transpose.det ≠ 0 := by rw [Matrix.det_transpose]; exact hcell.det
  have hplv := plv_exact lat b0 now hdec
  have hdv := dvecs_exact lat P0 now hdec'
  have hns : (lat.enumParams (P0, b0)).nspecies = k := by
    show lat.nspecies.toNat = k
    exact hspec
  have hk10 : k ≤ 10 := by omega
  have hfit : ∀ x ∈ rows, x.Fits := by
    intro x hx
    obtain ⟨n, u, snf, z, h1, h2, h3, h4, rfl, h6, hz⟩ := row_facts (r4 x hx).1
    exact row_fits h1 (by omega) hk10 hb0 h3 h4 h6 hz
  have hfew := rows_few r3 hk3 h7 hsize (fun row hr => (r4 row hr).1)
  -- the lattice parameter of each row
  obtain ⟨els, g1, g2, g3, g4⟩ := species_given hm.species (zerosLeft m) m.displace
  have hlpx : ∀ x : EnumEntry, ∃ lp : ℝ, x ∈ rows → ∃ sp names,
      configSpecies { species := m.species, removeZeros := zerosLeft m, displace := m.displace, mapping := m.speciesMapping } = .ok sp ∧
      latticeParameter sp ((List.range k).map (labelCount x.labeling)) (realMat P0).transpose (realVecs b0).length true = .ok (lp, names) := by
    intro x
    by_cases hx : x ∈ rows
    · obtain ⟨n, u, snf, z, h1, h2, h3, h4, rfl, h6, hz⟩ := row_facts (r4 x hx).1
      obtain ⟨r, hr⟩ : ∃ r, latticeParameter els ((List.range k).map (labelCount (enumEntry (hnfNumbers u) snf z).labeling)) (realMat P0).transpose (realVecs b0).length true = .ok r := by
        cases hsp : m.species with
        | none =>
          rw [g2 hsp]
          exact ⟨_, rfl⟩
        | some sp =>
          obtain ⟨l, rfl, k1, k2, k3, k4⟩ := g3 sp hsp
          have hex : ∀ e, ∃ a : ℝ, e ∈ l → IsElementParam (realMat P0).transpose (realVecs b0).length e a := by
            intro e
            by_cases he : e ∈ l
            · obtain ⟨v, hv⟩ := k4 e (k3 e he)
              obtain ⟨a, -, ha⟩ := latParamElement_spec hAt (n := (realVecs b0).length) (by rw [hbl]; exact hb0) hv
              exact ⟨a, fun _ => ha⟩
            · exact ⟨0, fun h => absurd h he⟩
          choose param hpar using hex
          obtain ⟨a, h, -⟩ := C42_vegard l ((List.range k).map (labelCount (enumEntry (hnfNumbers u) snf z).labeling)) (by simp [k1]) _ hAt (realVecs b0).length
            (by rw [hbl]; exact hb0) true param hpar (by
              rw [labelCounts_sum hk10 hz (hnfNumbers u), h6]
              exact Nat.mul_pos hb0 h1)
          exact ⟨_, h⟩
      exact ⟨r.1, fun _ => ⟨els, r.2, g1, hr⟩⟩
    · exact ⟨0, fun h => absurd h hx⟩
  choose lp hlp using hlpx
  obtain ⟨cs, hmake, hF⟩ := C86_make_config (lat.enumParams (P0, b0)) now rows rfl
    (by show b0 ≠ []; exact List.length_pos_iff.mp hb0) hnow hfit hfew m none hm.structures (by simp) hm.config
    (by
      intro mp hmp
      rw [hns, (g4 mp hmp).1])
    (by rw [hplv]; exact hAt) rnd lp (by
      intro x hx
      have hl := hlp x hx
      obtain ⟨n, u, snf, z, h1, h2, h3, h4, rfl, h6, hz⟩ := row_facts (r4 x hx).1
      rw [hplv, hdv, hns]
      exact row_config_printable h1 h2 (by omega) hk10 (by rw [hbl]; exact hb0) h3 h4 (by rw [hbl]; exact h6) hz _ m hred hm.displace hl)
  have hall' : (enumOutRows rows).filter (fun r => Asked none r.1) = enumOutRows rows := by
    apply List.filter_eq_self.mpr
    intro r _
    simp [Asked]
  rw [hplv, hdv, hall'] at hF
  have hread := enumOut_read (lat.enumParams (P0, b0)) now rows none rfl (by show b0 ≠ []; exact List.length_pos_iff.mp hb0) hnow hfit hfew (by simp)
  rw [hall'] at hread
  have hperm := C50_rows_are_the_structures rows
  have hndr : ((enumOutRows rows).map (fun r => r.2.2)).Nodup := hperm.nodup_iff.mpr r3
  have hmemrow : ∀ r ∈ enumOutRows rows, r.2.2 ∈ rows := fun r hr => hperm.mem_iff.mp (List.mem_map.mpr ⟨r, hr, rfl⟩)
  have hlen := hF.length_eq
  -- what one structure shows
  have hshow : ∀ row ∈ rows, ∀ C ψ, ConfigDescribes (realMat P0).transpose (realVecs b0) m.speciesMapping row (lp row) C → RowDescribes (realMat P0) (realVecs b0) row ψ →
      ConfigOf (realMat P0).transpose b0.length S m.species m.speciesMapping C ψ := by
    intro row hr C ψ hC hψ
    have hl := hlp row hr
    obtain ⟨n, u, snf, z, h1, h2, h3, h4, rfl, h6, hz⟩ := row_facts (r4 row hr).1
    have := describes_config hcell.det (by rw [hbl]; exact hb0) h1 hk10 h3 h4 (numbering_hnf hcell hprim h1 (by omega) h3 h4) (by rw [hbl]; exact h6) hz hm.species hl hC hψ
    rw [hbl] at this
    exact this
  have hback : ∀ row ∈ rows, ∀ C ψ, ConfigDescribes (realMat P0).transpose (realVecs b0) m.speciesMapping row (lp row) C →
      ConfigOf (realMat P0).transpose b0.length S m.species m.speciesMapping C ψ → RowDescribes (realMat P0) (realVecs b0) row ψ := by
    intro row hr C ψ hC hψ
    obtain ⟨ψ0, hψ0, -⟩ := (r4 row hr).2
    have h0 := hshow row hr C ψ0 hC hψ0
    have hpos : 0 < C.atoms.length := by
      obtain ⟨-, -, -, -, -, -, -, -, q1, -⟩ := hC
      rw [← h0.numbers.1, q1]
      exact List.length_pos_iff.mpr (hfit row hr).labeling.1
    refine rowDescribes_congr hk10 (by rw [hbl]; exact (r4 row hr).1) hψ0 (fun x hx l hl e => ?_)
    exact configOf_unique hAt hb0 hm.species hpos h0 hψ hx hl e
  refine ⟨cs, _, _, hmake, hread, by rw [List.length_map]; exact hlen, ?_, ?_, ?_⟩
  · intro i hi
    rw [List.getElem_map]
    have := (C50_row_numbers rows i (by simpa using hi)).1
    show ((((enumOutRows rows)[i]'(by simpa using hi)).1 : ℕ) : ℤ) = _
    rw [this]
  · intro C hC
    obtain ⟨r, hr, hd⟩ := forall₂_right hF C hC
    obtain ⟨ψ, hψ, hE⟩ := (r4 _ (hmemrow r hr)).2
    exact ⟨ψ, hE, hshow _ (hmemrow r hr) _ ψ hd hψ⟩
  · intro χ hχ
    obtain ⟨row, ⟨hrow, ψ, hψ, hsame⟩, hun⟩ := r5 χ hχ
    obtain ⟨r, hr, rfl⟩ := List.mem_map.mp (hperm.mem_iff.mpr hrow)
    obtain ⟨i, hi, rfl⟩ := List.getElem_of_mem hr
    have hi2 : i < cs.length := by omega
    refine ⟨i, ⟨cs[i], List.getElem?_eq_getElem hi2, ψ, hshow _ hrow _ ψ (hF.get hi hi2) hψ, hsame⟩, ?_⟩
    rintro j ⟨C, hC, ψ', hψ', hsame'⟩
    obtain ⟨hj2, rfl⟩ := List.getElem?_eq_some_iff.mp hC
    have hj : j < (enumOutRows rows).length := by omega
    have hmj := hmemrow _ (List.getElem_mem hj)
    have hrd := hback _ hmj _ ψ' (hF.get hj hj2) hψ'
    have heq := hun _ ⟨hmj, ψ', hrd, hsame'⟩
    have h1 : ((enumOutRows rows).map (fun r => r.2.2))[j]'(by simpa using hj) = ((enumOutRows rows).map (fun r => r.2.2))[i]'(by simpa using hi) := by
      rw [List.getElem_map, List.getElem_map]
      exact heq
    exact (List.Nodup.getElem_inj_iff hndr).mp h1

/-- What makeStr -config t makes of the directory: it comes to its end and changes no file but the config file. To this a text is appended from which one reads structures (with the numbers
rounded) that show crystals of the kind asked for, the `i`-th with a name that ends with `_i`; and every such crystal is, up to a symmetry of the parent crystal, shown by
exactly one of them. -/
def Spec.OneConfigEach (P0 : Matrix (Fin 3) (Fin 3) ℚ) (b0 : List (Fin 3 → ℚ)) (hi k : ℕ) (ranges : List ConcRange) (d : Dir) : Prop :=
  ∀ m : MakeArgs, AllConfigs m k → CanReduce (realMat P0).transpose hi m.mink.truth → ∀ rnd : ReadStruct → ℕ → ℕ → ℝ,
    ∃ (d' : Dir) (text : Str) (R : List ConfigRead) (cs : List ConfigFile), makeStrDir m "enum.out".toList rnd d = (pure d' : Run Dir) ∧
      (∀ f, f ≠ m.outfile → dictGet d' f = dictGet d f) ∧ (cs ≠ [] → dictGet d' m.outfile = some ((dictGet d m.outfile).getD [] ++ text)) ∧ readConfigText text = .ok R ∧
      List.Forall₂ (fun C r => ConfigMatches (r.name, C) r) cs R ∧ (∀ i (h : i < R.length), ∃ p, R[i].name = p ++ '_' :: natStr (i + 1)) ∧
      (∀ C ∈ cs, ∃ ψ, AllowedCrystal (realMat P0) (realVecs b0) hi k ranges ψ ∧
        ConfigOf (realMat P0).transpose b0.length (CrystalSites (ColLattice (realMat P0).transpose) (realVecs b0)) m.species m.speciesMapping C ψ) ∧
      ∀ χ, AllowedCrystal (realMat P0) (realVecs b0) hi k ranges χ → ∃! i : ℕ, ∃ C, cs[i]? = some C ∧
        ∃ ψ, ConfigOf (realMat P0).transpose b0.length (CrystalSites (ColLattice (realMat P0).transpose) (realVecs b0)) m.species m.speciesMapping C ψ ∧
          SameDecoration (ColLattice (realMat P0).transpose) (realVecs b0) χ ψ

theorem oneConfigEach_of_rows {lat : LatticeIn} {P0 : Matrix (Fin 3) (Fin 3) ℚ} {b0 : List (Fin 3 → ℚ)} {hi k : ℕ} {ranges : List ConcRange}
    (hcell : Usable (realMat P0) (realVecs b0) (realVecs b0) true) (hprim : PrimitiveCell (realMat P0) (realVecs b0)) (hspec : lat.nspecies.toNat = k)
    (hk3 : k ≤ 3) (h7 : hi ≤ 7) (hsize : b0.length * hi ≤ 18)
    (hdec : ∀ i j, SevenDecimals (P0 i j)) (hdec' : ∀ v ∈ b0, ∀ i, SevenDecimals (v i)) {now : Str} (hnow : '\n' ∉ now) {rows : List EnumEntry} (r3 : rows.Nodup)
    (r4 : ∀ row ∈ rows, RowOfCell b0.length 1 hi (fun n => concsFree n k b0.length) row ∧ ∃ ψ, RowDescribes (realMat P0) (realVecs b0) row ψ ∧
      AllowedCrystal (realMat P0) (realVecs b0) hi k ranges ψ)
    (r5 : ∀ χ, AllowedCrystal (realMat P0) (realVecs b0) hi k ranges χ → ∃! row, row ∈ rows ∧ ∃ ψ, RowDescribes (realMat P0) (realVecs b0) row ψ ∧
            SameDecoration (ColLattice (realMat P0).transpose) (realVecs b0) χ ψ) {d : Dir}
    (hd : dictGet d "enum.out".toList = some (enumOutFile (lat.enumParams (P0, b0)) now rows)) : OneConfigEach P0 b0 hi k ranges d := by
  intro m hm hred rnd
  obtain ⟨cs, sys, sts, h1, h2, h3, h4, h5, h6⟩ := configs_of_rows hcell hprim hspec hk3 h7 hsize hdec hdec' hnow r3 r4 r5 m hm hred rnd
  obtain ⟨d', g1, g2, text, R, g3, g4, g5, g6⟩ := config_written hm.config h1 hd hm.structures h2
  refine ⟨d', text, R, cs, g1, g2, g3, g4, g5, ?_, h5, h6⟩
  intro i hi
  have hl := g6.length_eq
  obtain ⟨p, hp⟩ := g6.get (i := i) (by omega) hi
  refine ⟨p, ?_⟩
  have := h4 i (by omega)
  simp only [List.get_eq_getElem] at hp
  rw [hp, this]
  rfl

section
variable {fl : ℚ → ℚ} {δ : ℝ} {text : Str} {lat : LatticeIn} {P0 : Matrix (Fin 3) (Fin 3) ℚ} {b0 : List (Fin 3 → ℚ)} {hi k : ℕ} {ranges : List ConcRange} {d : ℤ}

/-- C88. From lattice.in with ranges of concentrations to a config file, with the tolerances of the code. -/
theorem C88_one_config (h : CrystalInput text lat P0 b0 1 hi k) (hr : RangesInput lat k ranges d) (hk3 : k ≤ 3) (hna : lat.arrowFractions.sum = 0) (h7 : hi ≤ 7)
    (hsize : b0.length * hi ≤ 18) (hdec : ∀ i j, SevenDecimals (P0 i j)) (hdec' : ∀ v ∈ b0, ∀ i, SevenDecimals (v i))
    (hne : ∃ n c, 1 ≤ n ∧ n ≤ hi ∧ InConcRanges ranges (b0.length * n) c) (hd : d ≤ 10 ^ 8)
    {K K' : ℝ} {g D : ℕ} (hc : Coarse (realMat P0) (realVecs b0) K K' g D (1 / 10 ^ 7)) :
    ∀ (w : World) (a : Args) (lattice : Str) (dir : Dir), (∀ l, (w.listdir l).Perm l) → '\n' ∉ w.now →
        PlainCall a lattice false → FreshDir lattice text dir →
      ∃ dir' : Dir, scriptEnum w shippedTol a dir = (pure dir' : Run Dir) ∧ OneConfigEach P0 b0 hi k ranges dir' := by
  intro w a lattice dir hw hnow ha hdir
  have hd' : (d : ℚ) ≤ 10 ^ 8 := by exact_mod_cast hd
  obtain ⟨rows, dir', r1, r2, r3, r4, r5⟩ := ranges_crystals_at h hr hk3 hna (by omega) hne (coarse_exact h.cell.det hc (size_hi h (by omega)))
    (show (0 : ℚ) ≤ 1 / 10 ^ 10 by norm_num) (show (1 / 10 ^ 10 : ℚ) * 20 * d < 1 by linarith) w a lattice dir hw ha hdir
  exact ⟨dir', r1, oneConfigEach_of_rows h.cell h.primitive (by rw [h.species.1]; simp) hk3 h7 hsize hdec hdec' hnow r3 r4 r5 r2⟩

/-- C88. The same without restrictions. -/
theorem C88_one_config_free (h : CrystalInput text lat P0 b0 1 hi k) (hfree : lat.restricted = false) (hk3 : k ≤ 3) (h7 : hi ≤ 7)
    (hsize : b0.length * hi ≤ 18) (hdec : ∀ i j, SevenDecimals (P0 i j)) (hdec' : ∀ v ∈ b0, ∀ i, SevenDecimals (v i))
    {K K' : ℝ} {g D : ℕ} (hc : Coarse (realMat P0) (realVecs b0) K K' g D (1 / 10 ^ 7)) :
    ∀ (w : World) (a : Args) (lattice : Str) (dir : Dir), (∀ l, (w.listdir l).Perm l) → '\n' ∉ w.now →
        PlainCall a lattice false → FreshDir lattice text dir →
      ∃ dir' : Dir, scriptEnum w shippedTol a dir = (pure dir' : Run Dir) ∧ OneConfigEach P0 b0 hi k [] dir' := by
  intro w a lattice dir hw hnow ha hdir
  obtain ⟨rows, dir', r1, r2, r3, r4, r5⟩ := free_crystals_at h hfree hk3 (by omega) (coarse_exact h.cell.det hc (size_hi h (by omega))) w a lattice dir hw ha hdir
  exact ⟨dir', r1, oneConfigEach_of_rows h.cell h.primitive (by rw [h.species.1]; simp) hk3 h7 hsize hdec hdec' hnow r3 r4 r5 r2⟩

/-- C88. With rounding errors in enumeration.py. -/
theorem C88_one_config_noise (h : CrystalInput text lat P0 b0 1 hi k) (hr : RangesInput lat k ranges d) (hk3 : k ≤ 3) (hna : lat.arrowFractions.sum = 0) (h7 : hi ≤ 7)
    (hsize : b0.length * hi ≤ 18) (hdec : ∀ i j, SevenDecimals (P0 i j)) (hdec' : ∀ v ∈ b0, ∀ i, SevenDecimals (v i))
    (hne : ∃ n c, 1 ≤ n ∧ n ≤ hi ∧ InConcRanges ranges (b0.length * n) c) (hd : d ≤ 10 ^ 8) (hle : ∀ r ∈ ranges, max r.1 r.2.1 ≤ d)
    {K K' : ℝ} {g D : ℕ} (h0 : 0 ≤ δ) (hlt : δ < 1 / 10 ^ 10) (hc : Coarse (realMat P0) (realVecs b0) K K' g D (1 / 10 ^ 7 + δ)) (hfl : RoundsToNearest fl) :
    ∀ (w : World) (a : Args) (lattice : Str) (dir : Dir), (∀ l, (w.listdir l).Perm l) → '\n' ∉ w.now →
        PlainCall a lattice false → FreshDir lattice text dir →
      ∃ dir' : Dir, AlwaysReturns (scriptEnumN fl δ w shippedTol a dir) dir' ∧ OneConfigEach P0 b0 hi k ranges dir' := by
  intro w a lattice dir hw hnow ha hdir
  obtain ⟨dir', r1, r2⟩ := C88_one_config h hr hk3 hna h7 hsize hdec hdec' hne hd (coarse_mono hc (by norm_num) (by linarith)) w a lattice dir hw hnow ha hdir
  exact ⟨dir', C74_same_files_ranges h hr hle hd (by omega) (Or.inl hna) hne h0 hlt hc hfl (arrowsKept_zero hfl (sum_zero hr.fractions hna) _)
    (numbersFit_small hna hk3 (by omega)) w a lattice false dir dir' hw ha hdir r1, r2⟩

/-- C88. Without restrictions, with rounding errors in enumeration.py. -/
theorem C88_one_config_free_noise (h : CrystalInput text lat P0 b0 1 hi k) (hfree : lat.restricted = false) (hk3 : k ≤ 3) (h7 : hi ≤ 7)
    (hsize : b0.length * hi ≤ 18) (hdec : ∀ i j, SevenDecimals (P0 i j)) (hdec' : ∀ v ∈ b0, ∀ i, SevenDecimals (v i))
    {K K' : ℝ} {g D : ℕ} (h0 : 0 ≤ δ) (hlt : δ < 1 / 10 ^ 10) (hc : Coarse (realMat P0) (realVecs b0) K K' g D (1 / 10 ^ 7 + δ)) (hfl : RoundsToNearest fl) :
    ∀ (w : World) (a : Args) (lattice : Str) (dir : Dir), (∀ l, (w.listdir l).Perm l) → '\n' ∉ w.now →
        PlainCall a lattice false → FreshDir lattice text dir →
      ∃ dir' : Dir, AlwaysReturns (scriptEnumN fl δ w shippedTol a dir) dir' ∧ OneConfigEach P0 b0 hi k [] dir' := by
  intro w a lattice dir hw hnow ha hdir
  obtain ⟨dir', r1, r2⟩ := C88_one_config_free h hfree hk3 h7 hsize hdec hdec' (coarse_mono hc (by norm_num) (by linarith)) w a lattice dir hw hnow ha hdir
  exact ⟨dir', C74_same_files h hfree (by omega) h0 hlt hc hfl (numbersFit_small (by rw [free_fractions hfree]; simp) hk3 (by omega)) w a lattice false dir dir' hw ha hdir r1, r2⟩

end

/-- makeStr -config t for all structures, with Al as the second and Ni as the third of three elements -/
noncomputable def mappedArgs : MakeArgs :=
  { structures := some ["all".toList], displace := 0, mink := .bool false, species := some ["Cu", "Al", "Ni"], speciesMapping := some [1, 2],
    outfile := "train.cfg".toList, config := .str "t".toList, removeZeros := .str "f".toList }

theorem cuAlNi_known : ∀ e ∈ ["Cu", "Al", "Ni"], ∃ v, elementVolume e = .ok v := by
  have h : ∀ e ∈ ["Cu", "Al", "Ni"], (elementVolume e).isOk = true := by decide +kernel
  intro e he
  have := h e he
  cases hv : elementVolume e with
  | ok v => exact ⟨v, rfl⟩
  | error x => rw [hv] at this; cases this

/-- C88 for the simple cubic lattice with one or two cells and between one and three quarters of each element: the two programs write exactly one structure of alternating layers of Al and
Ni, with the numbers 1 and 2. -/
example (w : World) (hw : ∀ l, (w.listdir l).Perm l) (hnow : '\n' ∉ w.now) (rnd : ReadStruct → ℕ → ℕ → ℝ) :
    ∃ (d1 d2 : Dir) (text : Str) (R : List ConfigRead) (cs : List ConfigFile),
      scriptEnum w shippedTol ⟨false, true, "lattice.in".toList, none, none, none, none, false, none, false, none⟩
        [("notes.txt".toList, []), ("lattice.in".toList, scrText)] = (pure d1 : Run Dir) ∧
      makeStrDir mappedArgs "enum.out".toList rnd d1 = (pure d2 : Run Dir) ∧ dictGet d2 "train.cfg".toList = some ((dictGet d1 "train.cfg".toList).getD [] ++ text) ∧
      readConfigText text = .ok R ∧ List.Forall₂ (fun C r => ConfigMatches (r.name, C) r) cs R ∧
        ∃! i : ℕ, ∃ C, cs[i]? = some C ∧
          ∃ ψ, ConfigOf (1 : M3 ℝ).transpose 1 (CrystalSites (ColLattice (1 : M3 ℝ).transpose) [0]) (some ["Cu", "Al", "Ni"]) (some [1, 2]) C ψ ∧
            SameDecoration (ColLattice (1 : M3 ℝ).transpose) [0] layers ψ := by
  have h0 : SevenDecimals 0 := ⟨0, by norm_num⟩
  have h1 : SevenDecimals 1 := ⟨10 ^ 7, by norm_num⟩
  obtain ⟨d1, r1, r3⟩ := C88_one_config scr_crystal scr_ranges (by norm_num) (by rw [scr_fractions]; simp) (by norm_num) (by simp)
    (by intro i j; fin_cases i <;> fin_cases j <;> first | exact h0 | exact h1)
    (by
      intro v hv i
      rw [List.mem_singleton] at hv
      subst hv
      fin_cases i <;> exact h0) ⟨2, [1, 1], by norm_num, le_refl _, scr_some⟩ (by norm_num) (decimal_coarse sc_decimal) w
    ⟨false, true, "lattice.in".toList, none, none, none, none, false, none, false, none⟩ "lattice.in".toList [("notes.txt".toList, []), ("lattice.in".toList, scrText)] hw hnow
    (by constructor <;> rfl) (by
      refine ⟨by decide +kernel, ?_, by decide +kernel⟩
      have : ∀ f ∈ ["notes.txt".toList, "lattice.in".toList], ¬ f.head? = some 'p' := by decide +kernel
      exact fun f hf h => this f hf h.2)
  obtain ⟨d2, text, R, cs, q1, -, q3, q4, q5, -, -, q8⟩ := r3 mappedArgs ⟨by decide, rfl, rfl, rfl, by decide, by decide, by decide, cuAlNi_known⟩ (fun h => absurd h (by decide)) rnd
  rw [realVecs_zero, realMat_sc] at q8
  have q9 := q8 layers scr_layers
  have hne : cs ≠ [] := by
    rintro rfl
    obtain ⟨i, ⟨C, hC, -⟩, -⟩ := q9
    simp at hC
  exact ⟨d1, d2, text, R, cs, r1, q1, q3 hne, q4, q5, q9⟩

end Phenum
