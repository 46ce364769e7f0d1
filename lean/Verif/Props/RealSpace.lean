import Verif.Proof.RealSpace
import Verif.Props.SNF
import Verif.Props.Reduce
import Verif.Model.HNF
/-
C28: mapping a structure to real space.
-/
namespace Phenum
open Spec

/-- The data read back for a structure: the supercell `[[a,0,0],[b,c,0],[d,e,f]]`, its size, and the Smith normal form
computed for it. -/
def structOf (a b c d e f : ℕ) (s : SnfState) (labeling : List Char) : StructData :=
  ⟨a * c * f, hnfMat a b c d e f, fun i => s.M i i, s.A, labeling⟩

/-- Every label is one of the digits `0 … k-1`. -/
def LabelsBelow (k : ℕ) (labeling : List Char) : Prop := ∀ ch ∈ labeling, ch.isDigit = true ∧ ch.toNat - 48 < k

theorem hnfMat_det (a b c d e f : ℕ) : (hnfMat a b c d e f).det = ((a * c * f : ℕ) : ℤ) := by
  simp [hnfMat, Matrix.det_fin_three]

theorem snf_data {H : M3 ℤ} {s : SnfState} (hs : smithNormalForm H = some (.ok s)) :
    IsUnit s.A.det ∧ IsUnit s.B.det ∧ (∀ i, 0 < s.M i i) ∧ s.A * H * s.B = Matrix.diagonal (fun i => s.M i i) ∧
      H.det = s.M 0 0 * s.M 1 1 * s.M 2 2 := by
  obtain ⟨h1, h2, h3, h4, h5, -, -, h8⟩ := C23_smith_correct H s hs
  refine ⟨Int.isUnit_iff.mpr h2, Int.isUnit_iff.mpr h3, h5, ?_, h8.symm⟩
  rw [← h1]
  ext i j
  by_cases hij : i = j
  · subst hij; simp
  · rw [h4 i j hij, Matrix.diagonal_apply_ne _ hij]

/-- what the run does, once the cell is known -/
theorem mapToRealSpace_eq (A : M3 ℝ) (dv : List V3) (k : ℕ) (eps : ℝ) (a b c d e f : ℕ) (s : SnfState)
    (labeling : List Char) (mink : Bool) {slv : M3 ℝ} (hm : superCell A (hnfMat a b c d e f) eps mink = .ok slv) :
    mapToRealSpace A dv k eps (structOf a b c d e f s labeling) mink =
      (let atoms := (List.range dv.length).flatMap (fun iD => (interiorPoints a b c d e f).map (fun z => (iD, z)))
       if atoms.length ≠ a * c * f * dv.length then .error .sysExit else
       match spinLoop k labeling (atoms.map (fun p => groupIndex s.A (fun i => s.M i i) p.1 p.2)) (List.replicate k 0) [] with
       | .error e => .error e
       | .ok (spin, x) => .ok ⟨slv, atoms.map (fun p => (fun i => A.mulVec (fun j => (p.2 j : ℝ)) i + dv.getD p.1 0 i : V3)),
           spin, atoms.map (fun p => groupIndex s.A (fun i => s.M i i) p.1 p.2),
           x.map (fun u : ℕ => (u : ℚ) / (a * c * f * dv.length : ℕ))⟩) := by
  have hm' : superCell A (structOf a b c d e f s labeling).HNF eps mink = .ok slv := hm
  unfold mapToRealSpace
  simp only [hm', bind, Except.bind]
  change (if ((List.range dv.length).flatMap (fun iD => (interiorPoints a b c d e f).map (fun z => (iD, z)))).length ≠
    a * c * f * dv.length then _ else _) = _
  split
  · rfl
  · split
    · rename_i e' h
      rw [show spinLoop k labeling (((List.range dv.length).flatMap (fun iD => (interiorPoints a b c d e f).map
        (fun z => (iD, z)))).map (fun p => groupIndex s.A (fun i => s.M i i) p.1 p.2)) (List.replicate k 0) [] = .error e' from h]
    · rename_i v h
      rw [show spinLoop k labeling (((List.range dv.length).flatMap (fun iD => (interiorPoints a b c d e f).map
        (fun z => (iD, z)))).map (fun p => groupIndex s.A (fun i => s.M i i) p.1 p.2)) (List.replicate k 0) [] = .ok v from h]
      rfl

section
variable {a b c d e f : ℕ} (ha : 0 < a) (hc : 0 < c) (hf : 0 < f) (hef : e < f)
include ha hc hf hef

theorem isHNF6_of : IsHNF6 a b c d e f := ⟨by omega, by omega, by omega, by omega, by omega, by omega, by omega⟩

/-- the loops visit all points of the cell -/
theorem complete_iff (nd : ℕ) (hnd : 0 < nd) :
    ((List.range nd).flatMap (fun iD => (interiorPoints a b c d e f).map (fun z => (iD, z)))).length = a * c * f * nd ↔
      ∀ z1 z2 : ℤ, 0 ≤ z1 → z1 < a → ⌊((b * z1 : ℤ) : ℚ) / ((a : ℤ) : ℚ)⌋ ≤ z2 → z2 < ⌊((b * z1 : ℤ) : ℚ) / ((a : ℤ) : ℚ)⌋ + c →
        colFull a b c d e z1 z2 := by
  rw [flat_length, mul_comm, Nat.mul_right_cancel_iff hnd, ← (interior_length (isHNF6_of (b := b) (d := d) ha hc hf hef)).2]
  constructor
  · intro h; rw [h]; push_cast; ring
  · intro h; exact_mod_cast h

end

/-- C28. When `map_enumStr_to_real_space` returns, for a supercell with its Smith normal form and a labeling of all its
sites with species `0 … k-1`:
* every atom is at the position of the site its index `gIndx` points at, up to a superlattice vector;
* `gIndx` is a permutation of all the positions of the labeling, so that no site is missing and none is repeated;
* no two atoms coincide modulo the superlattice (provided the basis atoms do not coincide modulo the parent lattice);
* spins and concentrations are those of the labeling;
* the returned vectors generate the superlattice. -/
theorem C28_map_real_space (A : M3 ℝ) (hA : A.det ≠ 0) (dv : List V3) (k a b c d e f : ℕ) (ha : 0 < a) (hc : 0 < c)
    (hf : 0 < f) (hef : e < f) (s : SnfState) (hs : smithNormalForm (hnfMat a b c d e f) = some (.ok s))
    (labeling : List Char) (hlab : labeling.length = a * c * f * dv.length) (hk : LabelsBelow k labeling)
    (eps : ℝ) (mink : Bool)
    (hm : mink = true → 0 ≤ eps ∧ eps < 1 ∧ eps < |(A * castM (hnfMat a b c d e f)).det|) (sd : SpaceData)
    (hsd : mapToRealSpace A dv k eps (structOf a b c d e f s labeling) mink = .ok sd) :
    sd.aBas.length = a * c * f * dv.length ∧
    sd.gIndx.Perm ((List.range (a * c * f * dv.length)).map (fun i : ℕ => (i : ℤ))) ∧
    (∀ (i : ℕ) (p : V3) (g : ℤ), sd.aBas[i]? = some p → sd.gIndx[i]? = some g →
      p - sitePos (castM s.A * A⁻¹)⁻¹ (fun i => s.M i i) dv (a * c * f) g.toNat ∈
        ColLattice (A * castM (hnfMat a b c d e f))) ∧
    ((∀ i j, i < dv.length → j < dv.length → dv.getD i 0 - dv.getD j 0 ∈ ColLattice A → i = j) →
      ∀ (i j : ℕ) (p q : V3), i ≠ j → sd.aBas[i]? = some p → sd.aBas[j]? = some q →
        p - q ∉ ColLattice (A * castM (hnfMat a b c d e f))) ∧
    sd.spin = sd.gIndx.map (fun g => spinOf k (labelAt labeling g)) ∧
    (sd.x.length = k ∧ ∀ t, t < k → sd.x.getD t 0 =
      (labeling.countP (fun ch => decide (ch.toNat - 48 = t)) : ℚ) / (a * c * f * dv.length : ℕ)) ∧
    ColLattice sd.sLV.transpose = ColLattice (A * castM (hnfMat a b c d e f)) := by
  obtain ⟨uA, uB, hS, hM, hdet⟩ := snf_data hs
  have hH6 : IsHNF6 (a : ℤ) b c d e f := isHNF6_of ha hc hf hef
  rw [hnfMat_det] at hdet
  have hH0 : (hnfMat a b c d e f).det ≠ 0 := by
    rw [hnfMat_det]
    have := Nat.mul_pos (Nat.mul_pos ha hc) hf
    exact_mod_cast this.ne'
  -- the cell
  obtain ⟨slv, hslv, hlat⟩ : ∃ slv, superCell A (hnfMat a b c d e f) eps mink = .ok slv ∧
      ColLattice slv.transpose = ColLattice (A * castM (hnfMat a b c d e f)) := by
    cases mink with
    | false => exact ⟨_, rfl, by rw [Matrix.transpose_transpose]⟩
    | true =>
      obtain ⟨h0, h1, h2⟩ := hm rfl
      rcases C39_minkowski (A * castM (hnfMat a b c d e f)).transpose eps h0 h1 (by rwa [Matrix.det_transpose]) with h | ⟨N, h, hN, -⟩
      · exfalso
        have h' : superCell A (structOf a b c d e f s labeling).HNF eps true = .error .sysExit := h
        unfold mapToRealSpace at hsd
        simp only [h', bind, Except.bind] at hsd
        exact absurd hsd (by simp)
      · refine ⟨N, h, ?_⟩
        rw [hN, Matrix.transpose_transpose]
  rw [mapToRealSpace_eq A dv k eps a b c d e f s labeling mink hslv] at hsd
  simp only at hsd
  set S : GVec := fun i => s.M i i with hSdef
  set atoms := (List.range dv.length).flatMap (fun iD => (interiorPoints a b c d e f).map (fun z => (iD, z))) with hatoms
  by_cases hlen : atoms.length ≠ a * c * f * dv.length
  · rw [if_pos hlen] at hsd; exact absurd hsd (by simp)
  rw [if_neg hlen] at hsd
  rw [not_not] at hlen
  have hN : ((a * c * f : ℕ) : ℤ) = S 0 * S 1 * S 2 := hdet
  have hperm : (atoms.map (fun p => groupIndex s.A S p.1 p.2)).Perm
      ((List.range (a * c * f * dv.length)).map (fun i : ℕ => (i : ℤ))) := by
    by_cases hdv : dv.length = 0
    · have : atoms = [] := by rw [hatoms, hdv]; rfl
      rw [this, hdv]; simp
    refine gIndx_perm uA hS hM (interior_nodup hH6) ?_ ?_ hN
    · intro z hz w hw h
      exact interior_inequiv hH6 hz hw h
    · rw [hatoms, flat_length, mul_comm] at hlen
      exact Nat.eq_of_mul_eq_mul_right (by omega) hlen
  have hgs : ∀ g ∈ atoms.map (fun p => groupIndex s.A S p.1 p.2), g.toNat < labeling.length := by
    intro g hg
    have := hperm.mem_iff.mp hg
    rw [List.mem_map] at this
    obtain ⟨i, hi, rfl⟩ := this
    rw [List.mem_range] at hi
    omega
  obtain ⟨y, he, hy, hcount⟩ := spinLoop_ok k labeling (atoms.map (fun p => groupIndex s.A S p.1 p.2))
    (List.replicate k 0) [] (by simp) hgs hk
  rw [he] at hsd
  simp only [Except.ok.injEq] at hsd
  subst hsd
  have hpos : ∀ (i : ℕ) (p : V3) (g : ℤ), (atoms.map (fun p => (fun i => A.mulVec (fun j => (p.2 j : ℝ)) i + dv.getD p.1 0 i : V3)))[i]? = some p →
      (atoms.map (fun p => groupIndex s.A S p.1 p.2))[i]? = some g →
      p - sitePos (castM s.A * A⁻¹)⁻¹ S dv (a * c * f) g.toNat ∈ ColLattice (A * castM (hnfMat a b c d e f)) := by
    intro i p g hp hg
    rw [List.getElem?_map] at hp hg
    cases hq : atoms[i]? with
    | none => rw [hq] at hp; simp at hp
    | some q =>
      rw [hq] at hp hg
      simp only [Option.map_some, Option.some.injEq] at hp hg
      subst hp; subst hg
      exact point_pos hA uA uB hS hM hH0 hN dv q.1 q.2
  refine ⟨by simpa using hlen, hperm, hpos, ?_, by simp, ⟨by simpa using hy, ?_⟩, hlat⟩
  · intro hd i j p q hij hp hq hpq
    obtain ⟨htd, hAL, hSL⟩ := transform_facts hA uA uB hM hH0
    have hTd : (castM s.A * A⁻¹ : M3 ℝ)⁻¹.det ≠ 0 := by
      rw [Matrix.det_nonsing_inv, Ring.inverse_eq_inv]; exact inv_ne_zero htd
    rw [← hAL] at hd
    have hap := sites_apart hTd hS hd
    have hml : (memberList S).length = a * c * f := by
      rw [memberList_length hS, ← hN, Int.toNat_natCast]
    rw [hml] at hap
    have hsub := slat_isSub (castM s.A * A⁻¹ : M3 ℝ)⁻¹ S
    have hlen2 : (atoms.map (fun p => groupIndex s.A S p.1 p.2)).length =
        (atoms.map (fun p => (fun i => A.mulVec (fun j => (p.2 j : ℝ)) i + dv.getD p.1 0 i : V3))).length := by simp
    have hi := (List.getElem?_eq_some_iff.mp hp).1
    have hj := (List.getElem?_eq_some_iff.mp hq).1
    rw [← hlen2] at hi hj
    have gi := List.getElem?_eq_getElem hi
    have gj := List.getElem?_eq_getElem hj
    set u := (atoms.map (fun p => groupIndex s.A S p.1 p.2))[i] with hu
    set v := (atoms.map (fun p => groupIndex s.A S p.1 p.2))[j] with hv
    have p1 := hpos i p u hp gi
    have p2 := hpos j q v hq gj
    rw [← hSL] at p1 p2 hpq
    have hb : ∀ g ∈ atoms.map (fun p => groupIndex s.A S p.1 p.2), 0 ≤ g ∧ g.toNat < dv.length * (a * c * f) := by
      intro g hg
      have := hperm.mem_iff.mp hg
      rw [List.mem_map] at this
      obtain ⟨i, hi, rfl⟩ := this
      rw [List.mem_range] at hi
      rw [mul_comm dv.length]
      exact ⟨by omega, by omega⟩
    have hbu := hb u (List.getElem_mem _)
    have hbv := hb v (List.getElem_mem _)
    have huv : u.toNat = v.toNat := by
      apply hap _ _ hbu.2 hbv.2
      have h1 := hsub.add _ (hsub.add _ (hsub.neg _ p1) _ hpq) _ p2
      have : -(p - sitePos (castM s.A * A⁻¹)⁻¹ S dv (a * c * f) u.toNat) + (p - q) +
          (q - sitePos (castM s.A * A⁻¹)⁻¹ S dv (a * c * f) v.toNat) =
          sitePos (castM s.A * A⁻¹)⁻¹ S dv (a * c * f) u.toNat - sitePos (castM s.A * A⁻¹)⁻¹ S dv (a * c * f) v.toNat := by abel
      rwa [this] at h1
    have huv' : u = v := by omega
    have hnd : (atoms.map (fun p => groupIndex s.A S p.1 p.2)).Nodup := by
      rw [hperm.nodup_iff]
      exact List.nodup_range.map (fun x y h => by exact_mod_cast h)
    exact hij ((List.Nodup.getElem_inj_iff hnd).mp huv')
  · intro t ht
    have hyl : t < (y.map (fun u : ℕ => (u : ℚ) / (a * c * f * dv.length : ℕ))).length := by simpa [hy] using ht
    have hct := hcount t ht
    have hyt : t < y.length := by omega
    rw [List.getD_eq_getElem?_getD, List.getElem?_map, List.getElem?_eq_getElem hyt, Option.map_some, Option.getD_some]
    congr 1
    rw [List.getD_eq_getElem?_getD, List.getElem?_eq_getElem hyt, Option.getD_some] at hct
    rw [hct, (hperm.map (labelAt labeling)).count_eq]
    have hrange : ((List.range (a * c * f * dv.length)).map (fun i : ℕ => (i : ℤ))).map (labelAt labeling) =
        labeling.map (fun ch => ch.toNat - 48) := by
      rw [← hlab, List.map_map]
      apply List.ext_getElem
      · simp
      · intro i h1 h2
        simp [labelAt] at h1 ⊢
        simp [h1]
    rw [hrange]
    have hz : (List.replicate k 0).getD t 0 = 0 := by simp [List.getD_eq_getElem?_getD, List.getElem?_replicate, ht]
    rw [hz, zero_add, List.count, List.countP_map]
    congr 2

/-- C28. Without basis reduction the routine returns for exactly those supercells whose columns of points all start at
a non-negative or an integer height; for every other one it stops with "Didn't find the correct # of basis atoms". -/
theorem C28_returns_iff (A : M3 ℝ) (dv : List V3) (hdv : 0 < dv.length) (k a b c d e f : ℕ) (ha : 0 < a)
    (hc : 0 < c) (hf : 0 < f) (hef : e < f) (s : SnfState) (hs : smithNormalForm (hnfMat a b c d e f) = some (.ok s))
    (labeling : List Char) (hlab : labeling.length = a * c * f * dv.length) (hk : LabelsBelow k labeling) (eps : ℝ) :
    let Full := ∀ z1 z2 : ℤ, 0 ≤ z1 → z1 < a → ⌊(b * z1 / a : ℚ)⌋ ≤ z2 → z2 < ⌊(b * z1 / a : ℚ)⌋ + c →
      0 ≤ (z1 * (d - e * b / c) / a + e * z2 / c : ℚ) ∨ ∃ m : ℤ, (z1 * (d - e * b / c) / a + e * z2 / c : ℚ) = m
    (Full → ∃ sd, mapToRealSpace A dv k eps (structOf a b c d e f s labeling) false = .ok sd) ∧
    (¬ Full → mapToRealSpace A dv k eps (structOf a b c d e f s labeling) false = .error .sysExit) := by
  intro Full
  obtain ⟨uA, uB, hS, hM, hdet⟩ := snf_data hs
  have hH6 : IsHNF6 (a : ℤ) b c d e f := isHNF6_of ha hc hf hef
  rw [hnfMat_det] at hdet
  have hfull : Full ↔ ((List.range dv.length).flatMap (fun iD => (interiorPoints a b c d e f).map (fun z => (iD, z)))).length
      = a * c * f * dv.length := by
    rw [complete_iff ha hc hf hef _ hdv]
    simp only [colFull, zOff, Full]
    push_cast
    rfl
  rw [mapToRealSpace_eq A dv k eps a b c d e f s labeling false rfl]
  simp only
  constructor
  · intro hF
    have hlen := hfull.mp hF
    rw [if_neg (not_not.mpr hlen)]
    have hlen' : (interiorPoints a b c d e f).length = a * c * f := by
      rw [flat_length, mul_comm] at hlen
      exact Nat.eq_of_mul_eq_mul_right hdv hlen
    have hperm := gIndx_perm (nd := dv.length) uA hS hM (interior_nodup hH6)
      (fun z hz w hw h => interior_inequiv hH6 hz hw h) hlen' hdet
    obtain ⟨y, he, -⟩ := spinLoop_ok k labeling _ (List.replicate k 0) [] (by simp) (by
      intro g hg
      have := hperm.mem_iff.mp hg
      rw [List.mem_map] at this
      obtain ⟨i, hi, rfl⟩ := this
      rw [List.mem_range] at hi
      omega) hk
    rw [he]
    exact ⟨_, rfl⟩
  · intro hF
    rw [if_pos (fun h => hF (hfull.mpr h))]

/-- C28. In particular it returns whenever `a` divides `b` or `e` is zero. -/
theorem C28_returns (A : M3 ℝ) (dv : List V3) (hdv : 0 < dv.length) (k a b c d e f : ℕ) (ha : 0 < a)
    (hc : 0 < c) (hf : 0 < f) (hef : e < f) (hbe : a ∣ b ∨ e = 0) (s : SnfState)
    (hs : smithNormalForm (hnfMat a b c d e f) = some (.ok s))
    (labeling : List Char) (hlab : labeling.length = a * c * f * dv.length) (hk : LabelsBelow k labeling) (eps : ℝ) :
    ∃ sd, mapToRealSpace A dv k eps (structOf a b c d e f s labeling) false = .ok sd := by
  apply (C28_returns_iff A dv hdv k a b c d e f ha hc hf hef s hs labeling hlab hk eps).1
  intro z1 z2 h1 h2 h3 h4
  left
  have haq : (0 : ℚ) < a := by exact_mod_cast ha
  have hcq : (0 : ℚ) < c := by exact_mod_cast hc
  have hz1 : (0 : ℚ) ≤ z1 := by exact_mod_cast h1
  have hfirst : (0 : ℚ) ≤ z1 * d / a := div_nonneg (mul_nonneg hz1 (by positivity)) haq.le
  have hsplit : (z1 * (d - e * b / c) / a + e * z2 / c : ℚ) = z1 * d / a + e / c * (z2 - b * z1 / a) := by
    field_simp; ring
  rw [hsplit]
  rcases hbe with ⟨q, hq⟩ | h0
  · have hfl : ((b : ℚ) * z1 / a) = ((q * z1 : ℤ) : ℚ) := by
      rw [hq]; push_cast; field_simp
    rw [hfl, Int.floor_intCast] at h3
    rw [hfl]
    have : ((q * z1 : ℤ) : ℚ) ≤ z2 := by exact_mod_cast h3
    have h5 : (0 : ℚ) ≤ (e : ℚ) / c := by positivity
    have := mul_nonneg h5 (sub_nonneg.mpr this)
    linarith
  · rw [h0]; simpa using hfirst

/-- C28. The counterexample: for this supercell of size 8, which the enumeration lists, the routine stops, whatever the
lattice, the basis atoms and the labeling. -/
theorem C28_missed_point (A : M3 ℝ) (dv : List V3) (hdv : 0 < dv.length) (k : ℕ) (s : SnfState)
    (hs : smithNormalForm (hnfMat 2 1 2 0 1 2) = some (.ok s)) (labeling : List Char)
    (hlab : labeling.length = 8 * dv.length) (hk : LabelsBelow k labeling) (eps : ℝ) :
    hnfMat 2 1 2 0 1 2 ∈ findAllHNFs 8 ∧
    mapToRealSpace A dv k eps (structOf 2 1 2 0 1 2 s labeling) false = .error .sysExit := by
  constructor
  · unfold findAllHNFs
    rw [List.mem_flatMap]
    refine ⟨(2, 2, 2), by decide +kernel, ?_⟩
    simp only [List.mem_flatMap, List.mem_map, List.mem_range]
    exact ⟨1, by norm_num, 0, by norm_num, 1, by norm_num, rfl⟩
  · refine (C28_returns_iff A dv hdv k 2 1 2 0 1 2 (by norm_num) (by norm_num) (by norm_num) (by norm_num) s hs labeling
      (by rw [hlab]) hk eps).2 ?_
    intro h
    have hfl : ⌊((1 : ℕ) * (1 : ℤ) / (2 : ℕ) : ℚ)⌋ = 0 := by norm_num
    rcases h 1 0 (by norm_num) (by norm_num) (by rw [hfl]) (by rw [hfl]; norm_num) with h | ⟨m, h⟩
    · norm_num at h
    · norm_num at h
      have h2 : (4 * m : ℚ) = -1 := by rw [← h]; norm_num
      have : 4 * m = -1 := by exact_mod_cast h2
      omega

/-- C28. Spins tell the species apart, and with an even number of species no spin is 0. -/
theorem C28_spins (k i j : ℕ) : (spinOf k i = spinOf k j → i = j) ∧ (k % 2 = 0 → spinOf k i ≠ 0) ∧
    (i < k → -((k / 2 : ℕ) : ℤ) ≤ spinOf k i ∧ spinOf k i ≤ ((k / 2 : ℕ) : ℤ)) := by
  unfold spinOf
  by_cases hk : k % 2 = 0
  · simp only [hk, if_true]
    refine ⟨?_, ?_, ?_⟩
    · intro h; split at h <;> split at h <;> omega
    · intro _; split <;> omega
    · intro hi; split <;> omega
  · simp only [hk, if_false]
    refine ⟨?_, ?_, ?_⟩
    · intro h; omega
    · intro h; exact absurd h (by simp)
    · intro hi; omega

/-- A supercell of two cells with two basis atoms: all hypotheses are met. -/
example : ∃ s, smithNormalForm (hnfMat 1 0 1 1 1 2) = some (.ok s) ∧
    ∃ sd, mapToRealSpace 1 [![0, 0, 0], ![1 / 4, 1 / 4, 1 / 4]] 2 0 (structOf 1 0 1 1 1 2 s ['0', '1', '1', '0']) false = .ok sd := by
  obtain ⟨s, hs⟩ := C24_smith_succeeds (hnfMat 1 0 1 1 1 2) (by rw [hnfMat_det]; norm_num) (by rw [hnfMat_det]; norm_num)
  exact ⟨s, hs, C28_returns 1 _ (by simp) 2 1 0 1 1 1 2 (by norm_num) (by norm_num) (by norm_num) (by norm_num)
    (Or.inl (by norm_num)) s hs _ (by simp) (by unfold LabelsBelow; decide) 0⟩

end Phenum
