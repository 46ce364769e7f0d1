import Verif.Props.RealSpace
import Verif.Proof.RealSpaceFloat35
/-
C71: mapping a structure to real space with the limits of the loops in double precision.
-/
namespace Phenum
open Spec

/-- what the run in floating point does, once the cell is known -/
theorem mapToRealSpaceF_eq (fl : ℚ → ℚ) (A : M3 ℝ) (dv : List V3) (k : ℕ) (eps : ℝ) (a b c d e f : ℕ) (s : SnfState)
    (labeling : List Char) (mink : Bool) {slv : M3 ℝ} (hm : superCell A (hnfMat a b c d e f) eps mink = .ok slv) :
    mapToRealSpaceF fl A dv k eps (structOf a b c d e f s labeling) mink =
      (let atoms := (List.range dv.length).flatMap (fun iD => (interiorPointsF fl a b c d e f).map (fun z => (iD, z)))
       if atoms.length ≠ a * c * f * dv.length then .error .sysExit else
       match spinLoop k labeling (atoms.map (fun p => groupIndex s.A (fun i => s.M i i) p.1 p.2)) (List.replicate k 0) [] with
       | .error e => .error e
       | .ok (spin, x) => .ok ⟨slv, atoms.map (fun p => (fun i => A.mulVec (fun j => (p.2 j : ℝ)) i + dv.getD p.1 0 i : V3)),
           spin, atoms.map (fun p => groupIndex s.A (fun i => s.M i i) p.1 p.2),
           x.map (fun u : ℕ => fl ((u : ℚ) / (a * c * f * dv.length : ℕ)))⟩) := by
  have hm' : superCell A (structOf a b c d e f s labeling).HNF eps mink = .ok slv := hm
  unfold mapToRealSpaceF
  simp only [hm', bind, Except.bind]
  change (if ((List.range dv.length).flatMap (fun iD => (interiorPointsF fl a b c d e f).map (fun z => (iD, z)))).length ≠
    a * c * f * dv.length then _ else _) = _
  split
  · rfl
  · split
    · rename_i e' h
      rw [show spinLoop k labeling (((List.range dv.length).flatMap (fun iD => (interiorPointsF fl a b c d e f).map
        (fun z => (iD, z)))).map (fun p => groupIndex s.A (fun i => s.M i i) p.1 p.2)) (List.replicate k 0) [] = .error e' from h]
    · rename_i v h
      rw [show spinLoop k labeling (((List.range dv.length).flatMap (fun iD => (interiorPointsF fl a b c d e f).map
        (fun z => (iD, z)))).map (fun p => groupIndex s.A (fun i => s.M i i) p.1 p.2)) (List.replicate k 0) [] = .ok v from h]
      rfl

/-- with the same points the two runs agree up to the rounding of the concentrations -/
theorem mapToRealSpaceF_same {fl : ℚ → ℚ} {a b c d e f : ℕ} (hp : interiorPointsF fl a b c d e f = interiorPoints a b c d e f)
    (A : M3 ℝ) (dv : List V3) (k : ℕ) (eps : ℝ) (s : SnfState) (labeling : List Char) (mink : Bool) :
    mapToRealSpaceF fl A dv k eps (structOf a b c d e f s labeling) mink =
      (mapToRealSpace A dv k eps (structOf a b c d e f s labeling) mink).map (fun sd => { sd with x := sd.x.map fl }) := by
  cases hm : superCell A (hnfMat a b c d e f) eps mink with
  | error er =>
    have hm' : superCell A (structOf a b c d e f s labeling).HNF eps mink = .error er := hm
    unfold mapToRealSpaceF mapToRealSpace
    simp only [hm', bind, Except.bind]
    rfl
  | ok slv =>
    rw [mapToRealSpaceF_eq fl A dv k eps a b c d e f s labeling mink hm,
      mapToRealSpace_eq A dv k eps a b c d e f s labeling mink hm, hp]
    simp only
    split
    · rfl
    · generalize spinLoop k labeling _ _ _ = r
      rcases r with er | ⟨spin, x⟩
      · rfl
      · simp [Except.map, Function.comp_def]

/-- columns with integer limits, over the naturals -/
theorem hex_of_dyadic {fl : ℚ → ℚ} (hfl : RoundsToNearest fl) {a b c d e f : ℕ} (H : IsHNF6 (a : ℤ) b c d e f) (hbc : b < c)
    (hdf : d < f) (hN : a * c * f ≤ 2 ^ 49)
    (hx : ∀ z1 z2 : ℤ, 0 ≤ z1 → z1 < a → (∃ m : ℤ, zOff a b c d e z1 z2 = m) →
      z1 = 0 ∨ IsDyadic (((e * b : ℤ) : ℚ) / ((c : ℤ) : ℚ)) ∧
        IsDyadic ((z1 : ℚ) * (((d : ℤ) : ℚ) - ((e * b : ℤ) : ℚ) / ((c : ℤ) : ℚ)) / ((a : ℤ) : ℚ))) :
    interiorPointsF fl a b c d e f = interiorPoints a b c d e f := by
  have hN' : (a : ℤ) * c * f ≤ 2 ^ 49 := by exact_mod_cast hN
  have hbc' : (b : ℤ) < c := by exact_mod_cast hbc
  have hdf' : (d : ℤ) < f := by exact_mod_cast hdf
  apply interiorPointsF_eq hfl H hbc' hdf' hN'
  intro z1 z2 h0 h1 h2 h3 m hm
  have ha : (0 : ℚ) < ((a : ℤ) : ℚ) := by exact_mod_cast H.a0
  have hfl0 : 0 ≤ ⌊((b * z1 : ℤ) : ℚ) / ((a : ℤ) : ℚ)⌋ :=
    Int.floor_nonneg.2 (div_nonneg (by exact_mod_cast mul_nonneg H.b0 h0) ha.le)
  have hflc : ⌊((b * z1 : ℤ) : ℚ) / ((a : ℤ) : ℚ)⌋ ≤ c := by
    have h1 : ((b * z1 : ℤ) : ℚ) / ((a : ℤ) : ℚ) ≤ ((c : ℤ) : ℚ) := by
      rw [div_le_iff₀ ha]
      have : (b : ℤ) * z1 ≤ c * a := by nlinarith [H.b0]
      exact_mod_cast this
    have := (Int.floor_le (((b * z1 : ℤ) : ℚ) / ((a : ℤ) : ℚ))).trans h1
    exact_mod_cast this
  obtain ⟨e1, e2⟩ := z3_exact hfl H hbc' hdf' hN' h0 h1 (by omega) (by omega) hm (hx z1 z2 h0 h1 ⟨m, hm⟩)
  rw [e1, e2]
  refine ⟨intTrunc_int m, ?_⟩
  rw [← intTrunc_int (f + m)]; push_cast; rfl

/-- C71. Rounding has no effect on the atoms found, for any supercell of up to 2^49 cells in which one of the following
holds: `a = 1`, `c = 1`, `e = 0`, or `a` and `c` are powers of two. There the routine does what it does in exact
arithmetic (C28), up to one rounding of each concentration. -/
theorem C71_safe (fl : ℚ → ℚ) (hfl : RoundsToNearest fl) (a b c d e f : ℕ) (ha : 0 < a) (hf : 0 < f) (hbc : b < c)
    (hdf : d < f) (hef : e < f) (hN : a * c * f ≤ 2 ^ 49)
    (hsafe : a = 1 ∨ c = 1 ∨ e = 0 ∨ ∃ i j : ℕ, a = 2 ^ i ∧ c = 2 ^ j)
    (A : M3 ℝ) (dv : List V3) (k : ℕ) (eps : ℝ) (s : SnfState) (labeling : List Char) (mink : Bool) :
    mapToRealSpaceF fl A dv k eps (structOf a b c d e f s labeling) mink =
      (mapToRealSpace A dv k eps (structOf a b c d e f s labeling) mink).map (fun sd => { sd with x := sd.x.map fl }) := by
  have hc : 0 < c := by omega
  have H : IsHNF6 (a : ℤ) b c d e f := isHNF6_of ha hc hf hef
  apply mapToRealSpaceF_same
  apply hex_of_dyadic hfl H hbc hdf hN
  rintro z1 z2 h0 h1 ⟨m, hm⟩
  unfold zOff at hm
  rcases hsafe with rfl | rfl | rfl | ⟨i, j, rfl, rfl⟩
  · left; push_cast at h1; omega
  · right
    have hb : b = 0 := by omega
    subst hb
    have e1 : (((e : ℤ) * ((0 : ℕ) : ℤ) : ℤ) : ℚ) / ((((1 : ℕ) : ℤ)) : ℚ) = ((0 : ℤ) : ℚ) := by simp
    rw [e1] at hm ⊢
    refine ⟨isDyadic_int 0, ?_⟩
    have : (z1 : ℚ) * (((d : ℤ) : ℚ) - ((0 : ℤ) : ℚ)) / ((a : ℤ) : ℚ) = ((m - e * z2 : ℤ) : ℚ) := by
      rw [eq_sub_of_add_eq hm]; push_cast; ring
    rw [this]
    exact isDyadic_int _
  · right
    have e1 : (((((0 : ℕ) : ℤ)) * (b : ℤ) : ℤ) : ℚ) / ((c : ℤ) : ℚ) = ((0 : ℤ) : ℚ) := by simp
    rw [e1] at hm ⊢
    refine ⟨isDyadic_int 0, ?_⟩
    have : (z1 : ℚ) * (((d : ℤ) : ℚ) - ((0 : ℤ) : ℚ)) / ((a : ℤ) : ℚ) = ((m : ℤ) : ℚ) := by
      rw [← hm]; simp
    rw [this]
    exact isDyadic_int _
  · right
    have q1 : IsDyadic ((((e : ℤ) * (b : ℤ) : ℤ) : ℚ) / ((((2 ^ j : ℕ) : ℤ)) : ℚ)) := by
      have := isDyadic_div_pow ((e : ℤ) * b) j
      push_cast at this ⊢; exact this
    refine ⟨q1, ?_⟩
    have q2 : IsDyadic ((z1 : ℚ) * (((d : ℤ) : ℚ) - (((e : ℤ) * (b : ℤ) : ℤ) : ℚ) / ((((2 ^ j : ℕ) : ℤ)) : ℚ))) := by
      refine (isDyadic_int z1).mul ?_
      rw [sub_eq_add_neg]; exact (isDyadic_int d).add q1.neg
    rw [div_eq_mul_inv]
    refine q2.mul ⟨i, 1, ?_⟩
    push_cast
    rw [inv_mul_cancel₀ (by positivity)]

/-- C71. In IEEE double precision rounding has no effect for any supercell of at most 35 cells. -/
theorem C71_up_to_35 (a b c d e f : ℕ) (ha : 0 < a) (hf : 0 < f) (hbc : b < c) (hdf : d < f) (hef : e < f)
    (hN : a * c * f ≤ 35) (A : M3 ℝ) (dv : List V3) (k : ℕ) (eps : ℝ) (s : SnfState) (labeling : List Char) (mink : Bool) :
    mapToRealSpaceF fl53 A dv k eps (structOf a b c d e f s labeling) mink =
      (mapToRealSpace A dv k eps (structOf a b c d e f s labeling) mink).map (fun sd => { sd with x := sd.x.map fl53 }) := by
  have hc : 0 < c := by omega
  have pow2 : ∀ n : ℕ, isPow2 n = true → ∃ i, n = 2 ^ i := by
    intro n hn
    unfold isPow2 at hn
    simp only [Bool.or_eq_true, beq_iff_eq] at hn
    rcases hn with ((h | h) | h) | h
    · exact ⟨0, h⟩
    · exact ⟨1, h⟩
    · exact ⟨2, h⟩
    · exact ⟨3, h⟩
  by_cases hsafe : a = 1 ∨ c = 1 ∨ e = 0 ∨ (isPow2 a = true ∧ isPow2 c = true)
  · apply C71_safe fl53 fl53_nearest a b c d e f ha hf hbc hdf hef (by omega)
    rcases hsafe with h | h | h | ⟨h1, h2⟩
    · exact Or.inl h
    · exact Or.inr (Or.inl h)
    · exact Or.inr (Or.inr (Or.inl h))
    · obtain ⟨i, hi⟩ := pow2 a h1
      obtain ⟨j, hj⟩ := pow2 c h2
      exact Or.inr (Or.inr (Or.inr ⟨i, j, hi, hj⟩))
  · rw [not_or, not_or, not_or] at hsafe
    obtain ⟨h1, h2, h3, h4⟩ := hsafe
    have hd := diagOk_of (by omega) (by omega) (by omega : 2 ≤ f) hN h4
    have H : IsHNF6 (a : ℤ) b c d e f := isHNF6_of ha hc hf hef
    have hN' : (a : ℤ) * c * f ≤ 2 ^ 49 := by
      have : (a : ℤ) * c * f ≤ 35 := by exact_mod_cast hN
      omega
    have hbc' : (b : ℤ) < c := by exact_mod_cast hbc
    have hdf' : (d : ℤ) < f := by exact_mod_cast hdf
    apply mapToRealSpaceF_same
    apply interiorPointsF_eq fl53_nearest H hbc' hdf' hN'
    intro z1 z2 g0 g1 g2 g3 m hm
    have hfloor : ⌊((b * z1 : ℤ) : ℚ) / ((a : ℤ) : ℚ)⌋ = b * z1 / a := Rat.floor_intCast_div_natCast _ _
    rw [hfloor] at g2 g3
    obtain ⟨z, rfl⟩ : ∃ z : ℕ, z1 = z := ⟨z1.toNat, by omega⟩
    have hq : ((b : ℤ) * z / a) = ((b * z / a : ℕ) : ℤ) := by push_cast; rfl
    rw [hq] at g2 g3
    obtain ⟨t, ht⟩ : ∃ t : ℕ, z2 = ((b * z / a + t : ℕ) : ℤ) := ⟨(z2 - ((b * z / a : ℕ) : ℤ)).toNat, by push_cast at g2 ⊢; omega⟩
    have htc : t < c := by rw [ht] at g3; push_cast at g3; omega
    have hden := zOff_den fl53_nearest H hbc' hdf' hN' (z : ℤ) z2
    rw [hm] at hden
    have hnum : (z : ℤ) * (d * c - e * b) + e * z2 * a = m * (a * c) := by exact_mod_cast hden.symm
    have hac : (a : ℤ) * c ≠ 0 := (mul_pos H.a0 H.c0).ne'
    by_cases hz0 : z = 0
    · subst hz0
      have hx : (((0 : ℕ) : ℤ)) = 0 := rfl
      have ht' : z2 = t := by rw [ht]; simp
      obtain ⟨e1, e2⟩ := z3_exact fl53_nearest H hbc' hdf' hN' g0 g1 (by rw [ht']; exact Int.natCast_nonneg t)
        (by rw [ht']; omega) hm (Or.inl hx)
      rw [e1, e2]
      refine ⟨intTrunc_int m, ?_⟩
      rw [← intTrunc_int (f + m)]; push_cast; rfl
    · have hok := colOk_of hd hbc hdf hef h3 (by exact_mod_cast g1) hz0 htc
      rw [← ht] at hok
      unfold colOk at hok
      rw [hnum, Int.mul_ediv_cancel _ hac, Int.mul_emod_left] at hok
      simpa using hok

/-- C71. So for at most 35 cells, when the routine returns in double precision, no site is missing and none is repeated,
every atom is at the position of its site, spins are those of the labeling and concentrations are those of the labeling,
rounded once. -/
theorem C71_map_real_space (A : M3 ℝ) (hA : A.det ≠ 0) (dv : List V3) (k a b c d e f : ℕ) (ha : 0 < a) (hf : 0 < f)
    (hbc : b < c) (hdf : d < f) (hef : e < f) (hN : a * c * f ≤ 35) (s : SnfState)
    (hs : smithNormalForm (hnfMat a b c d e f) = some (.ok s))
    (labeling : List Char) (hlab : labeling.length = a * c * f * dv.length) (hk : LabelsBelow k labeling)
    (eps : ℝ) (sd : SpaceData)
    (hsd : mapToRealSpaceF fl53 A dv k eps (structOf a b c d e f s labeling) false = .ok sd) :
    sd.gIndx.Perm ((List.range (a * c * f * dv.length)).map (fun i : ℕ => (i : ℤ))) ∧
    (∀ (i : ℕ) (p : V3) (g : ℤ), sd.aBas[i]? = some p → sd.gIndx[i]? = some g →
      p - sitePos (castM s.A * A⁻¹)⁻¹ (fun i => s.M i i) dv (a * c * f) g.toNat ∈
        ColLattice (A * castM (hnfMat a b c d e f))) ∧
    sd.spin = sd.gIndx.map (fun g => spinOf k (labelAt labeling g)) ∧
    sd.x.length = k ∧ ∀ t, t < k → sd.x.getD t 0 =
      fl53 ((labeling.countP (fun ch => decide (ch.toNat - 48 = t)) : ℚ) / (a * c * f * dv.length : ℕ)) := by
  rw [C71_up_to_35 a b c d e f ha hf hbc hdf hef hN] at hsd
  cases hr : mapToRealSpace A dv k eps (structOf a b c d e f s labeling) false with
  | error er => rw [hr] at hsd; exact absurd hsd (by simp [Except.map])
  | ok sd0 =>
    rw [hr] at hsd
    simp only [Except.map, Except.ok.injEq] at hsd
    subst hsd
    obtain ⟨-, h2, h3, -, h5, h6, -⟩ := C28_map_real_space A hA dv k a b c d e f ha (by omega) hf hef s hs labeling hlab hk eps false
      (by simp) sd0 hr
    refine ⟨h2, h3, h5, by simpa using h6.1, ?_⟩
    intro t ht
    have := h6.2 t ht
    have hl : t < sd0.x.length := by omega
    rw [List.getD_eq_getElem?_getD, List.getElem?_eq_getElem hl, Option.getD_some] at this
    simp only [List.getD_eq_getElem?_getD, List.getElem?_map, List.getElem?_eq_getElem hl, Option.map_some, Option.getD_some]
    rw [this]

/-- C71. From 36 cells on it does have an effect. For this supercell of 36 cells, which the enumeration lists, the routine
returns in exact arithmetic; in double precision it visits 37 points and stops. -/
theorem C71_refused (A : M3 ℝ) (dv : List V3) (hdv : 0 < dv.length) (k : ℕ) (s : SnfState)
    (hs : smithNormalForm (hnfMat 2 5 6 1 2 3) = some (.ok s)) (labeling : List Char)
    (hlab : labeling.length = 36 * dv.length) (hk : LabelsBelow k labeling) (eps : ℝ) :
    hnfMat 2 5 6 1 2 3 ∈ findAllHNFs 36 ∧
    (∃ sd, mapToRealSpace A dv k eps (structOf 2 5 6 1 2 3 s labeling) false = .ok sd) ∧
    mapToRealSpaceF fl53 A dv k eps (structOf 2 5 6 1 2 3 s labeling) false = .error .sysExit := by
  refine ⟨?_, ?_, ?_⟩
  · unfold findAllHNFs
    rw [List.mem_flatMap]
    refine ⟨(2, 6, 3), by decide +kernel, ?_⟩
    simp only [List.mem_flatMap, List.mem_map, List.mem_range]
    exact ⟨5, by norm_num, 1, by norm_num, 2, by norm_num, rfl⟩
  · apply (C28_returns_iff A dv hdv k 2 5 6 1 2 3 (by norm_num) (by norm_num) (by norm_num) (by norm_num) s hs labeling
      (by rw [hlab]) hk eps).1
    intro z1 z2 h1 h2 h3 h4
    left
    have hz : z1 = 0 ∨ z1 = 1 := by push_cast at h2; omega
    rcases hz with rfl | rfl
    · have : (0 : ℤ) ≤ z2 := by simpa using h3
      have : (0 : ℚ) ≤ z2 := by exact_mod_cast this
      norm_num
      linarith
    · have e : ⌊(((5 : ℕ) : ℚ) * ((1 : ℤ) : ℚ) / ((2 : ℕ) : ℚ))⌋ = 2 := by norm_num
      rw [e] at h3
      have : (2 : ℚ) ≤ z2 := by exact_mod_cast h3
      norm_num
      linarith
  · rw [mapToRealSpaceF_eq fl53 A dv k eps 2 5 6 1 2 3 s labeling false rfl]
    simp only
    have hl : (interiorPointsF fl53 (2 : ℕ) (5 : ℕ) (6 : ℕ) (1 : ℕ) (2 : ℕ) (3 : ℕ)).length = 37 := by decide +kernel
    rw [flat_length, hl, if_pos (by omega)]

/-- C71. The worse failure: for this supercell of 42 cells, which the enumeration lists, the routine returns in double
precision whatever the lattice, the basis atoms and the labeling, but two of the atoms it returns are at the same place
modulo the superlattice (and have the same index), and a site of the crystal is without an atom. -/
theorem C71_silent (A : M3 ℝ) (dv : List V3) (hdv : 0 < dv.length) (k : ℕ) (s : SnfState)
    (hs : smithNormalForm (hnfMat 2 5 7 0 2 3) = some (.ok s)) (labeling : List Char)
    (hlab : labeling.length = 42 * dv.length) (hk : LabelsBelow k labeling) (eps : ℝ) :
    hnfMat 2 5 7 0 2 3 ∈ findAllHNFs 42 ∧
    ∃ sd, mapToRealSpaceF fl53 A dv k eps (structOf 2 5 7 0 2 3 s labeling) false = .ok sd ∧
      (∃ (i j : ℕ) (p q : V3) (g : ℤ), i ≠ j ∧ sd.aBas[i]? = some p ∧ sd.aBas[j]? = some q ∧
        p - q ∈ ColLattice (A * castM (hnfMat 2 5 7 0 2 3)) ∧ sd.gIndx[i]? = some g ∧ sd.gIndx[j]? = some g) ∧
      ∃ g : ℕ, g < 42 * dv.length ∧ (g : ℤ) ∉ sd.gIndx := by
  constructor
  · unfold findAllHNFs
    rw [List.mem_flatMap]
    refine ⟨(2, 7, 3), by decide +kernel, ?_⟩
    simp only [List.mem_flatMap, List.mem_map, List.mem_range]
    exact ⟨5, by norm_num, 0, by norm_num, 2, by norm_num, rfl⟩
  · obtain ⟨uA, uB, hS, hM, hdet⟩ := snf_data hs
    rw [hnfMat_det] at hdet
    rw [mapToRealSpaceF_eq fl53 A dv k eps 2 5 7 0 2 3 s labeling false rfl]
    simp only
    set S : GVec := fun i => s.M i i with hSdef
    have hl : (interiorPointsF fl53 (2 : ℕ) (5 : ℕ) (7 : ℕ) (0 : ℕ) (2 : ℕ) (3 : ℕ)).length = 42 := by decide +kernel
    have hz : (![1, 6, 0] : GVec) ∈ interiorPointsF fl53 (2 : ℕ) (5 : ℕ) (7 : ℕ) (0 : ℕ) (2 : ℕ) (3 : ℕ) := by decide +kernel
    have hw : (![1, 6, 3] : GVec) ∈ interiorPointsF fl53 (2 : ℕ) (5 : ℕ) (7 : ℕ) (0 : ℕ) (2 : ℕ) (3 : ℕ) := by decide +kernel
    set pts := interiorPointsF fl53 (2 : ℕ) (5 : ℕ) (7 : ℕ) (0 : ℕ) (2 : ℕ) (3 : ℕ) with hpts
    set atoms := (List.range dv.length).flatMap (fun iD => pts.map (fun z => (iD, z))) with hatoms
    have hlen : atoms.length = 42 * dv.length := by rw [hatoms, flat_length, hl, mul_comm]
    have hN : (42 : ℤ) = S 0 * S 1 * S 2 := by rw [← hdet]; norm_num
    have hb : ∀ z : GVec, 0 ≤ enc S (red S (s.A.mulVec z)) ∧ enc S (red S (s.A.mulVec z)) < 42 := by
      intro z
      rw [hN]
      exact ⟨enc_nonneg hS (red_valid hS _), enc_lt hS (red_valid hS _)⟩
    have hgs : ∀ g ∈ atoms.map (fun p => groupIndex s.A S p.1 p.2), g.toNat < labeling.length := by
      intro g hg
      rw [List.mem_map] at hg
      obtain ⟨⟨i, z⟩, hp, rfl⟩ := hg
      rw [hatoms, mem_flat] at hp
      simp only [groupIndex_eq, ← hN]
      have := hb z
      have := hp.1
      simp only at this
      omega
    obtain ⟨y, he, -, -⟩ := spinLoop_ok k labeling (atoms.map (fun p => groupIndex s.A S p.1 p.2))
      (List.replicate k 0) [] (by simp) hgs hk
    rw [if_neg (by rw [hlen]; simp), he]
    refine ⟨_, rfl, ?_⟩
    simp only
    -- the two points
    have hH : (hnfMat 2 5 7 0 2 3).mulVec ![0, 0, 1] = (![1, 6, 3] : GVec) - ![1, 6, 0] := by
      funext i; fin_cases i <;> simp [hnfMat, Matrix.mulVec, dotProduct, Fin.sum_univ_three]
    have hidx : groupIndex s.A S 0 ![1, 6, 3] = groupIndex s.A S 0 ![1, 6, 0] := by
      rw [groupIndex_eq, groupIndex_eq]
      congr 2
      funext i
      unfold red
      have hd : S i ∣ s.A.mulVec ![1, 6, 3] i - s.A.mulVec ![1, 6, 0] i := by
        have e1 : s.A * hnfMat 2 5 7 0 2 3 = Matrix.diagonal S * s.B⁻¹ := by
          rw [← hM, Matrix.mul_assoc, Matrix.mul_nonsing_inv _ uB, Matrix.mul_one]
        have e2 : s.A.mulVec ((![1, 6, 3] : GVec) - ![1, 6, 0]) = (Matrix.diagonal S).mulVec (s.B⁻¹.mulVec ![0, 0, 1]) := by
          rw [← hH, Matrix.mulVec_mulVec, e1, Matrix.mulVec_mulVec]
        have e3 := congrFun e2 i
        rw [Matrix.mulVec_sub, Pi.sub_apply, Matrix.mulVec_diagonal] at e3
        rw [e3]; exact dvd_mul_right _ _
      exact ((Int.modEq_iff_dvd).2 hd).symm
    have mz : ((0, ![1, 6, 0]) : ℕ × GVec) ∈ atoms := by rw [hatoms, mem_flat]; exact ⟨hdv, hz⟩
    have mw : ((0, ![1, 6, 3]) : ℕ × GVec) ∈ atoms := by rw [hatoms, mem_flat]; exact ⟨hdv, hw⟩
    obtain ⟨j, hj⟩ := List.getElem?_of_mem mz
    obtain ⟨i, hi⟩ := List.getElem?_of_mem mw
    have hij : i ≠ j := by
      rintro rfl
      rw [hi] at hj
      have := congrFun (Prod.mk.inj (Option.some.inj hj)).2 2
      simp at this
    have gi : (atoms.map (fun p => groupIndex s.A S p.1 p.2))[i]? = some (groupIndex s.A S 0 ![1, 6, 0]) := by
      rw [List.getElem?_map, hi]; simp only [Option.map_some]; rw [hidx]
    have gj : (atoms.map (fun p => groupIndex s.A S p.1 p.2))[j]? = some (groupIndex s.A S 0 ![1, 6, 0]) := by
      rw [List.getElem?_map, hj]; rfl
    constructor
    · refine ⟨i, j, _, _, groupIndex s.A S 0 ![1, 6, 0], hij, by rw [List.getElem?_map, hi]; rfl,
        by rw [List.getElem?_map, hj]; rfl, ?_, gi, gj⟩
      refine ⟨![0, 0, 1], ?_⟩
      have hc : (castM (hnfMat 2 5 7 0 2 3) : M3 ℝ).mulVec (fun i => (((![0, 0, 1] : GVec) i : ℤ) : ℝ)) =
          (fun i => (((![1, 6, 3] : GVec) i : ℤ) : ℝ)) - (fun i => (((![1, 6, 0] : GVec) i : ℤ) : ℝ)) := by
        funext i; fin_cases i <;> simp [castM, hnfMat, Matrix.mulVec, dotProduct, Fin.sum_univ_three]
      rw [← Matrix.mulVec_mulVec, hc, Matrix.mulVec_sub]
      funext i
      simp
    · by_contra hcon
      push Not at hcon
      have hsub : (List.range (42 * dv.length)).map (fun i : ℕ => (i : ℤ)) ⊆ atoms.map (fun p => groupIndex s.A S p.1 p.2) := by
        intro x hx
        rw [List.mem_map] at hx
        obtain ⟨g, hg, rfl⟩ := hx
        exact hcon g (List.mem_range.1 hg)
      have hnd : ((List.range (42 * dv.length)).map (fun i : ℕ => (i : ℤ))).Nodup :=
        List.nodup_range.map (fun x y h => by exact_mod_cast h)
      have hperm := (hnd.subperm hsub).perm_of_length_le (by simp [hlen])
      have hnd2 := hperm.nodup_iff.1 hnd
      have li := (List.getElem?_eq_some_iff.1 gi).1
      have lj := (List.getElem?_eq_some_iff.1 gj).1
      exact hij ((List.Nodup.getElem_inj_iff hnd2).1 (by
        rw [(List.getElem?_eq_some_iff.1 gi).2, (List.getElem?_eq_some_iff.1 gj).2]))

/-- The hypotheses of `C71_safe` and `C71_silent` are met. -/
example : RoundsToNearest fl53 ∧ (4 : ℕ) * 8 * 16 ≤ 2 ^ 49 ∧ ∃ i j : ℕ, (4 : ℕ) = 2 ^ i ∧ (8 : ℕ) = 2 ^ j :=
  ⟨fl53_nearest, by norm_num, 2, 3, by norm_num, by norm_num⟩

example : ∃ s, smithNormalForm (hnfMat 2 5 7 0 2 3) = some (.ok s) :=
  C24_smith_succeeds (hnfMat 2 5 7 0 2 3) (by rw [hnfMat_det]; norm_num) (by rw [hnfMat_det]; norm_num)

/-- A supercell of 18 cells in which limits are rounded: the routine returns in double precision. -/
example : ∃ s, smithNormalForm (hnfMat 3 0 3 1 1 2) = some (.ok s) ∧
    ∃ sd, mapToRealSpaceF fl53 1 [![0, 0, 0]] 2 0 (structOf 3 0 3 1 1 2 s (List.replicate 18 '1')) false = .ok sd := by
  obtain ⟨s, hs⟩ := C24_smith_succeeds (hnfMat 3 0 3 1 1 2) (by rw [hnfMat_det]; norm_num) (by rw [hnfMat_det]; norm_num)
  obtain ⟨sd, h⟩ := C28_returns 1 [![0, 0, 0]] (by simp) 2 3 0 3 1 1 2 (by norm_num) (by norm_num) (by norm_num) (by norm_num)
    (Or.inl (by norm_num)) s hs (List.replicate 18 '1') (by simp) (by unfold LabelsBelow; decide) 0
  refine ⟨s, hs, ?_⟩
  rw [C71_up_to_35 3 0 3 1 1 2 (by norm_num) (by norm_num) (by norm_num) (by norm_num) (by norm_num) (by norm_num), h]
  exact ⟨_, rfl⟩

end Phenum
