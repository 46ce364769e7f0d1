import Verif.Model.RealSpace
import Verif.Proof.PointGroup
import Verif.Proof.RotGroup
import Mathlib.Tactic.FieldSimp
/-
Proofs about the interior points of a supercell.
-/
namespace Phenum
open Spec

theorem pyTrunc_nonneg {x : ℚ} (h : 0 ≤ x) : intTrunc x = ⌊x⌋ := if_pos h

theorem pyRange_length (a b : ℤ) : (pyRange a b).length = (b - a).toNat := by simp [pyRange]

/-- the conditions on the entries of a Hermite normal form -/
structure IsHNF6 (a b c d e f : ℤ) : Prop where
  a0 : 0 < a
  c0 : 0 < c
  f0 : 0 < f
  b0 : 0 ≤ b
  d0 : 0 ≤ d
  e0 : 0 ≤ e
  ef : e < f

section
variable {a b c d e f : ℤ} (H : IsHNF6 a b c d e f)
include H

theorem range2_eq {z1 : ℤ} (hz : 0 ≤ z1) :
    pyRange (intTrunc (((b * z1 : ℤ) : ℚ) / a)) (intTrunc ((c : ℚ) + ((b * z1 : ℤ) : ℚ) / a)) =
      pyRange ⌊((b * z1 : ℤ) : ℚ) / a⌋ (⌊((b * z1 : ℤ) : ℚ) / a⌋ + c) := by
  have hq : (0 : ℚ) ≤ ((b * z1 : ℤ) : ℚ) / a := by
    apply div_nonneg
    · exact_mod_cast mul_nonneg H.b0 hz
    · exact_mod_cast H.a0.le
  have hc : (0 : ℚ) ≤ c := by exact_mod_cast H.c0.le
  rw [pyTrunc_nonneg hq, pyTrunc_nonneg (add_nonneg hc hq), Int.floor_intCast_add, add_comm c]

theorem zOff_eq (z1 z2 : ℤ) : zOff a b c d e z1 z2 =
    (z1 : ℚ) * d / a + (e : ℚ) / c * (z2 - ((b * z1 : ℤ) : ℚ) / a) := by
  have ha : (a : ℚ) ≠ 0 := by exact_mod_cast H.a0.ne'
  have hc : (c : ℚ) ≠ 0 := by exact_mod_cast H.c0.ne'
  unfold zOff
  push_cast
  field_simp
  ring

theorem zOff_gt {z1 z2 : ℤ} (hz : 0 ≤ z1) (h2 : ⌊((b * z1 : ℤ) : ℚ) / a⌋ ≤ z2) : 0 ≤ (f : ℚ) + zOff a b c d e z1 z2 := by
  rw [zOff_eq H]
  have ha : (0 : ℚ) < a := by exact_mod_cast H.a0
  have hc : (1 : ℚ) ≤ c := by exact_mod_cast H.c0
  have he : (0 : ℚ) ≤ e := by exact_mod_cast H.e0
  have hf : (e : ℚ) ≤ f := by exact_mod_cast H.ef.le
  have h1 : (0 : ℚ) ≤ (z1 : ℚ) * d / a := by
    apply div_nonneg (mul_nonneg (by exact_mod_cast hz) (by exact_mod_cast H.d0)) ha.le
  have h3 : (-1 : ℚ) ≤ z2 - ((b * z1 : ℤ) : ℚ) / a := by
    have := Int.lt_floor_add_one (((b * z1 : ℤ) : ℚ) / a)
    have h2' : ((⌊((b * z1 : ℤ) : ℚ) / a⌋ : ℤ) : ℚ) ≤ z2 := by exact_mod_cast h2
    linarith
  have h4 : (0 : ℚ) ≤ (e : ℚ) / c := div_nonneg he (by linarith)
  have h5 : (e : ℚ) / c ≤ e := div_le_self he hc
  nlinarith

/-- the bounds of the innermost loop -/
theorem range3_bounds {z1 z2 : ℤ} (hz : 0 ≤ z1) (h2 : ⌊((b * z1 : ℤ) : ℚ) / a⌋ ≤ z2) :
    intTrunc ((f : ℚ) + zOff a b c d e z1 z2) = f + ⌊zOff a b c d e z1 z2⌋ ∧
    ⌊zOff a b c d e z1 z2⌋ ≤ intTrunc (zOff a b c d e z1 z2) := by
  constructor
  · rw [pyTrunc_nonneg (zOff_gt H hz h2), Int.floor_intCast_add]
  · unfold intTrunc
    split
    · exact le_rfl
    · exact Int.floor_le_ceil _

/-- the condition under which no point of a column is missed -/
def colFull (a b c d e z1 z2 : ℤ) : Prop := 0 ≤ zOff a b c d e z1 z2 ∨ ∃ m : ℤ, zOff a b c d e z1 z2 = m

theorem range3_length {z1 z2 : ℤ} (hz : 0 ≤ z1) (h2 : ⌊((b * z1 : ℤ) : ℚ) / a⌋ ≤ z2) :
    ((pyRange (intTrunc (zOff a b c d e z1 z2)) (intTrunc ((f : ℚ) + zOff a b c d e z1 z2))).length : ℤ) ≤ f ∧
    (((pyRange (intTrunc (zOff a b c d e z1 z2)) (intTrunc ((f : ℚ) + zOff a b c d e z1 z2))).length : ℤ) = f ↔
      colFull a b c d e z1 z2) := by
  obtain ⟨h3, h4⟩ := range3_bounds H hz h2
  have hf := H.f0
  rw [pyRange_length, h3]
  have hkey : (((f + ⌊zOff a b c d e z1 z2⌋ - intTrunc (zOff a b c d e z1 z2)).toNat : ℕ) : ℤ) = f ↔
      intTrunc (zOff a b c d e z1 z2) = ⌊zOff a b c d e z1 z2⌋ := by omega
  refine ⟨by omega, hkey.trans ?_⟩
  unfold intTrunc colFull
  split
  · rename_i h; simp [h]
  · rename_i h
    constructor
    · intro h'
      right
      refine ⟨⌊zOff a b c d e z1 z2⌋, le_antisymm ?_ (Int.floor_le _)⟩
      rw [← h']; exact Int.le_ceil _
    · rintro (h' | ⟨m, hm⟩)
      · exact absurd h' h
      · rw [hm]; simp

end

/-- the pairs visited by the two outer loops -/
def outerPairs (a b c : ℤ) : List (ℤ × ℤ) :=
  (pyRange 0 a).flatMap (fun z1 : ℤ =>
    (pyRange (intTrunc (((b * z1 : ℤ) : ℚ) / a)) (intTrunc ((c : ℚ) + ((b * z1 : ℤ) : ℚ) / a))).map (fun z2 => (z1, z2)))

theorem interiorPoints_eq (a b c d e f : ℤ) : interiorPoints a b c d e f =
    (outerPairs a b c).flatMap (fun p => (pyRange (intTrunc (zOff a b c d e p.1 p.2))
      (intTrunc ((f : ℚ) + zOff a b c d e p.1 p.2))).map (fun z3 : ℤ => (![p.1, p.2, z3] : GVec))) := by
  unfold interiorPoints outerPairs
  rw [List.flatMap_assoc]
  congr 1; funext z1
  rw [List.flatMap_map]

theorem sum_eq_iff_all {α : Type} (l : List α) (g : α → ℕ) (m : ℕ) (h : ∀ x ∈ l, g x ≤ m) :
    (l.map g).sum ≤ l.length * m ∧ ((l.map g).sum = l.length * m ↔ ∀ x ∈ l, g x = m) := by
  induction l with
  | nil => simp
  | cons x l ih =>
    obtain ⟨i1, i2⟩ := ih (fun y hy => h y (List.mem_cons_of_mem _ hy))
    have hx := h x List.mem_cons_self
    simp only [List.map_cons, List.sum_cons, List.length_cons, List.forall_mem_cons]
    have e : (l.length + 1) * m = l.length * m + m := by ring
    rw [e]
    refine ⟨by omega, ?_⟩
    constructor
    · intro hh
      exact ⟨by omega, i2.mp (by omega)⟩
    · rintro ⟨h1, h2⟩
      rw [h1, i2.mpr h2, add_comm]

section
variable {a b c d e f : ℤ} (H : IsHNF6 a b c d e f)
include H

theorem mem_outerPairs {p : ℤ × ℤ} : p ∈ outerPairs a b c ↔ (0 ≤ p.1 ∧ p.1 < a) ∧
    ⌊((b * p.1 : ℤ) : ℚ) / a⌋ ≤ p.2 ∧ p.2 < ⌊((b * p.1 : ℤ) : ℚ) / a⌋ + c := by
  unfold outerPairs
  simp only [List.mem_flatMap, mem_pyRange, List.mem_map]
  constructor
  · rintro ⟨z1, h1, z2, h2, rfl⟩
    rw [← mem_pyRange, range2_eq H h1.1, mem_pyRange] at h2
    exact ⟨h1, h2⟩
  · rintro ⟨h1, h2⟩
    refine ⟨p.1, h1, p.2, ?_, rfl⟩
    rw [← mem_pyRange, range2_eq H h1.1, mem_pyRange]
    exact h2

theorem outerPairs_length : (outerPairs a b c).length = a.toNat * c.toNat := by
  unfold outerPairs
  rw [List.length_flatMap]
  have : ∀ z1 ∈ pyRange 0 a, ((pyRange (intTrunc (((b * z1 : ℤ) : ℚ) / a)) (intTrunc ((c : ℚ) + ((b * z1 : ℤ) : ℚ) / a))).map
      (fun z2 => (z1, z2))).length = c.toNat := by
    intro z1 hz
    rw [mem_pyRange] at hz
    rw [List.length_map, range2_eq H hz.1, pyRange_length]
    congr 1; omega
  rw [(sum_eq_iff_all _ _ c.toNat (fun z hz => (this z hz).le)).2.mpr this, pyRange_length, sub_zero]

theorem mem_interior {z : GVec} (hz : z ∈ interiorPoints a b c d e f) :
    (z 0, z 1) ∈ outerPairs a b c ∧
    ⌊zOff a b c d e (z 0) (z 1)⌋ ≤ z 2 ∧ z 2 < ⌊zOff a b c d e (z 0) (z 1)⌋ + f := by
  rw [interiorPoints_eq] at hz
  simp only [List.mem_flatMap, List.mem_map] at hz
  obtain ⟨p, hp, z3, h3, rfl⟩ := hz
  rw [mem_pyRange] at h3
  have hp' := (mem_outerPairs H).mp hp
  obtain ⟨h4, h5⟩ := range3_bounds H hp'.1.1 hp'.2.1
  simp only [Matrix.cons_val_zero, Matrix.cons_val_one, Matrix.cons_val]
  refine ⟨hp, by omega, by omega⟩

theorem interior_nodup : (interiorPoints a b c d e f).Nodup := by
  have hop : (outerPairs a b c).Nodup := by
    unfold outerPairs
    rw [List.nodup_flatMap]
    constructor
    · intro z1 _
      exact (pyRange_nodup _ _).map (fun x y h => (Prod.mk.inj h).2)
    · refine (pyRange_nodup _ _).imp ?_
      intro x y hxy
      simp only [Function.onFun, List.disjoint_left, List.mem_map]
      rintro _ ⟨u, -, rfl⟩ ⟨v, -, hv⟩
      exact hxy (Prod.mk.inj hv).1.symm
  rw [interiorPoints_eq, List.nodup_flatMap]
  constructor
  · intro p _
    refine (pyRange_nodup _ _).map ?_
    intro x y h
    simpa using congrFun h 2
  · refine hop.imp ?_
    intro x y hxy
    simp only [Function.onFun, List.disjoint_left, List.mem_map]
    rintro _ ⟨u, -, rfl⟩ ⟨v, -, hv⟩
    apply hxy
    have h0 := congrFun hv 0
    have h1 := congrFun hv 1
    simp at h0 h1
    exact Prod.ext h0.symm h1.symm

theorem interior_inequiv {z w : GVec} (hz : z ∈ interiorPoints a b c d e f) (hw : w ∈ interiorPoints a b c d e f)
    (h : z - w ∈ IntLattice !![a, 0, 0; b, c, 0; d, e, f]) : z = w := by
  obtain ⟨m, hm⟩ := h
  obtain ⟨z1, z2⟩ := mem_interior H hz
  obtain ⟨w1, w2⟩ := mem_interior H hw
  rw [mem_outerPairs H] at z1 w1
  have h0 := congrFun hm 0
  have h1 := congrFun hm 1
  have h2 := congrFun hm 2
  simp only [Matrix.mulVec, dotProduct, Fin.sum_univ_three, Matrix.of_apply, Matrix.cons_val_zero, Matrix.cons_val_one,
    Matrix.cons_val, Pi.sub_apply] at h0 h1 h2
  simp only at z1 w1
  have small : ∀ {t x lo m : ℤ}, ∀ y, lo ≤ x → x < lo + t → lo ≤ y → y < lo + t → t * m = x - y → m = 0 := by
    intro t x lo m y a1 a2 a3 a4 a5
    by_contra hne
    rcases lt_or_gt_of_ne hne with hlt | hgt
    · nlinarith
    · nlinarith
  have m0 : m 0 = 0 := small (lo := 0) (t := a) (x := z 0) (w 0) z1.1.1 (by linarith [z1.1.2]) w1.1.1 (by linarith [w1.1.2]) (by linarith)
  rw [m0] at h0 h1 h2
  have e0 : z 0 = w 0 := by linarith
  rw [← e0] at w1 w2
  have m1 : m 1 = 0 := small (t := c) (w 1) z1.2.1 z1.2.2 w1.2.1 w1.2.2 (by linarith)
  rw [m1] at h1 h2
  have e1 : z 1 = w 1 := by linarith
  rw [← e1] at w2
  have m2 : m 2 = 0 := small (t := f) (w 2) z2.1 z2.2 w2.1 w2.2 (by linarith)
  rw [m2] at h2
  have e2 : z 2 = w 2 := by linarith
  funext i
  fin_cases i
  · exact e0
  · exact e1
  · exact e2

theorem interior_length :
    ((interiorPoints a b c d e f).length : ℤ) ≤ a * c * f ∧
    (((interiorPoints a b c d e f).length : ℤ) = a * c * f ↔
      ∀ z1 z2, 0 ≤ z1 → z1 < a → ⌊((b * z1 : ℤ) : ℚ) / a⌋ ≤ z2 → z2 < ⌊((b * z1 : ℤ) : ℚ) / a⌋ + c →
        colFull a b c d e z1 z2) := by
  rw [interiorPoints_eq, List.length_flatMap]
  have hf := H.f0
  have key := sum_eq_iff_all (outerPairs a b c) (fun p => ((pyRange (intTrunc (zOff a b c d e p.1 p.2))
      (intTrunc ((f : ℚ) + zOff a b c d e p.1 p.2))).map (fun z3 : ℤ => (![p.1, p.2, z3] : GVec))).length) f.toNat (by
    intro p hp
    rw [mem_outerPairs H] at hp
    have := (range3_length H hp.1.1 hp.2.1).1
    rw [List.length_map]
    omega)
  rw [outerPairs_length H] at key
  have e : (a * c * f : ℤ) = ((a.toNat * c.toNat * f.toNat : ℕ) : ℤ) := by
    push_cast
    rw [Int.toNat_of_nonneg H.a0.le, Int.toNat_of_nonneg H.c0.le, Int.toNat_of_nonneg H.f0.le]
  rw [e]
  refine ⟨by exact_mod_cast key.1, ?_⟩
  rw [Nat.cast_inj, key.2]
  constructor
  · intro h z1 z2 h1 h2 h3 h4
    have := h (z1, z2) ((mem_outerPairs H).mpr ⟨⟨h1, h2⟩, h3, h4⟩)
    rw [List.length_map] at this
    exact (range3_length H h1 h3).2.mp (by rw [this]; omega)
  · intro h p hp
    have hp' := (mem_outerPairs H).mp hp
    have := (range3_length H hp'.1.1 hp'.2.1).2.mpr (h _ _ hp'.1.1 hp'.1.2 hp'.2.1 hp'.2.2)
    rw [List.length_map]
    omega

end

/-! ## The index of a point -/

theorem intLat_of_red {L H B : M3 ℤ} (hL : IsUnit L.det) {S : GVec} (hM : L * H * B = Matrix.diagonal S) {z w : GVec}
    (h : ∀ i, S i ∣ L.mulVec z i - L.mulVec w i) : z - w ∈ IntLattice H := by
  choose u hu using h
  refine ⟨B.mulVec u, ?_⟩
  have e : L.mulVec (z - w) = L.mulVec (H.mulVec (B.mulVec u)) := by
    rw [Matrix.mulVec_mulVec, Matrix.mulVec_mulVec, hM, Matrix.mulVec_sub]
    funext i
    rw [Pi.sub_apply, hu, Matrix.mulVec_diagonal]
  have := congrArg (L⁻¹.mulVec) e
  rw [Matrix.mulVec_mulVec, Matrix.mulVec_mulVec, Matrix.nonsing_inv_mul _ hL, Matrix.one_mulVec, Matrix.one_mulVec] at this
  exact this.symm

theorem groupIndex_eq (L : M3 ℤ) (S : GVec) (iD : ℕ) (z : GVec) :
    groupIndex L S iD z = iD * (S 0 * S 1 * S 2) + enc S (red S (L.mulVec z)) := by
  unfold groupIndex enc red
  ring

theorem flat_length {α : Type} (l : List α) (nd : ℕ) :
    ((List.range nd).flatMap (fun iD => l.map (fun z => (iD, z)))).length = nd * l.length := by
  rw [List.length_flatMap]
  simp

theorem flat_nodup {α : Type} {l : List α} (h : l.Nodup) (nd : ℕ) :
    ((List.range nd).flatMap (fun iD => l.map (fun z => (iD, z)))).Nodup := by
  rw [List.nodup_flatMap]
  constructor
  · intro i _
    exact h.map (fun x y h => (Prod.mk.inj h).2)
  · refine List.nodup_range.imp ?_
    intro x y hxy
    simp only [Function.onFun, List.disjoint_left, List.mem_map]
    rintro _ ⟨u, -, rfl⟩ ⟨v, -, hv⟩
    exact hxy (Prod.mk.inj hv).1.symm

theorem mem_flat {α : Type} {l : List α} {nd : ℕ} {p : ℕ × α} :
    p ∈ (List.range nd).flatMap (fun iD => l.map (fun z => (iD, z))) ↔ p.1 < nd ∧ p.2 ∈ l := by
  simp only [List.mem_flatMap, List.mem_range, List.mem_map]
  constructor
  · rintro ⟨i, hi, z, hz, rfl⟩; exact ⟨hi, hz⟩
  · rintro ⟨h1, h2⟩; exact ⟨p.1, h1, p.2, h2, rfl⟩

theorem perm_range_of_nodup {l : List ℤ} {N : ℕ} (hn : l.Nodup) (hlen : l.length = N)
    (hr : ∀ x ∈ l, 0 ≤ x ∧ x < N) : l.Perm ((List.range N).map (fun i : ℕ => (i : ℤ))) := by
  have hsub : l ⊆ (List.range N).map (fun i : ℕ => (i : ℤ)) := by
    intro x hx
    obtain ⟨h1, h2⟩ := hr x hx
    rw [List.mem_map]
    exact ⟨x.toNat, by rw [List.mem_range]; omega, by omega⟩
  exact (hn.subperm hsub).perm_of_length_le (by simp [hlen])

/-- the indices of a complete set of points are a permutation of the positions of the labeling -/
theorem gIndx_perm {L H B : M3 ℤ} (hL : IsUnit L.det) {S : GVec} (hS : ∀ i, 0 < S i)
    (hM : L * H * B = Matrix.diagonal S) {pts : List GVec} (hnd : pts.Nodup)
    (hin : ∀ z ∈ pts, ∀ w ∈ pts, z - w ∈ IntLattice H → z = w) {n nd : ℕ} (hlen : pts.length = n)
    (hn : (n : ℤ) = S 0 * S 1 * S 2) :
    (((List.range nd).flatMap (fun iD => pts.map (fun z => (iD, z)))).map (fun p => groupIndex L S p.1 p.2)).Perm
      ((List.range (n * nd)).map (fun i : ℕ => (i : ℤ))) := by
  have hb : ∀ z : GVec, 0 ≤ enc S (red S (L.mulVec z)) ∧ enc S (red S (L.mulVec z)) < n := by
    intro z
    rw [hn]
    exact ⟨enc_nonneg hS (red_valid hS _), enc_lt hS (red_valid hS _)⟩
  apply perm_range_of_nodup
  · rw [List.nodup_map_iff_inj_on (flat_nodup hnd nd)]
    rintro ⟨i, z⟩ hz ⟨j, w⟩ hw h
    rw [mem_flat] at hz hw
    simp only [groupIndex_eq, ← hn] at h
    have h1 := hb z
    have h2 := hb w
    have hij : (i : ℤ) = j := by
      rcases lt_trichotomy (i : ℤ) j with hlt | heq | hgt
      · nlinarith
      · exact heq
      · nlinarith
    have he : enc S (red S (L.mulVec z)) = enc S (red S (L.mulVec w)) := by
      rw [hij] at h; linarith
    have hr := enc_inj (red_valid hS _) (red_valid hS _) he
    have : z = w := by
      refine hin z hz.2 w hw.2 (intLat_of_red hL hM ?_)
      intro i
      have d1 := red_dvd S (L.mulVec z) i
      have d2 := red_dvd S (L.mulVec w) i
      rw [hr] at d1
      have := dvd_sub d1 d2
      rwa [sub_sub_sub_cancel_right] at this
    rw [this]
    congr 1
    exact_mod_cast hij
  · rw [List.length_map, flat_length, hlen, mul_comm]
  · intro x hx
    rw [List.mem_map] at hx
    obtain ⟨⟨i, z⟩, hz, rfl⟩ := hx
    rw [mem_flat] at hz
    simp only [groupIndex_eq, ← hn]
    have h1 := hb z
    have hi : (i : ℤ) + 1 ≤ nd := by exact_mod_cast hz.1
    have hn0 : (0 : ℤ) ≤ n := by positivity
    constructor
    · have := mul_nonneg (Int.natCast_nonneg i) hn0
      linarith
    · push_cast
      nlinarith

/-- the position of a point agrees with the position of the site its index points at -/
theorem point_pos {A : M3 ℝ} (hA : A.det ≠ 0) {L H B : M3 ℤ} (hL : IsUnit L.det) (hB : IsUnit B.det) {S : GVec}
    (hS : ∀ i, 0 < S i) (hM : L * H * B = Matrix.diagonal S) (hH : H.det ≠ 0) {n : ℕ}
    (hn : (n : ℤ) = S 0 * S 1 * S 2) (d : List V3) (iD : ℕ) (z : GVec) :
    (fun i => A.mulVec (fun j => (z j : ℝ)) i + d.getD iD 0 i) -
      sitePos (castM L * A⁻¹)⁻¹ S d n (groupIndex L S iD z).toNat ∈ ColLattice (A * castM H) := by
  obtain ⟨htd, hAL, hSL⟩ := transform_facts hA hL hB hM hH
  rw [← hSL]
  set T : M3 ℝ := (castM L * A⁻¹)⁻¹ with hT
  have hb0 := enc_nonneg hS (red_valid hS (L.mulVec z))
  have hb1 := enc_lt hS (red_valid hS (L.mulVec z))
  rw [← hn] at hb1
  have hn0 : 0 < n := by omega
  have hidx : (groupIndex L S iD z).toNat = iD * n + (enc S (red S (L.mulVec z))).toNat := by
    rw [groupIndex_eq, ← hn]
    have : (iD : ℤ) * n = ((iD * n : ℕ) : ℤ) := by push_cast; ring
    rw [this]; omega
  have hlt : (enc S (red S (L.mulVec z))).toNat < n := by omega
  have hdiv : (groupIndex L S iD z).toNat / n = iD := by
    rw [hidx, mul_comm, Nat.mul_add_div hn0, Nat.div_eq_of_lt hlt, add_zero]
  have hmod : (groupIndex L S iD z).toNat % n = (enc S (red S (L.mulVec z))).toNat := by
    rw [hidx, mul_comm, Nat.mul_add_mod, Nat.mod_eq_of_lt hlt]
  unfold sitePos
  rw [hdiv, hmod, List.getD_eq_getElem?_getD (l := memberList S), memberList_enc hS (red_valid hS _), Option.getD_some]
  have hz : A.mulVec (fun j => (z j : ℝ)) = T.mulVec (castV (L.mulVec z)) := by
    have e1 : (castV (L.mulVec z) : Fin 3 → ℝ) = (castM L * A⁻¹).mulVec (A.mulVec (fun j => (z j : ℝ))) := by
      rw [← Matrix.mulVec_mulVec, Matrix.mulVec_mulVec _ A⁻¹ A, Matrix.nonsing_inv_mul _ (isUnit_iff_ne_zero.mpr hA),
        Matrix.one_mulVec]
      funext i
      simp only [castV, castM, Matrix.mulVec, dotProduct, Matrix.map_apply]
      push_cast
      rfl
    rw [e1, Matrix.mulVec_mulVec, hT, Matrix.nonsing_inv_mul _ (isUnit_iff_ne_zero.mpr htd), Matrix.one_mulVec]
  have hfin : (fun i => A.mulVec (fun j => (z j : ℝ)) i + d.getD iD 0 i) -
      (d.getD iD 0 + T.mulVec (castV (red S (L.mulVec z)))) =
      T.mulVec (castV (L.mulVec z - red S (L.mulVec z))) := by
    rw [castV_sub, Matrix.mulVec_sub, ← hz]
    funext i
    simp only [Pi.sub_apply, Pi.add_apply]
    ring
  rw [hfin]
  exact ⟨_, fun i => red_dvd S _ i, rfl⟩

/-! ## Spins and concentrations -/

/-- the species at position `i` of a labeling -/
def labelAt (labeling : List Char) (i : ℤ) : ℕ := (labeling.getD i.toNat ' ').toNat - 48

theorem spinLoop_ok (k : ℕ) (labeling : List Char) : ∀ (gs : List ℤ) (x : List ℕ) (spin : List ℤ), x.length = k →
    (∀ g ∈ gs, g.toNat < labeling.length) → (∀ ch ∈ labeling, ch.isDigit = true ∧ ch.toNat - 48 < k) →
    ∃ y, spinLoop k labeling gs x spin = .ok (spin ++ gs.map (fun g => spinOf k (labelAt labeling g)), y) ∧
      y.length = k ∧ ∀ i, i < k → y.getD i 0 = x.getD i 0 + (gs.map (labelAt labeling)).count i
  | [], x, spin, hx, _, _ => ⟨x, by simp [spinLoop], hx, by simp⟩
  | g :: gs, x, spin, hx, hg, hl => by
    have hg0 := hg g List.mem_cons_self
    have hgd : labeling.getD g.toNat ' ' = labeling[g.toNat] := by simp [hg0]
    obtain ⟨h1, h2⟩ := hl labeling[g.toNat] (List.getElem_mem _)
    have hlab : labelAt labeling g = labeling[g.toNat].toNat - 48 := by rw [labelAt, hgd]
    obtain ⟨y, e, hy, hc⟩ := spinLoop_ok k labeling gs (x.set (labelAt labeling g) (x.getD (labelAt labeling g) 0 + 1))
      (spin ++ [spinOf k (labelAt labeling g)]) (by rw [List.length_set, hx])
      (fun u hu => hg u (List.mem_cons_of_mem _ hu)) hl
    refine ⟨y, ?_, hy, ?_⟩
    · unfold spinLoop
      have hx2 : labelAt labeling g < x.length := by rw [hx, hlab]; exact h2
      have hget : pyGet labeling g.toNat = .ok labeling[g.toNat] := by
        simp [pyGet, hg0]
      have hdig : digitOf labeling[g.toNat] = .ok (labelAt labeling g) := by
        rw [digitOf, if_pos h1, hlab]
      have hxg : pyGet x (labelAt labeling g) = .ok (x.getD (labelAt labeling g) 0) := by
        simp [pyGet, hx2]
      rw [hget]
      simp only [bind, Except.bind, hdig, hxg]
      rw [e]
      simp
    · intro i hi
      rw [hc i hi, List.map_cons, List.count_cons]
      have hxi : i < x.length := by omega
      rw [List.getD_eq_getElem?_getD, List.getElem?_set]
      by_cases hii : labelAt labeling g = i
      · subst hii
        simp [hxi]
        omega
      · simp [hii]

end Phenum
