import Verif.Spec.EnumRow
import Verif.Model.Drivers
import Verif.Props.RealSpace
import Verif.Props.Labeling
import Verif.Props.Derivative
/-
The rows of enum.out and the labellings they are made from.
-/
namespace Phenum
open Spec

/-- an entry that can be written: no arrow or a direction, colours 1 to 10 -/
def Writable (p : ℤ × ℕ) : Prop := (p.1 = -1 ∨ (0 ≤ p.1 ∧ p.1 < 6)) ∧ 1 ≤ p.2 ∧ p.2 ≤ 10

theorem intStr_small {z : ℤ} (h0 : 0 ≤ z) (h1 : z ≤ 9) : intStr z = [digitChar z.toNat] := by
  obtain ⟨n, rfl⟩ := Int.eq_ofNat_of_zero_le h0
  rw [show intStr ((n : ℕ) : ℤ) = natStr n from rfl, natStr_lt (by omega)]
  simp

theorem flat_small {α : Type} (f : α → ℤ) (l : List α) (h : ∀ a ∈ l, 0 ≤ f a ∧ f a ≤ 9) :
    l.flatMap (fun a => intStr (f a)) = l.map (fun a => digitChar (f a).toNat) := by
  induction l with
  | nil => rfl
  | cons a l ih =>
    rw [List.flatMap_cons, List.map_cons, ih (fun b hb => h b (List.mem_cons_of_mem _ hb)), intStr_small (h a (by simp)).1 (h a (by simp)).2]
    rfl

theorem entry_strings {h : List ℤ} {snf : SnfState} {z : Config} (hz : ∀ p ∈ z, Writable p) :
    (enumEntry h snf z).labeling = z.map (fun p => digitChar (p.2 - 1)) ∧
    (enumEntry h snf z).arrowing = z.map (fun p => digitChar (p.1 + 1).toNat) := by
  have hw : ∀ s ∈ z.map (fun s => (s.1, (s.2 : ℤ))), (-1 ≤ s.1 ∧ s.1 ≤ 5) ∧ 1 ≤ s.2 ∧ s.2 ≤ 10 := by
    intro s hs
    obtain ⟨p, hp, rfl⟩ := List.mem_map.mp hs
    obtain ⟨h1, h2, h3⟩ := hz p hp
    refine ⟨by rcases h1 with h1 | h1 <;> simp only <;> omega, ?_, ?_⟩ <;> simp only <;> omega
  constructor
  · show (z.map (fun s => (s.1, (s.2 : ℤ)))).flatMap (fun i : ℤ × ℤ => intStr (i.2 - 1)) = _
    rw [flat_small (fun i : ℤ × ℤ => i.2 - 1) _ (fun s hs => by have := hw s hs; omega), List.map_map]
    apply List.map_congr_left
    intro p hp
    have := (hz p hp).2.1
    show digitChar ((p.2 : ℤ) - 1).toNat = _
    congr 1
    omega
  · show (z.map (fun s => (s.1, (s.2 : ℤ)))).flatMap (fun i : ℤ × ℤ => intStr (i.1 + 1)) = _
    rw [flat_small (fun i : ℤ × ℤ => i.1 + 1) _ (fun s hs => by have := hw s hs; omega), List.map_map]
    rfl

theorem digitChar_inj {a b : ℕ} (ha : a < 10) (hb : b < 10) (h : digitChar a = digitChar b) : a = b := by
  have h1 := (digitChar_facts ha).2
  rw [h, (digitChar_facts hb).2] at h1
  exact h1.symm

/-- different labellings are written differently -/
theorem entry_inj {h h' : List ℤ} {snf snf' : SnfState} {z z' : Config} (hz : ∀ p ∈ z, Writable p) (hz' : ∀ p ∈ z', Writable p)
    (he : enumEntry h snf z = enumEntry h' snf' z') : h = h' ∧ z = z' := by
  refine ⟨congrArg EnumEntry.hnf he, ?_⟩
  have e1 := congrArg EnumEntry.labeling he
  have e2 := congrArg EnumEntry.arrowing he
  rw [(entry_strings hz).1, (entry_strings hz').1] at e1
  rw [(entry_strings hz).2, (entry_strings hz').2] at e2
  have hl : z.length = z'.length := by simpa using congrArg List.length e1
  apply List.ext_getElem hl
  intro i hi hi'
  have f1 := congrArg (fun l : List Char => l[i]?) e1
  have f2 := congrArg (fun l : List Char => l[i]?) e2
  simp only [List.getElem?_map, List.getElem?_eq_getElem hi, List.getElem?_eq_getElem hi', Option.map_some, Option.some.injEq] at f1 f2
  obtain ⟨a1, a2, a3⟩ := hz _ (List.getElem_mem hi)
  obtain ⟨b1, b2, b3⟩ := hz' _ (List.getElem_mem hi')
  have g1 := digitChar_inj (by omega) (by omega) f1
  have g2 := digitChar_inj (by omega) (by omega) f2
  apply Prod.ext <;> omega

theorem rowIndex_entry (h : List ℤ) (snf : SnfState) (z : Config) (a : ℕ) (v : Fin 3 → ℤ) :
    rowIndex (enumEntry h snf z) a v = (groupIndex snf.A (fun i => snf.M i i) a v).toNat := by
  unfold rowIndex groupIndex rowCoord enumEntry
  simp only [List.getD_cons_zero, List.getD_cons_succ, Matrix.mulVec, dotProduct, Fin.sum_univ_three, mul_zero, zero_add, mul_one,
    show 3 * 1 + 1 = 4 from rfl, show 3 * 1 + 2 = 5 from rfl, show 3 * 1 = 3 from rfl, show 3 * 2 + 1 = 7 from rfl, show 3 * 2 + 2 = 8 from rfl, show 3 * 2 = 6 from rfl]
  congr 1
  ring

theorem rowLattice_entry {n : ℕ} (hn : 1 ≤ n) {u : M3 ℤ} (hu : u ∈ findAllHNFs n) (P : M3 ℝ) (snf : SnfState) (z : Config) :
    rowLattice P (enumEntry (hnfNumbers u) snf z) = SupLat P u := by
  obtain ⟨a, b, c, d, e, f, -, -, -, -, rfl⟩ := (mem_findAllHNFs hn u).mp hu
  unfold rowLattice SupLat
  congr 2
  ext i j
  fin_cases i <;> fin_cases j <;> simp [hnfMat, enumEntry, hnfNumbers]

/-- A row describes a decoration exactly if the labelling it is made from draws it. -/
theorem row_describes {P : M3 ℝ} (hP : P.det ≠ 0) {bas : List V3} {n : ℕ} {u : M3 ℤ} (hun : u.det = n) {snf : SnfState}
    (hs : smithNormalForm u = some (.ok snf))
    (hp : IsNumbering (CrystalSites (ColLattice P.transpose) bas) (SupLat P u) (bas.length * n)
      (sitePos (castM snf.A * P.transpose⁻¹)⁻¹ (fun i => snf.M i i) bas n))
    {z : Config} (hlen : z.length = bas.length * n) (hz : ∀ p ∈ z, Writable p) (h : List ℤ) (ψ : Decoration) :
    RowDescribes P bas (enumEntry h snf z) ψ ↔
      Draws (CrystalSites (ColLattice P.transpose) bas) (SupLat P u) (bas.length * n)
        (sitePos (castM snf.A * P.transpose⁻¹)⁻¹ (fun i => snf.M i i) bas n) z ψ := by
  obtain ⟨hM, hA, hB, hoff, hpos, -, -, hprod⟩ := C23_smith_correct u snf hs
  have hA' : IsUnit snf.A.det := Int.isUnit_iff.mpr hA
  have hB' : IsUnit snf.B.det := Int.isUnit_iff.mpr hB
  have hdiag : snf.A * u * snf.B = Matrix.diagonal (fun i => snf.M i i) := by
    rw [← hM]
    ext i j
    by_cases hij : i = j
    · subst hij; simp
    · rw [Matrix.diagonal_apply_ne _ hij, hoff i j hij]
  have hPt : P.transpose.det ≠ 0 := by rwa [Matrix.det_transpose]
  have hnS : (n : ℤ) = snf.M 0 0 * snf.M 1 1 * snf.M 2 2 := by rw [hprod, hun]
  have hn0 : u.det ≠ 0 := by
    rw [← hprod]; exact (mul_pos (mul_pos (hpos 0) (hpos 1)) (hpos 2)).ne'
  set pos := sitePos (castM snf.A * P.transpose⁻¹)⁻¹ (fun i => snf.M i i) bas n with hposdef
  -- the site of an atom
  have hsite : ∀ a, a < bas.length → ∀ v : Fin 3 → ℤ, (bas.getD a 0 + P.transpose.mulVec (fun i => (v i : ℝ))) ∈ CrystalSites (ColLattice P.transpose) bas := by
    intro a ha v
    refine ⟨bas.getD a 0, by rw [getD_lt ha]; exact List.getElem_mem ha, ?_⟩
    rw [add_sub_cancel_left]
    exact ⟨v, rfl⟩
  have hidx : ∀ a, a < bas.length → ∀ v : Fin 3 → ℤ, rowIndex (enumEntry h snf z) a v < bas.length * n ∧
      (bas.getD a 0 + P.transpose.mulVec (fun i => (v i : ℝ))) - pos (rowIndex (enumEntry h snf z) a v) ∈ SupLat P u := by
    intro a ha v
    rw [rowIndex_entry]
    constructor
    · rw [groupIndex_eq, ← hnS]
      have hb0 := enc_nonneg hpos (red_valid hpos (snf.A.mulVec v))
      have hb1 := enc_lt hpos (red_valid hpos (snf.A.mulVec v))
      rw [← hnS] at hb1
      have : (a : ℤ) + 1 ≤ bas.length := by exact_mod_cast ha
      have h1 : (a : ℤ) * n + enc (fun i => snf.M i i) (red (fun i => snf.M i i) (snf.A.mulVec v)) < (bas.length * n : ℕ) := by
        push_cast
        nlinarith
      have h2 : (0 : ℤ) ≤ (a : ℤ) * n + enc (fun i => snf.M i i) (red (fun i => snf.M i i) (snf.A.mulVec v)) := by positivity
      omega
    · have := point_pos hPt hA' hB' hpos hdiag hn0 hnS bas a v
      have e : (fun i => P.transpose.mulVec (fun j => (v j : ℝ)) i + bas.getD a 0 i) = bas.getD a 0 + P.transpose.mulVec (fun i => (v i : ℝ)) := by
        funext i
        exact add_comm _ _
      rw [e] at this
      exact this
  have hchar : ∀ (k : ℕ) (p : ℤ × ℕ), z[k]? = some p → (enumEntry h snf z).labeling[k]? = some (digitChar (p.2 - 1)) ∧
      (enumEntry h snf z).arrowing[k]? = some (digitChar (p.1 + 1).toNat) ∧ Writable p := by
    intro k p hk
    rw [(entry_strings hz).1, (entry_strings hz).2, List.getElem?_map, List.getElem?_map, hk]
    exact ⟨rfl, rfl, hz p (List.mem_of_getElem? hk)⟩
  have hval : ∀ p : ℤ × ℕ, Writable p → siteValue p = ((p.2 - 1) + 1, if (p.1 + 1).toNat = 0 then (0 : V3) else arrowDir ((p.1 + 1).toNat - 1)) := by
    rintro ⟨x, y⟩ ⟨h1, h2, h3⟩
    simp only at h1 h2 h3
    unfold siteValue
    apply Prod.ext
    · simp only; omega
    · simp only
      rcases h1 with h1 | ⟨h1, h1'⟩
      · subst h1; simp
      · rw [if_neg (by omega), if_neg (by omega)]
        congr 1
        omega
  constructor
  · intro hr
    refine ⟨hlen, fun x hx k hk hm => ?_⟩
    obtain ⟨d, hd, w, hw⟩ := hx
    obtain ⟨a, ha, rfl⟩ := List.getElem_of_mem hd
    have hxe : x = bas.getD a 0 + P.transpose.mulVec (fun i => (w i : ℝ)) := by
      rw [getD_lt ha, hw]; abel
    obtain ⟨l, r, ⟨hl1, hl2⟩, ⟨hr1, hr2⟩, e⟩ := hr a ha w
    obtain ⟨i1, i2⟩ := hidx a ha w
    have hki : k = rowIndex (enumEntry h snf z) a w := by
      rw [hxe] at hm
      obtain ⟨j, -, hj⟩ := hp.unique _ (hsite a ha w)
      rw [hj k ⟨hk, hm⟩, hj _ ⟨i1, i2⟩]
    rw [← hki] at hl2 hr2
    have hzk : z[k]? = some z[k] := List.getElem?_eq_getElem (by rw [hlen]; exact hk)
    obtain ⟨c1, c2, c3⟩ := hchar k _ hzk
    refine ⟨_, hzk, ?_⟩
    rw [hxe, e, hval _ c3]
    have wf := c3
    unfold Writable at wf
    have f1 : l = z[k].2 - 1 := by
      rw [c1] at hl2
      exact (digitChar_inj (by omega) hl1 (Option.some.inj hl2)).symm
    have f2 : r = (z[k].1 + 1).toNat := by
      rw [c2] at hr2
      exact (digitChar_inj (by omega) hr1 (Option.some.inj hr2)).symm
    rw [f1, f2]
  · rintro ⟨-, hd⟩ a ha v
    obtain ⟨i1, i2⟩ := hidx a ha v
    obtain ⟨p, hpz, e⟩ := hd _ (hsite a ha v) _ i1 i2
    obtain ⟨c1, c2, c3⟩ := hchar _ p hpz
    have wf := c3
    unfold Writable at wf
    refine ⟨p.2 - 1, (p.1 + 1).toNat, ⟨by omega, c1⟩, ⟨by omega, c2⟩, ?_⟩
    rw [e, hval p c3]

end Phenum
