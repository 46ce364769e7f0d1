import Verif.Model.Perms
import Verif.Proof.Group
import Mathlib.Tactic.FinCases
import Mathlib.Tactic.Linarith
import Mathlib.Tactic.Ring
/-
The member list of the translation group, and the searches in it.
-/
namespace Phenum
open Spec

/-- a member of Z_S0 x Z_S1 x Z_S2 -/
def Valid (S x : GVec) : Prop := ∀ i, 0 ≤ x i ∧ x i < S i

/-- position in lexicographic order -/
def enc (S x : GVec) : ℤ := (x 0 * S 1 + x 1) * S 2 + x 2

theorem enc_nonneg {S x : GVec} (hS : ∀ i, 0 < S i) (h : Valid S x) : 0 ≤ enc S x := by
  have h0 := h 0; have h1 := h 1; have h2 := h 2
  have s1 := hS 1; have s2 := hS 2
  unfold enc
  have : 0 ≤ x 0 * S 1 := mul_nonneg h0.1 s1.le
  have : 0 ≤ (x 0 * S 1 + x 1) * S 2 := mul_nonneg (by omega) s2.le
  omega

theorem enc_lt {S x : GVec} (hS : ∀ i, 0 < S i) (h : Valid S x) : enc S x < S 0 * S 1 * S 2 := by
  have h0 := h 0; have h1 := h 1; have h2 := h 2
  have s1 := hS 1; have s2 := hS 2
  unfold enc
  have a : x 0 * S 1 + x 1 + 1 ≤ S 0 * S 1 := by nlinarith [mul_le_mul_of_nonneg_right (by omega : x 0 + 1 ≤ S 0) s1.le]
  have b : (x 0 * S 1 + x 1 + 1) * S 2 ≤ S 0 * S 1 * S 2 := mul_le_mul_of_nonneg_right a s2.le
  nlinarith

theorem enc_inj {S x y : GVec} (hx : Valid S x) (hy : Valid S y) (h : enc S x = enc S y) : x = y := by
  unfold enc at h
  have key : ∀ {a b c d m : ℤ}, 0 ≤ b → b < m → 0 ≤ d → d < m → a * m + b = c * m + d → a = c ∧ b = d := by
    intro a b c d m hb hb' hd hd' e
    have hm : 0 < m := by omega
    have : a = c := by
      have e1 : (a * m + b) / m = a := by
        rw [add_comm, Int.add_mul_ediv_right _ _ hm.ne', Int.ediv_eq_zero_of_lt hb hb']; simp
      have e2 : (c * m + d) / m = c := by
        rw [add_comm, Int.add_mul_ediv_right _ _ hm.ne', Int.ediv_eq_zero_of_lt hd hd']; simp
      rw [← e1, e, e2]
    subst this
    exact ⟨rfl, by omega⟩
  obtain ⟨e1, e2⟩ := key (hx 2).1 (hx 2).2 (hy 2).1 (hy 2).2 h
  obtain ⟨e0, e1⟩ := key (hx 1).1 (hx 1).2 (hy 1).1 (hy 1).2 e1
  ext i
  fin_cases i
  · exact e0
  · exact e1
  · exact e2

theorem memberStep_ok {S p : GVec} (hp : Valid S p) (h : enc S p + 1 < S 0 * S 1 * S 2) :
    Valid S (memberStep S p) ∧ enc S (memberStep S p) = enc S p + 1 := by
  have h0 := hp 0; have h1 := hp 1; have h2 := hp 2
  unfold memberStep
  by_cases c2 : p 2 + 1 < S 2
  · have e2 : (p 2 + 1) % S 2 = p 2 + 1 := Int.emod_eq_of_lt (by omega) c2
    simp only [e2]
    rw [if_neg (by omega)]
    refine ⟨?_, ?_⟩
    · intro i; fin_cases i <;> simp <;> omega
    · simp [enc]; ring
  · have e2 : p 2 + 1 = S 2 := by omega
    have m2 : (p 2 + 1) % S 2 = 0 := by rw [e2, Int.emod_self]
    simp only [m2, if_pos]
    by_cases c1 : p 1 + 1 < S 1
    · have e1 : (p 1 + 1) % S 1 = p 1 + 1 := Int.emod_eq_of_lt (by omega) c1
      simp only [e1]
      rw [if_neg (by omega)]
      refine ⟨?_, ?_⟩
      · intro i; fin_cases i <;> simp <;> omega
      · simp [enc]; rw [← e2]; ring
    · have e1 : p 1 + 1 = S 1 := by omega
      have m1 : (p 1 + 1) % S 1 = 0 := by rw [e1, Int.emod_self]
      simp only [m1, if_pos]
      have c0 : p 0 + 1 < S 0 := by
        by_contra c0
        have e0 : p 0 + 1 = S 0 := by omega
        unfold enc at h
        rw [← e0, ← e1, ← e2] at h
        nlinarith
      have e0 : (p 0 + 1) % S 0 = p 0 + 1 := Int.emod_eq_of_lt (by omega) c0
      simp only [e0]
      refine ⟨?_, ?_⟩
      · intro i; fin_cases i <;> simp <;> omega
      · simp [enc]; rw [← e2, ← e1]; ring

theorem memberFrom_length (S : GVec) (k : ℕ) (p : GVec) : (memberFrom S k p).length = k := by
  induction k generalizing p with
  | zero => rfl
  | succ k ih => simp [memberFrom, ih]

theorem memberFrom_get {S : GVec} (k : ℕ) (p : GVec) (hp : Valid S p) (h : enc S p + k ≤ S 0 * S 1 * S 2) (i : ℕ)
    (hi : i < k) : ∃ x, (memberFrom S k p)[i]? = some x ∧ Valid S x ∧ enc S x = enc S p + i := by
  induction k generalizing p i with
  | zero => omega
  | succ k ih =>
    cases i with
    | zero => exact ⟨p, by simp [memberFrom], hp, by simp⟩
    | succ i =>
      have := memberStep_ok hp (by push_cast at h; omega)
      obtain ⟨x, e, hx, hxe⟩ := ih (memberStep S p) this.1 (by rw [this.2]; push_cast at h; omega) i (by omega)
      exact ⟨x, by simpa [memberFrom] using e, hx, by rw [hxe, this.2]; push_cast; ring⟩

section
variable {S : GVec} (hS : ∀ i, 0 < S i)
include hS

theorem card_pos : 0 < S 0 * S 1 * S 2 := mul_pos (mul_pos (hS 0) (hS 1)) (hS 2)

theorem memberList_length : (memberList S).length = (S 0 * S 1 * S 2).toNat := memberFrom_length _ _ _

theorem valid_zero : Valid S 0 := fun i => ⟨le_rfl, hS i⟩

theorem memberList_get (i : ℕ) (hi : (i : ℤ) < S 0 * S 1 * S 2) :
    ∃ x, (memberList S)[i]? = some x ∧ Valid S x ∧ enc S x = i := by
  have := card_pos hS
  obtain ⟨x, e, hx, hxe⟩ := memberFrom_get (S 0 * S 1 * S 2).toNat 0 (valid_zero hS)
    (by simp [enc]; omega) i (by omega)
  exact ⟨x, e, hx, by simpa [enc] using hxe⟩

/-- a valid triple is listed at its code -/
theorem memberList_enc {x : GVec} (hx : Valid S x) : (memberList S)[(enc S x).toNat]? = some x := by
  have h0 := enc_nonneg hS hx
  obtain ⟨y, e, hy, hye⟩ := memberList_get hS (enc S x).toNat (by have := enc_lt hS hx; omega)
  rw [e, enc_inj hy hx (by rw [hye]; omega)]

theorem mem_memberList {x : GVec} : x ∈ memberList S ↔ Valid S x := by
  constructor
  · intro h
    obtain ⟨i, e⟩ := List.mem_iff_getElem?.mp h
    have hi : i < (memberList S).length := (List.getElem?_eq_some_iff.mp e).1
    rw [memberList_length hS] at hi
    have := card_pos hS
    obtain ⟨y, e', hy, -⟩ := memberList_get hS i (by omega)
    rw [e] at e'
    injection e' with e'
    rw [e']; exact hy
  · intro h
    exact List.mem_iff_getElem?.mpr ⟨_, memberList_enc hS h⟩

theorem memberList_nodup : (memberList S).Nodup := by
  rw [List.nodup_iff_getElem?_ne_getElem?]
  intro i j hij hj
  have c := card_pos hS
  rw [memberList_length hS] at hj
  obtain ⟨x, e, -, hx⟩ := memberList_get hS i (by omega)
  obtain ⟨y, e', -, hy⟩ := memberList_get hS j (by omega)
  rw [e, e']
  intro h
  injection h with h
  rw [h, hy] at hx
  omega

end

/-! searches -/

theorem findMatch_eq {gp : List GVec} (hgp : gp.Nodup) {skip : List Bool} {x : GVec} (hx : x ∈ gp)
    (hs : skip.getD (gp.idxOf x) false = false) : findMatch gp skip x = some (gp.idxOf x) := by
  have hlt : gp.idxOf x < gp.length := List.idxOf_lt_length_iff.mpr hx
  have hget : gp[gp.idxOf x]? = some x := by rw [List.getElem?_eq_getElem hlt]; simp
  unfold findMatch
  rw [List.find?_range_eq_some]
  refine ⟨?_, by simpa using hlt, ?_⟩
  · rw [hs, hget]; simp
  · intro j hj
    have : gp[j]? ≠ some x := by
      intro h
      rw [← hget] at h
      have := (List.getElem?_inj (by omega) hgp).mp h
      omega
    simp [this]

theorem skip_set {gp : List GVec} {skip : List Bool} {x y : GVec} (hy : y ∈ gp) (hxy : x ≠ y)
    (hs : skip.getD (gp.idxOf y) false = false) :
    (skip.set (gp.idxOf x) true).getD (gp.idxOf y) false = false := by
  have : gp.idxOf x ≠ gp.idxOf y := by
    intro h
    exact hxy ((List.idxOf_inj hy).mp h.symm).symm
  rw [List.getD_eq_getElem?_getD, List.getElem?_set_ne this, ← List.getD_eq_getElem?_getD]
  exact hs

theorem findPermLoop_eq {gp : List GVec} (hgp : gp.Nodup) (xs : List GVec) (hxs : xs.Nodup) (hin : ∀ x ∈ xs, x ∈ gp)
    (skip : List Bool) (hs : ∀ x ∈ xs, skip.getD (gp.idxOf x) false = false) :
    findPermLoop gp xs skip = xs.map (fun x => gp.idxOf x) := by
  induction xs generalizing skip with
  | nil => rfl
  | cons x xs ih =>
    rw [List.nodup_cons] at hxs
    have hx := hin x (by simp)
    rw [findPermLoop, findMatch_eq hgp hx (hs x (by simp))]
    simp only [List.map_cons]
    rw [ih hxs.2 (fun y hy => hin y (by simp [hy]))]
    intro y hy
    exact skip_set (hin y (by simp [hy])) (by rintro rfl; exact hxs.1 hy) (hs y (by simp [hy]))

theorem findPerm_eq {g gp : List GVec} (hg : g.Nodup) (hgp : gp.Nodup) (hin : ∀ x ∈ g, x ∈ gp) :
    findPerm g gp = g.map (fun x => gp.idxOf x) := by
  apply findPermLoop_eq hgp g hg hin
  intro x _
  rw [List.getD_eq_getElem?_getD]
  by_cases h : gp.idxOf x < g.length
  · simp [h]
  · simp [h]

theorem fillTable_spec {gp : List GVec} (hgp : gp.Nodup) (n iD row : ℕ) (xs : List GVec) (hxs : xs.Nodup)
    (hin : ∀ x ∈ xs, x ∈ gp) (im : ℕ) (skip : List Bool) (hs : ∀ x ∈ xs, skip.getD (gp.idxOf x) false = false)
    (tab : List ℕ) (hlen : row * n + im + xs.length ≤ tab.length) :
    (fillTable n gp iD row xs im skip tab).length = tab.length ∧
    (∀ k x, xs[k]? = some x → (fillTable n gp iD row xs im skip tab)[row * n + im + k]? = some (gp.idxOf x + iD * n)) ∧
    (∀ p, (p < row * n + im ∨ row * n + im + xs.length ≤ p) →
      (fillTable n gp iD row xs im skip tab)[p]? = tab[p]?) := by
  induction xs generalizing im skip tab with
  | nil => simp [fillTable]
  | cons x xs ih =>
    rw [List.nodup_cons] at hxs
    have hx := hin x (by simp)
    simp only [List.length_cons] at hlen
    rw [fillTable, findMatch_eq hgp hx (hs x (by simp))]
    simp only
    obtain ⟨h1, h2, h3⟩ := ih hxs.2 (fun y hy => hin y (by simp [hy])) (im + 1) (skip.set (gp.idxOf x) true)
      (fun y hy => skip_set (hin y (by simp [hy])) (by rintro rfl; exact hxs.1 hy) (hs y (by simp [hy])))
      (tab.set (row * n + im) (gp.idxOf x + iD * n)) (by rw [List.length_set]; omega)
    refine ⟨by rw [h1, List.length_set], ?_, ?_⟩
    · intro k y hk
      cases k with
      | zero =>
        simp only [List.getElem?_cons_zero, Option.some.injEq] at hk
        subst hk
        rw [h3 _ (by left; omega), Nat.add_zero, List.getElem?_set_self (by omega)]
      | succ k =>
        have := h2 k y (by simpa using hk)
        rw [← this]; congr 1; omega
    · intro p hp
      simp only [List.length_cons] at hp
      rw [h3 p (by omega), List.getElem?_set_ne (by omega)]

theorem skip_replicate (k j : ℕ) : (List.replicate k false).getD j false = false := by
  rw [List.getD_eq_getElem?_getD]
  by_cases h : j < k
  · simp [h]
  · simp [h]

end Phenum
