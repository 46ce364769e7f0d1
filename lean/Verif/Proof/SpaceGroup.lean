import Verif.Props.PointGroup
import Verif.Model.SpaceGroup
import Verif.Proof.Induced
import Verif.Props.Cell
import Verif.Spec.Crystal
import Mathlib.Data.Fintype.Quotient
import Mathlib.Data.Fintype.EquivFin
/-
The space group: proofs.
-/
namespace Phenum
open Spec

/-- The representative of `v` with lattice coordinates in `[0,1)`. -/
noncomputable def canonV (P : M3 ℝ) (v : V3) : V3 :=
  P.transpose.mulVec (fun i => Int.fract ((P.transpose)⁻¹.mulVec v i))

section
variable {P : M3 ℝ} (hP : P.det ≠ 0)
include hP

theorem l2c_c2l : P.transpose * (P.transpose)⁻¹ = 1 :=
  Matrix.mul_nonsing_inv _ (by rw [Matrix.det_transpose]; exact isUnit_iff_ne_zero.2 hP)

theorem c2l_l2c : (P.transpose)⁻¹ * P.transpose = 1 :=
  Matrix.nonsing_inv_mul _ (by rw [Matrix.det_transpose]; exact isUnit_iff_ne_zero.2 hP)

theorem canonV_sub (v : V3) : v - canonV P v ∈ ColLattice P.transpose := by
  refine ⟨fun i => ⌊(P.transpose)⁻¹.mulVec v i⌋, ?_⟩
  have h : (fun i => ((⌊(P.transpose)⁻¹.mulVec v i⌋ : ℤ) : ℝ)) =
      (P.transpose)⁻¹.mulVec v - fun i => Int.fract ((P.transpose)⁻¹.mulVec v i) := by
    funext i
    simp only [Pi.sub_apply]
    rw [Int.self_sub_fract]
  rw [h, Matrix.mulVec_sub, Matrix.mulVec_mulVec, l2c_c2l hP, Matrix.one_mulVec]
  rfl

theorem canonV_eq_iff {u v : V3} : canonV P u = canonV P v ↔ u - v ∈ ColLattice P.transpose := by
  constructor
  · intro h
    have h1 := canonV_sub hP u
    have h2 := canonV_sub hP v
    rw [h] at h1
    have := colLat_sub h1 h2
    rwa [sub_sub_sub_cancel_right] at this
  · rintro ⟨x, hx⟩
    unfold canonV
    congr 1
    funext i
    have : u = v + P.transpose.mulVec (fun i => (x i : ℝ)) := by rw [hx]; abel
    rw [this, Matrix.mulVec_add, Matrix.mulVec_mulVec, c2l_l2c hP, Matrix.one_mulVec]
    simp

theorem bring_canon {v : V3} {eps : ℝ} (h0 : 0 < eps) (h1 : eps < 1)
    (h : ∀ i, Int.fract ((P.transpose)⁻¹.mulVec v i) < 1 - eps) :
    bringIntoCell v (P.transpose)⁻¹ P.transpose eps = some (.ok (canonV P v)) := by
  obtain ⟨r, hr, hb, z, hz⟩ := C27_bring_into_cell v (P.transpose)⁻¹ P.transpose eps h0.le h1 (l2c_c2l hP)
  rw [hr]
  congr 2
  have hw : (P.transpose)⁻¹.mulVec r = fun i => Int.fract ((P.transpose)⁻¹.mulVec v i) := by
    funext i
    have e1 : (P.transpose)⁻¹.mulVec r i = (P.transpose)⁻¹.mulVec v i - z i := by
      rw [hz, Matrix.mulVec_sub, Matrix.mulVec_mulVec, c2l_l2c hP, Matrix.one_mulVec]
      rfl
    have e2 : Int.fract ((P.transpose)⁻¹.mulVec r i) = Int.fract ((P.transpose)⁻¹.mulVec v i) := by
      rw [e1, Int.fract_sub_intCast]
    have hi := h i
    rw [← e2] at hi ⊢
    obtain ⟨b1, b2⟩ := hb i
    set w := (P.transpose)⁻¹.mulVec r i
    have hw0 : 0 ≤ w := by
      by_contra hneg
      push Not at hneg
      have : Int.fract w = w + 1 := by
        rw [← Int.fract_add_one]
        exact Int.fract_eq_self.mpr ⟨by linarith, by linarith⟩
      linarith
    exact (Int.fract_eq_self.mpr ⟨hw0, by linarith⟩).symm
  unfold canonV
  rw [← hw, Matrix.mulVec_mulVec, l2c_c2l hP, Matrix.one_mulVec]

end

/-- Loops over total calls. -/
theorem allMapped_eq {c2l l2c : M3 ℝ} {eps : ℝ} {op : M3 ℝ} {fract : V3} {atoms : List (ℕ × V3)} {cv : V3 → V3} :
    ∀ l : List (ℕ × V3), (∀ a ∈ l, bringIntoCell (fun i => op.mulVec a.2 i + fract i) c2l l2c eps =
      some (.ok (cv (fun i => op.mulVec a.2 i + fract i)))) →
    allMapped c2l l2c eps op fract atoms l =
      some (.ok (l.all (fun a => doesMappingExist (cv (fun i => op.mulVec a.2 i + fract i)) a.1 atoms eps)))
  | [], _ => rfl
  | a :: rest, h => by
    unfold allMapped
    rw [h a (by simp)]
    show (if _ then _ else _) = _
    rw [allMapped_eq rest (fun b hb => h b (by simp [hb])), List.all_cons]
    cases doesMappingExist (cv (fun i => op.mulVec a.2 i + fract i)) a.1 atoms eps <;> rfl

/-- The translations for one operation, with `cv` in place of `bring_into_cell`. -/
noncomputable def exactFracts (cv : V3 → V3) (eps : ℝ) (op : M3 ℝ) (a0 : ℕ × V3) (atoms l : List (ℕ × V3)) : List V3 :=
  l.flatMap (fun a => if a.1 = a0.1 ∧ atoms.all (fun b => doesMappingExist
      (cv (fun i => op.mulVec b.2 i + cv (fun i => a.2 i - op.mulVec a0.2 i) i)) b.1 atoms eps) then
      [cv (fun i => a.2 i - op.mulVec a0.2 i)] else [])

theorem opFracts_eq {c2l l2c : M3 ℝ} {eps : ℝ} {op : M3 ℝ} {a0 : ℕ × V3} {atoms : List (ℕ × V3)} {cv : V3 → V3} :
    ∀ l : List (ℕ × V3),
    (∀ a ∈ l, bringIntoCell (fun i => a.2 i - op.mulVec a0.2 i) c2l l2c eps =
      some (.ok (cv (fun i => a.2 i - op.mulVec a0.2 i)))) →
    (∀ a ∈ l, ∀ b ∈ atoms, bringIntoCell (fun i => op.mulVec b.2 i + cv (fun i => a.2 i - op.mulVec a0.2 i) i) c2l l2c eps =
      some (.ok (cv (fun i => op.mulVec b.2 i + cv (fun i => a.2 i - op.mulVec a0.2 i) i)))) →
    opFracts c2l l2c eps op a0 atoms l = some (.ok (exactFracts cv eps op a0 atoms l))
  | [], _, _ => rfl
  | a :: rest, h1, h2 => by
    unfold opFracts exactFracts
    rw [List.flatMap_cons, opFracts_eq rest (fun b hb => h1 b (by simp [hb])) (fun b hb => h2 b (by simp [hb])),
      h1 a (by simp)]
    by_cases ha : a.1 = a0.1
    · rw [if_neg (by simpa using ha)]
      have := allMapped_eq (atoms := atoms) atoms (h2 a (by simp))
      show ExceptT.bind (allMapped c2l l2c eps op (cv (fun i => a.2 i - op.mulVec a0.2 i)) atoms atoms) _ = _
      rw [this]
      show some (Except.ok (if _ then _ else _)) = _
      congr 2
      simp only [ha, true_and]
      split_ifs with hb
      · rfl
      · rfl
    · rw [if_pos ha, if_neg (by tauto)]
      rfl

theorem sgLoop_eq {c2l l2c : M3 ℝ} {eps : ℝ} {a0 : ℕ × V3} {atoms : List (ℕ × V3)} {cv : V3 → V3} :
    ∀ ops : List (M3 ℝ),
    (∀ op ∈ ops, ∀ a ∈ atoms, bringIntoCell (fun i => a.2 i - op.mulVec a0.2 i) c2l l2c eps =
      some (.ok (cv (fun i => a.2 i - op.mulVec a0.2 i)))) →
    (∀ op ∈ ops, ∀ a ∈ atoms, ∀ b ∈ atoms,
      bringIntoCell (fun i => op.mulVec b.2 i + cv (fun i => a.2 i - op.mulVec a0.2 i) i) c2l l2c eps =
      some (.ok (cv (fun i => op.mulVec b.2 i + cv (fun i => a.2 i - op.mulVec a0.2 i) i)))) →
    sgLoop c2l l2c eps a0 atoms ops =
      some (.ok (ops.flatMap (fun op => (exactFracts cv eps op a0 atoms atoms).map (fun f => (op, f)))))
  | [], _, _ => rfl
  | op :: rest, h1, h2 => by
    unfold sgLoop
    rw [List.flatMap_cons, sgLoop_eq rest (fun b hb => h1 b (by simp [hb])) (fun b hb => h2 b (by simp [hb])),
      opFracts_eq atoms (h1 op (by simp)) (h2 op (by simp))]
    rfl

theorem bringAtoms_eq {c2l l2c : M3 ℝ} {eps : ℝ} {cv : V3 → V3} : ∀ l : List (ℕ × V3),
    (∀ a ∈ l, bringIntoCell a.2 c2l l2c eps = some (.ok (cv a.2))) →
    bringAtoms c2l l2c eps l = some (.ok (l.map (fun a => (a.1, cv a.2))))
  | [], _ => rfl
  | a :: rest, h => by
    unfold bringAtoms
    rw [h a (by simp), bringAtoms_eq rest (fun b hb => h b (by simp [hb]))]
    rfl

/-! Symmetries of the crystal. -/

/-- Every atom is taken to an atom of its type. -/
def MapsInto (Λ : Set V3) (atoms : List (ℕ × V3)) (R : M3 ℝ) (s : V3) : Prop :=
  ∀ b ∈ atoms, ∃ c ∈ atoms, c.1 = b.1 ∧ R.mulVec b.2 + s - c.2 ∈ Λ

theorem image_maps {Λ : Set V3} {R : M3 ℝ} (h : R.mulVec '' Λ = Λ) {v : V3} (hv : v ∈ Λ) : R.mulVec v ∈ Λ := by
  rw [← h]; exact ⟨v, hv, rfl⟩

theorem image_maps_inv {Λ : Set V3} {R : M3 ℝ} (h0 : R * R.transpose = 1) (h : R.mulVec '' Λ = Λ) {v : V3} (hv : v ∈ Λ) :
    R.transpose.mulVec v ∈ Λ := by
  rw [← h] at hv
  obtain ⟨u, hu, rfl⟩ := hv
  rwa [Matrix.mulVec_mulVec, mul_eq_one_comm.mp h0, Matrix.one_mulVec]

theorem crystalSym_iff {Λ : Set V3} (hΛ : IsSub Λ) {atoms : List (ℕ × V3)} {R : M3 ℝ} {s : V3} :
    IsCrystalSym Λ atoms R s ↔ R * R.transpose = 1 ∧ R.mulVec '' Λ = Λ ∧ MapsInto Λ atoms R s := by
  constructor
  · rintro ⟨h1, h2, h3⟩
    refine ⟨h1, h2, fun b hb => ?_⟩
    have : ((b.1, R.mulVec b.2 + s) : ℕ × V3) ∈ Crystal Λ atoms := by
      rw [← h3]
      exact ⟨b, ⟨b, hb, rfl, by rw [sub_self]; exact hΛ.zero⟩, rfl⟩
    exact this
  · rintro ⟨h1, h2, h3⟩
    refine ⟨h1, h2, Set.Subset.antisymm ?_ ?_⟩
    · rintro _ ⟨a, ⟨b, hb, e, hab⟩, rfl⟩
      obtain ⟨c, hc, ec, h⟩ := h3 b hb
      refine ⟨c, hc, ec.trans e, ?_⟩
      have := hΛ.add _ (image_maps h2 hab) _ h
      rw [Matrix.mulVec_sub] at this
      convert this using 1
      simp only
      abel
    · -- the induced map of the classes of atoms is injective, so it is surjective
      let st : Setoid (Fin atoms.length) :=
        ⟨fun i j => atoms[i].1 = atoms[j].1 ∧ atoms[i].2 - atoms[j].2 ∈ Λ,
          ⟨fun i => ⟨rfl, by rw [sub_self]; exact hΛ.zero⟩,
           fun {i j} h => ⟨h.1.symm, by have := hΛ.neg _ h.2; rwa [neg_sub] at this⟩,
           fun {i j k} h h' => ⟨h.1.trans h'.1, by have := hΛ.add _ h.2 _ h'.2; rwa [sub_add_sub_cancel] at this⟩⟩⟩
      have hf : ∀ i : Fin atoms.length, ∃ j : Fin atoms.length, atoms[j].1 = atoms[i].1 ∧
          R.mulVec atoms[i].2 + s - atoms[j].2 ∈ Λ := by
        intro i
        obtain ⟨c, hc, h⟩ := h3 atoms[i] (List.getElem_mem _)
        obtain ⟨j, hj, rfl⟩ := List.getElem_of_mem hc
        exact ⟨⟨j, hj⟩, h⟩
      choose f hf1 hf2 using hf
      have hresp : ∀ i j, st i j → st (f i) (f j) := by
        rintro i j ⟨e, h⟩
        refine ⟨by rw [hf1, hf1, e], ?_⟩
        have := hΛ.add _ (hΛ.add _ (hΛ.neg _ (hf2 i)) _ (image_maps h2 h)) _ (hf2 j)
        rw [Matrix.mulVec_sub] at this
        convert this using 1
        abel
      have hrefl : ∀ i j, st (f i) (f j) → st i j := by
        rintro i j ⟨e, h⟩
        refine ⟨(hf1 i).symm.trans (e.trans (hf1 j)), ?_⟩
        have := hΛ.add _ (hΛ.add _ (hf2 i) _ h) _ (hΛ.neg _ (hf2 j))
        have h' := image_maps_inv h1 h2 this
        rw [show R.mulVec atoms[i].2 + s - atoms[f i].2 + (atoms[f i].2 - atoms[f j].2) +
          -(R.mulVec atoms[j].2 + s - atoms[f j].2) = R.mulVec (atoms[i].2 - atoms[j].2) by rw [Matrix.mulVec_sub]; abel,
          Matrix.mulVec_mulVec, mul_eq_one_comm.mp h1, Matrix.one_mulVec] at h'
        exact h'
      let F : Quotient st → Quotient st := Quotient.map f hresp
      have hinj : Function.Injective F := by
        intro a b
        induction a using Quotient.inductionOn with | _ i => ?_
        induction b using Quotient.inductionOn with | _ j => ?_
        intro h
        exact Quotient.sound (hrefl i j (Quotient.exact h))
      have hsurj : Function.Surjective F := Finite.surjective_of_injective hinj
      rintro ⟨t, y⟩ ⟨b, hb, e, hy⟩
      obtain ⟨j, hj, rfl⟩ := List.getElem_of_mem hb
      obtain ⟨q, hq⟩ := hsurj (Quotient.mk st ⟨j, hj⟩)
      induction q using Quotient.inductionOn with | _ i => ?_
      obtain ⟨e2, h4⟩ : st (f i) ⟨j, hj⟩ := Quotient.exact hq
      refine ⟨(t, R.transpose.mulVec (y - s)), ⟨atoms[i], List.getElem_mem _, ?_, ?_⟩, ?_⟩
      · rw [← hf1, e2]; exact e
      · have := hΛ.add _ (hΛ.add _ hy _ (hΛ.neg _ h4)) _ (hΛ.neg _ (hf2 i))
        have h' := image_maps_inv h1 h2 this
        convert h' using 1
        have : y - atoms[j].2 + -(atoms[f i].2 - atoms[j].2) + -(R.mulVec atoms[i].2 + s - atoms[f i].2) =
            (y - s) - R.mulVec atoms[i].2 := by abel
        simp only [Fin.getElem_fin] at this ⊢
        rw [this, Matrix.mulVec_sub _ (y - s), Matrix.mulVec_mulVec, mul_eq_one_comm.mp h1, Matrix.one_mulVec]
      · simp only
        rw [Matrix.mulVec_mulVec, h1, Matrix.one_mulVec, sub_add_cancel]

end Phenum
