import Verif.Py
import Verif.Spec.Group
import Mathlib.Data.List.Perm.Basic
import Mathlib.Data.List.NodupEquivFin
import Mathlib.Tactic.Common
/-
Lemmas about `permute` and `pyGather`.
-/
namespace Phenum
open Spec

theorem permute_nil {α : Type} (x : List α) : permute [] x = [] := rfl

theorem permute_cons {α : Type} (j : Nat) (σ : List Nat) (x : List α) (h : j < x.length) :
    permute (j :: σ) x = x[j] :: permute σ x := by
  simp [permute, h]

theorem pyGet_ok {α : Type} (x : List α) (j : Nat) (h : j < x.length) : pyGet x j = .ok x[j] := by
  simp [pyGet, h]

theorem pyGather_eq {α : Type} (σ : List Nat) (x : List α) (h : ∀ j ∈ σ, j < x.length) :
    pyGather σ x = .ok (permute σ x) := by
  unfold pyGather
  induction σ with
  | nil => rfl
  | cons j σ ih =>
    have hj := h j (by simp)
    rw [List.mapM_cons, pyGet_ok x j hj, ih (fun i hi => h i (List.mem_cons_of_mem _ hi)),
      permute_cons j σ x hj]
    rfl

theorem permute_length {α : Type} (σ : List Nat) (x : List α) (h : ∀ j ∈ σ, j < x.length) :
    (permute σ x).length = σ.length := by
  induction σ with
  | nil => rfl
  | cons j σ ih =>
    rw [permute_cons j σ x (h j (by simp)), List.length_cons, List.length_cons,
      ih (fun i hi => h i (List.mem_cons_of_mem _ hi))]

theorem permute_getElem? {α : Type} (σ : List Nat) (x : List α) (h : ∀ j ∈ σ, j < x.length) (i : Nat) :
    (permute σ x)[i]? = σ[i]?.bind (fun j => x[j]?) := by
  induction σ generalizing i with
  | nil => rfl
  | cons j σ ih =>
    rw [permute_cons j σ x (h j (by simp))]
    cases i with
    | zero => simp [h j (by simp)]
    | succ i => simpa using ih (fun i hi => h i (List.mem_cons_of_mem _ hi)) i

theorem permute_getElem {α : Type} (σ : List Nat) (x : List α) (h : ∀ j ∈ σ, j < x.length) (i : Nat)
    (hi : i < σ.length) :
    (permute σ x)[i]'(by rw [permute_length σ x h]; exact hi) = x[σ[i]]'(h _ (List.getElem_mem _)) := by
  have := permute_getElem? σ x h i
  rw [List.getElem?_eq_getElem (by rw [permute_length σ x h]; exact hi), List.getElem?_eq_getElem hi] at this
  simpa [h _ (List.getElem_mem hi)] using this

theorem permute_map {α β : Type} (σ : List Nat) (x : List α) (f : α → β) :
    permute σ (x.map f) = (permute σ x).map f := by
  unfold permute
  induction σ with
  | nil => rfl
  | cons j σ ih =>
    simp only [List.filterMap_cons, List.getElem?_map]
    cases h : x[j]? with
    | none => simpa using ih
    | some v => simpa using ih

theorem permute_range {α : Type} (x : List α) : permute (List.range x.length) x = x := by
  apply List.ext_getElem?
  intro i
  rw [permute_getElem? _ _ (by simp)]
  by_cases h : i < x.length
  · simp [h]
  · simp [h]

theorem permute_permute {α : Type} (σ τ : List Nat) (x : List α) (hσ : ∀ j ∈ σ, j < x.length)
    (hτ : ∀ j ∈ τ, j < σ.length) :
    permute τ (permute σ x) = permute (permute τ σ) x := by
  have h1 : ∀ j ∈ τ, j < (permute σ x).length := by rw [permute_length σ x hσ]; exact hτ
  have h2 : ∀ j ∈ permute τ σ, j < x.length := by
    intro j hj
    obtain ⟨a, -, ha⟩ := List.mem_filterMap.mp hj
    exact hσ j (List.mem_of_getElem? ha)
  apply List.ext_getElem?
  intro i
  rw [permute_getElem? _ _ h1, permute_getElem? _ _ h2, permute_getElem? _ _ hτ, Option.bind_assoc]
  congr 1
  funext j
  exact permute_getElem? _ _ hσ j

theorem permute_congr_perm {α : Type} {σ τ : List Nat} (x : List α) (h : σ.Perm τ) :
    (permute σ x).Perm (permute τ x) := h.filterMap _

theorem permute_perm {α : Type} (σ : List Nat) (x : List α) (h : σ.Perm (List.range x.length)) :
    (permute σ x).Perm x := by
  have := permute_congr_perm x h
  rwa [permute_range] at this

theorem perm_range_lt {σ : List Nat} {n : Nat} (h : σ.Perm (List.range n)) : ∀ j ∈ σ, j < n := by
  intro j hj
  simpa using h.mem_iff.mp hj

theorem perm_range_length {σ : List Nat} {n : Nat} (h : σ.Perm (List.range n)) : σ.length = n := by
  simpa using h.length_eq

section
variable {n : Nat} {G : List (List Nat)} (hG : IsPermGroup n G)
include hG

theorem Spec.IsPermGroup.lt {σ : List Nat} (h : σ ∈ G) : ∀ j ∈ σ, j < n := perm_range_lt (hG.perm σ h)

theorem Spec.IsPermGroup.len {σ : List Nat} (h : σ ∈ G) : σ.length = n := perm_range_length (hG.perm σ h)

theorem Spec.IsPermGroup.permute_mul {α : Type} {σ τ : List Nat} (hσ : σ ∈ G) (hτ : τ ∈ G) (x : List α)
    (hx : x.length = n) : permute τ (permute σ x) = permute (permute τ σ) x :=
  permute_permute σ τ x (by rw [hx]; exact hG.lt hσ) (by rw [hG.len hσ]; exact hG.lt hτ)

/-- every operation has a left inverse on configurations -/
theorem Spec.IsPermGroup.exists_inv {σ : List Nat} (hσ : σ ∈ G) :
    ∃ τ ∈ G, ∀ {α : Type} (x : List α), x.length = n → permute τ (permute σ x) = x := by
  obtain ⟨τ, hτ, h⟩ := hG.inv σ hσ
  refine ⟨τ, hτ, ?_⟩
  intro α x hx
  rw [hG.permute_mul hσ hτ x hx, h, ← hx, permute_range]

theorem Spec.IsPermGroup.equiv_refl {α : Type} (x : List α) (hx : x.length = n) : Equiv G x x :=
  ⟨_, hG.one, by rw [← hx, permute_range]⟩

theorem Spec.IsPermGroup.equiv_symm {α : Type} {x y : List α} (hx : x.length = n) (h : Equiv G x y) :
    Equiv G y x := by
  obtain ⟨σ, hσ, rfl⟩ := h
  obtain ⟨τ, hτ, h⟩ := hG.exists_inv hσ
  exact ⟨τ, hτ, h x hx⟩

theorem Spec.IsPermGroup.equiv_trans {α : Type} {x y z : List α} (hx : x.length = n) (h : Equiv G x y)
    (h' : Equiv G y z) : Equiv G x z := by
  obtain ⟨σ, hσ, rfl⟩ := h
  obtain ⟨τ, hτ, rfl⟩ := h'
  exact ⟨_, hG.mul σ hσ τ hτ, (hG.permute_mul hσ hτ x hx).symm⟩

theorem Spec.IsPermGroup.permute_length' {α : Type} {σ : List Nat} (hσ : σ ∈ G) (x : List α)
    (hx : x.length = n) : (permute σ x).length = n := by
  rw [permute_length _ _ (by rw [hx]; exact hG.lt hσ), hG.len hσ]

theorem Spec.IsPermGroup.permute_perm' {α : Type} {σ : List Nat} (hσ : σ ∈ G) (x : List α)
    (hx : x.length = n) : (permute σ x).Perm x :=
  permute_perm σ x (by rw [hx]; exact hG.perm σ hσ)

end

end Phenum
