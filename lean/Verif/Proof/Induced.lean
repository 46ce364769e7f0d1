import Verif.Spec.Crystal
import Verif.Spec.Arrows
import Verif.Proof.Lattice
import Verif.Proof.Group
/-
Induced permutations compose.
-/
namespace Phenum
open Spec

variable {K : Type} [Field K]

theorem colLat_zero (M : M3 K) : (0 : Fin 3 → K) ∈ ColLattice M := ⟨0, by simp [show (fun _ : Fin 3 => (0 : K)) = 0 from rfl]⟩

theorem colLat_add {M : M3 K} {u v : Fin 3 → K} (hu : u ∈ ColLattice M) (hv : v ∈ ColLattice M) :
    u + v ∈ ColLattice M := by
  obtain ⟨x, rfl⟩ := hu
  obtain ⟨y, rfl⟩ := hv
  refine ⟨x + y, ?_⟩
  rw [← Matrix.mulVec_add]
  congr 1; ext i; simp

theorem colLat_neg {M : M3 K} {u : Fin 3 → K} (hu : u ∈ ColLattice M) : -u ∈ ColLattice M := by
  obtain ⟨x, rfl⟩ := hu
  refine ⟨-x, ?_⟩
  rw [← Matrix.mulVec_neg]
  congr 1; ext i; simp

theorem colLat_sub {M : M3 K} {u v : Fin 3 → K} (hu : u ∈ ColLattice M) (hv : v ∈ ColLattice M) :
    u - v ∈ ColLattice M := by
  rw [sub_eq_add_neg]; exact colLat_add hu (colLat_neg hv)

/-- `Λ` is a subgroup -/
structure IsSub (Λ : Set (Fin 3 → K)) : Prop where
  zero : 0 ∈ Λ
  add : ∀ u ∈ Λ, ∀ v ∈ Λ, u + v ∈ Λ
  neg : ∀ u ∈ Λ, -u ∈ Λ

theorem colLat_isSub (M : M3 K) : IsSub (ColLattice M) :=
  ⟨colLat_zero M, fun _ hu _ hv => colLat_add hu hv, fun _ hu => colLat_neg hu⟩

theorem colLat_mapsTo {R M M' : M3 K} (h : ColLattice (R * M) = ColLattice M') {u : Fin 3 → K} (hu : u ∈ ColLattice M) :
    R.mulVec u ∈ ColLattice M' := by
  rw [← h]
  obtain ⟨x, rfl⟩ := hu
  exact ⟨x, by rw [Matrix.mulVec_mulVec]⟩

theorem mulVec_cancel {R : M3 K} (hR : R.det ≠ 0) {u v : Fin 3 → K} (h : R.mulVec u = R.mulVec v) : u = v := by
  have := congrArg (R⁻¹.mulVec) h
  rwa [Matrix.mulVec_mulVec, Matrix.mulVec_mulVec, Matrix.nonsing_inv_mul _ (isUnit_iff_ne_zero.mpr hR),
    Matrix.one_mulVec, Matrix.one_mulVec] at this

/-- `R` maps `Λ` onto itself -/
structure Keeps (Λ : Set (Fin 3 → K)) (R : M3 K) : Prop where
  fwd : ∀ u ∈ Λ, R.mulVec u ∈ Λ
  bwd : ∀ u, R.mulVec u ∈ Λ → u ∈ Λ

theorem keeps_of {R M : M3 K} (h : ColLattice (R * M) = ColLattice M) (hR : R.det ≠ 0) : Keeps (ColLattice M) R := by
  refine ⟨fun u hu => colLat_mapsTo h hu, fun u hu => ?_⟩
  rw [← h] at hu
  obtain ⟨x, hx⟩ := hu
  refine ⟨x, ?_⟩
  rw [← Matrix.mulVec_mulVec] at hx
  exact mulVec_cancel hR hx

section
variable {Λ : Set (Fin 3 → K)} (hΛ : IsSub Λ) {N : ℕ} {pos : ℕ → Fin 3 → K}

/-- the positions are pairwise inequivalent -/
def Apart (Λ : Set (Fin 3 → K)) (N : ℕ) (pos : ℕ → Fin 3 → K) : Prop :=
  ∀ i j, i < N → j < N → pos i - pos j ∈ Λ → i = j

theorem Spec.Induces.lt {R : M3 K} {s : Fin 3 → K} {σ : List ℕ} (h : Induces Λ N pos R s σ) : ∀ j ∈ σ, j < N := by
  intro j hj
  obtain ⟨i, e⟩ := List.mem_iff_getElem?.mp hj
  have hi : i < N := by rw [← h.length]; exact (List.getElem?_eq_some_iff.mp e).1
  exact ((h.entries i j hi).mp e).1

include hΛ

theorem Spec.Induces.perm (hp : Apart Λ N pos) {R : M3 K} {s : Fin 3 → K} {σ : List ℕ} (h : Induces Λ N pos R s σ) :
    σ.Perm (List.range N) := by
  have hnd : σ.Nodup := by
    rw [List.nodup_iff_getElem?_ne_getElem?]
    intro i k hik hk e
    rw [h.length] at hk
    have hi : i < N := by omega
    obtain ⟨j, hj⟩ : ∃ j, σ[i]? = some j := ⟨_, List.getElem?_eq_getElem (by rw [h.length]; exact hi)⟩
    have a := ((h.entries i j hi).mp hj).2
    rw [e] at hj
    have b := ((h.entries k j hk).mp hj).2
    have := hp k i hk hi (by
      have := hΛ.add _ a _ (hΛ.neg _ b)
      rwa [show R.mulVec (pos j) + s - pos i + -(R.mulVec (pos j) + s - pos k) = pos k - pos i by abel] at this)
    omega
  refine (List.subperm_of_subset hnd (fun j hj => List.mem_range.mpr (h.lt j hj))).perm_of_length_le ?_
  rw [List.length_range, h.length]

/-- motions that differ by a period induce the same permutation -/
theorem Spec.Induces.unique {R : M3 K} {s t : Fin 3 → K} {σ τ : List ℕ} (h : Induces Λ N pos R s σ)
    (h' : Induces Λ N pos R t τ) (hst : s - t ∈ Λ) : σ = τ := by
  apply List.ext_getElem?
  intro i
  by_cases hi : i < N
  · have hlt : i < σ.length := by rw [h.length]; exact hi
    have e : σ[i]? = some σ[i] := List.getElem?_eq_getElem hlt
    rw [e]
    obtain ⟨h1, h2⟩ := (h.entries i _ hi).mp e
    symm
    refine (h'.entries i _ hi).mpr ⟨h1, ?_⟩
    have := hΛ.add _ h2 _ (hΛ.neg _ hst)
    rwa [show R.mulVec (pos σ[i]) + s - pos i + -(s - t) = R.mulVec (pos σ[i]) + t - pos i by abel] at this
  · rw [List.getElem?_eq_none (by rw [h.length]; omega), List.getElem?_eq_none (by rw [h'.length]; omega)]

/-- performing the motion of `σ`, then that of `τ` -/
theorem Spec.Induces.comp {R Q : M3 K} {s t : Fin 3 → K} {σ τ : List ℕ} (h : Induces Λ N pos R s σ)
    (h' : Induces Λ N pos Q t τ) (hQ : Keeps Λ Q) :
    Induces Λ N pos (Q * R) (Q.mulVec s + t) (permute τ σ) := by
  have hlt : ∀ j ∈ τ, j < σ.length := by rw [h.length]; exact h'.lt
  refine ⟨by rw [permute_length _ _ hlt, h'.length], ?_⟩
  intro i j hi
  rw [permute_getElem? _ _ hlt]
  have hτ : i < τ.length := by rw [h'.length]; exact hi
  have e : τ[i]? = some τ[i] := List.getElem?_eq_getElem hτ
  rw [e, Option.bind_some]
  obtain ⟨hk, hm⟩ := (h'.entries i _ hi).mp e
  rw [h.entries _ j hk]
  refine and_congr_right (fun _ => ?_)
  set k := τ[i]
  have key : (Q * R).mulVec (pos j) + (Q.mulVec s + t) - pos i =
      Q.mulVec (R.mulVec (pos j) + s - pos k) + (Q.mulVec (pos k) + t - pos i) := by
    rw [Matrix.mulVec_sub, Matrix.mulVec_add, Matrix.mulVec_mulVec]; abel
  rw [key]
  constructor
  · intro hu; exact hΛ.add _ (hQ.fwd _ hu) _ hm
  · intro hu
    apply hQ.bwd
    have := hΛ.add _ hu _ (hΛ.neg _ hm)
    rwa [add_neg_cancel_right] at this

theorem induces_one (hp : Apart Λ N pos) : Induces Λ N pos 1 0 (List.range N) := by
  refine ⟨List.length_range, ?_⟩
  intro i j hi
  rw [List.getElem?_range hi, Option.some.injEq, Matrix.one_mulVec, add_zero]
  constructor
  · rintro rfl; exact ⟨hi, by rw [sub_self]; exact hΛ.zero⟩
  · rintro ⟨hj, h⟩; exact (hp j i hj hi h).symm

end

/-! arrows -/

theorem arrowDir_lt {k : ℕ} {a : Fin 3 → ℤ} (h : IsArrowDir k a) : k < 6 := by unfold IsArrowDir at h; omega

theorem arrowDir_exists {k : ℕ} (h : k < 6) : ∃ a, IsArrowDir k a := by
  have : k = 0 ∨ k = 1 ∨ k = 2 ∨ k = 3 ∨ k = 4 ∨ k = 5 := by omega
  rcases this with rfl | rfl | rfl | rfl | rfl | rfl <;> simp [IsArrowDir]

theorem arrowDir_fun {k : ℕ} {a b : Fin 3 → ℤ} (h : IsArrowDir k a) (h' : IsArrowDir k b) : a = b := by
  unfold IsArrowDir at h h'
  rcases h with h | h | h | h | h | h <;> rcases h' with h' | h' | h' | h' | h' | h' <;>
    first
      | (exfalso; omega)
      | (rw [h.2, h'.2])

theorem arrowDir_inj {k m : ℕ} {a : Fin 3 → ℤ} (h : IsArrowDir k a) (h' : IsArrowDir m a) : k = m := by
  unfold IsArrowDir at h h'
  rcases h with h | h | h | h | h | h <;> rcases h' with h' | h' | h' | h' | h' | h' <;>
    first
      | omega
      | (exfalso
         have e := h.2.symm.trans h'.2
         have e0 := congrFun e 0
         have e1 := congrFun e 1
         have e2 := congrFun e 2
         simp at e0 e1 e2)

section
variable [CharZero K]

theorem castVec_inj {a b : Fin 3 → ℤ} (h : (fun i => (a i : K)) = fun i => (b i : K)) : a = b := by
  ext i
  have := congrFun h i
  exact_mod_cast this

theorem Spec.TurnsArrows.lt {R : M3 K} {τ : List ℕ} (h : TurnsArrows R τ) : ∀ j ∈ τ, j < 6 := by
  intro j hj
  obtain ⟨i, e⟩ := List.mem_iff_getElem?.mp hj
  have hi : i < 6 := by rw [← h.length]; exact (List.getElem?_eq_some_iff.mp e).1
  obtain ⟨a, b, -, hb, -⟩ := (h.entries i j hi).mp e
  exact arrowDir_lt hb

theorem Spec.TurnsArrows.perm {R : M3 K} {τ : List ℕ} (h : TurnsArrows R τ) (hR : R.det ≠ 0) :
    τ.Perm (List.range 6) := by
  have hnd : τ.Nodup := by
    rw [List.nodup_iff_getElem?_ne_getElem?]
    intro i k hik hk e
    rw [h.length] at hk
    have hi : i < 6 := by omega
    obtain ⟨j, hj⟩ : ∃ j, τ[i]? = some j := ⟨_, List.getElem?_eq_getElem (by rw [h.length]; exact hi)⟩
    obtain ⟨a, b, ha, hb, e1⟩ := (h.entries i j hi).mp hj
    rw [e] at hj
    obtain ⟨a', b', ha', hb', e2⟩ := (h.entries k j hk).mp hj
    rw [arrowDir_fun hb' hb, ← e1] at e2
    rw [castVec_inj (mulVec_cancel hR e2)] at ha'
    have := arrowDir_inj ha ha'
    omega
  refine (List.subperm_of_subset hnd (fun j hj => List.mem_range.mpr (h.lt j hj))).perm_of_length_le ?_
  rw [List.length_range, h.length]

theorem Spec.TurnsArrows.unique {R : M3 K} {σ τ : List ℕ} (h : TurnsArrows R σ) (h' : TurnsArrows R τ) : σ = τ := by
  apply List.ext_getElem?
  intro i
  by_cases hi : i < 6
  · have hlt : i < σ.length := by rw [h.length]; exact hi
    have e : σ[i]? = some σ[i] := List.getElem?_eq_getElem hlt
    rw [e]
    symm
    exact (h'.entries i _ hi).mpr ((h.entries i _ hi).mp e)
  · rw [List.getElem?_eq_none (by rw [h.length]; omega), List.getElem?_eq_none (by rw [h'.length]; omega)]

/-- first `R`, then `Q` -/
theorem Spec.TurnsArrows.comp {R Q : M3 K} {σ τ : List ℕ} (h : TurnsArrows R σ) (h' : TurnsArrows Q τ) :
    TurnsArrows (Q * R) (permute σ τ) := by
  have hlt : ∀ j ∈ σ, j < τ.length := by rw [h'.length]; exact h.lt
  refine ⟨by rw [permute_length _ _ hlt, h.length], ?_⟩
  intro k m hk
  rw [permute_getElem? _ _ hlt]
  have e : σ[k]? = some (σ[k]'(by rw [h.length]; exact hk)) := List.getElem?_eq_getElem _
  rw [e, Option.bind_some]
  obtain ⟨a, b, ha, hb, e1⟩ := (h.entries k _ hk).mp e
  rw [h'.entries _ m (arrowDir_lt hb)]
  constructor
  · rintro ⟨b', c, hb', hc, e2⟩
    rw [arrowDir_fun hb' hb] at e2
    exact ⟨a, c, ha, hc, by rw [← Matrix.mulVec_mulVec, e1, e2]⟩
  · rintro ⟨a', c, ha', hc, e2⟩
    rw [arrowDir_fun ha' ha, ← Matrix.mulVec_mulVec, e1] at e2
    exact ⟨b, c, hb, hc, e2⟩

theorem turns_one : TurnsArrows (1 : M3 K) (List.range 6) := by
  refine ⟨List.length_range, ?_⟩
  intro k m hk
  rw [List.getElem?_range hk, Option.some.injEq]
  constructor
  · rintro rfl
    obtain ⟨a, ha⟩ := arrowDir_exists hk
    exact ⟨a, a, ha, ha, Matrix.one_mulVec _⟩
  · rintro ⟨a, b, ha, hb, e⟩
    rw [Matrix.one_mulVec] at e
    rw [castVec_inj e] at ha
    exact arrowDir_inj ha hb

end

end Phenum
