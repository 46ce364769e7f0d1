import Verif.Proof.Cell
import Mathlib.Algebra.Order.Ring.Rat
import Mathlib.Data.Rat.Floor
/-
C27: bringing a point into the cell.
-/
namespace Phenum

variable {K : Type} [Field K] [LinearOrder K] [IsStrictOrderedRing K] [FloorRing K]

/-- C27: `bring_into_cell` terminates without meeting its iteration guard and returns a point that differs from the
input by a lattice vector (an integer combination of the columns of `latt_to_cart`), with lattice coordinates
between `-eps` and `1-eps`. -/
theorem C27_bring_into_cell (vec : Fin 3 → K) (C2L L2C : Matrix (Fin 3) (Fin 3) K) (eps : K) (he : 0 ≤ eps)
    (he1 : eps < 1) (hinv : L2C * C2L = 1) :
    ∃ r, bringIntoCell vec C2L L2C eps = some (.ok r) ∧
      (∀ i, -eps ≤ C2L.mulVec r i ∧ C2L.mulVec r i ≤ 1 - eps) ∧
      ∃ z : Fin 3 → ℤ, r = vec - L2C.mulVec (fun i => (z i : K)) := by
  have hinv' : C2L * L2C = 1 := mul_eq_one_comm.1 hinv
  obtain ⟨c, w, h1, h2, h3⟩ := wrapLoop_ok eps (max ⌈|max3 (C2L.mulVec vec)|⌉ ⌈|min3 (C2L.mulVec vec)|⌉ * 2)
    (C2L.mulVec vec) (by
      have hb : ∀ i, (cellDist eps (C2L.mulVec vec i) : ℤ) ≤ max ⌈|max3 (C2L.mulVec vec)|⌉ ⌈|min3 (C2L.mulVec vec)|⌉ :=
        fun i => le_trans (cellDist_le he he1) (abs_le_minmax _ i)
      have h0 := hb 0
      have h1 := hb 1
      have h2 := hb 2
      unfold cellMax
      push_cast
      omega)
  refine ⟨L2C.mulVec w, by simp only [bringIntoCell, h1], ?_, ?_⟩
  · rw [Matrix.mulVec_mulVec, hinv', Matrix.one_mulVec]
    exact h2
  · choose z hz using h3
    refine ⟨z, ?_⟩
    have : w = C2L.mulVec vec - fun i => (z i : K) := by funext i; exact hz i
    rw [this, Matrix.mulVec_sub, Matrix.mulVec_mulVec, hinv, Matrix.one_mulVec]

/-- C27: the representative is canonical away from the upper edge: if the images of two points that differ by a
lattice vector have lattice coordinates strictly below `1-eps`, they are equal. -/
theorem C27_canonical (v1 v2 : Fin 3 → K) (C2L L2C : Matrix (Fin 3) (Fin 3) K) (eps : K) (he : 0 ≤ eps)
    (he1 : eps < 1) (hinv : L2C * C2L = 1) (z : Fin 3 → ℤ) (hz : v1 = v2 + L2C.mulVec (fun i => (z i : K)))
    (r1 r2 : Fin 3 → K) (h1 : bringIntoCell v1 C2L L2C eps = some (.ok r1))
    (h2 : bringIntoCell v2 C2L L2C eps = some (.ok r2))
    (hlt1 : ∀ i, C2L.mulVec r1 i ≠ 1 - eps) (hlt2 : ∀ i, C2L.mulVec r2 i ≠ 1 - eps) : r1 = r2 := by
  have hinv' : C2L * L2C = 1 := mul_eq_one_comm.1 hinv
  obtain ⟨r1', e1, b1, z1, hz1⟩ := C27_bring_into_cell v1 C2L L2C eps he he1 hinv
  obtain ⟨r2', e2, b2, z2, hz2⟩ := C27_bring_into_cell v2 C2L L2C eps he he1 hinv
  rw [h1] at e1
  rw [h2] at e2
  simp only [Option.some.injEq, Except.ok.injEq] at e1 e2
  subst e1 e2
  have key : C2L.mulVec r1 = C2L.mulVec r2 := by
    funext i
    refine cell_unique (z := z1 i - z i - z2 i) ?_ ⟨(b1 i).1, lt_of_le_of_ne (b1 i).2 (hlt1 i)⟩
      ⟨(b2 i).1, lt_of_le_of_ne (b2 i).2 (hlt2 i)⟩
    rw [hz1, hz2, hz]
    simp only [Matrix.mulVec_sub, Matrix.mulVec_add, Matrix.mulVec_mulVec, hinv', Matrix.one_mulVec, Pi.sub_apply,
      Pi.add_apply]
    push_cast
    ring
  have := congrArg L2C.mulVec key
  rwa [Matrix.mulVec_mulVec, Matrix.mulVec_mulVec, hinv, Matrix.one_mulVec, Matrix.one_mulVec] at this

/-- C27: `cartesian2direct` terminates and returns lattice coordinates in the half-open cell `[-eps, 1-eps)` of a
point that differs from the input by a lattice vector. -/
theorem C27_cartesian2direct (sLV : Matrix (Fin 3) (Fin 3) K) (p : Fin 3 → K) (eps : K) (he : 0 ≤ eps)
    (hd : sLV.det ≠ 0) :
    ∃ w, cartesian2direct sLV p eps = some (.ok w) ∧ (∀ i, -eps ≤ w i ∧ w i < 1 - eps) ∧
      ∃ z : Fin 3 → ℤ, Matrix.vecMul w sLV = p - Matrix.vecMul (fun i => (z i : K)) sLV := by
  obtain ⟨w, h1, h2, h3⟩ := directLoop_ok eps he (Matrix.vecMul p sLV⁻¹)
  refine ⟨w, by rw [cartesian2direct, if_neg hd]; exact h1, h2, ?_⟩
  choose z hz using h3
  refine ⟨z, ?_⟩
  have : w = Matrix.vecMul p sLV⁻¹ - fun i => (z i : K) := by funext i; exact hz i
  rw [this, Matrix.sub_vecMul, Matrix.vecMul_vecMul, Matrix.nonsing_inv_mul _ (isUnit_iff_ne_zero.2 hd),
    Matrix.vecMul_one]

/-- A point outside the cell of a sheared lattice. -/
example : ∃ r, bringIntoCell (![7 / 2, -5 / 2, 1] : Fin 3 → ℚ) !![1, -1, 0; 0, 1, 0; 0, 0, 1] !![1, 1, 0; 0, 1, 0; 0, 0, 1]
    (1 / 10 ^ 10) = some (.ok r) := by
  obtain ⟨r, h, -⟩ := C27_bring_into_cell (![7 / 2, -5 / 2, 1] : Fin 3 → ℚ) !![1, -1, 0; 0, 1, 0; 0, 0, 1]
    !![1, 1, 0; 0, 1, 0; 0, 0, 1] (1 / 10 ^ 10) (by norm_num) (by norm_num) (by
      ext i j; fin_cases i <;> fin_cases j <;> simp [Matrix.mul_apply, Fin.sum_univ_three])
  exact ⟨r, h⟩

end Phenum
