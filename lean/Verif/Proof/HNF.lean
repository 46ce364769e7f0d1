import Verif.Model.HNF
import Verif.Spec.Lattice
import Mathlib.Tactic.FinCases
import Mathlib.Tactic.Ring
import Mathlib.Tactic.LinearCombination
import Mathlib.RingTheory.PrincipalIdealDomain
import Mathlib.RingTheory.Int.Basic
import Mathlib.Data.List.Nodup
/-
Hermite normal forms: membership, no repetition, existence and uniqueness.
-/
namespace Phenum
open Spec

theorem mem_hnfDiagonals {n : Nat} (hn : 1 ≤ n) (a c f : Nat) : (a, c, f) ∈ hnfDiagonals n ↔ a * c * f = n := by
  unfold hnfDiagonals
  simp only [List.mem_flatMap, List.mem_map, List.mem_range]
  constructor
  · rintro ⟨i, ⟨i', hi, rfl⟩, h⟩
    split at h
    · rename_i hd
      simp only [List.mem_flatMap, List.mem_map, List.mem_range] at h
      obtain ⟨j, ⟨j', hj, rfl⟩, h⟩ := h
      split at h
      · rename_i hd2
        rw [List.mem_singleton, Prod.mk.injEq, Prod.mk.injEq] at h
        obtain ⟨rfl, rfl, rfl⟩ := h
        rw [mul_assoc, Nat.mul_div_cancel' (Nat.dvd_of_mod_eq_zero hd2), Nat.mul_div_cancel' (Nat.dvd_of_mod_eq_zero hd)]
      · simp at h
    · simp at h
  · intro h
    subst h
    have ha : 1 ≤ a := Nat.one_le_iff_ne_zero.mpr (by rintro rfl; simp at hn)
    have hc : 1 ≤ c := Nat.one_le_iff_ne_zero.mpr (by rintro rfl; simp at hn)
    have hf : 1 ≤ f := Nat.one_le_iff_ne_zero.mpr (by rintro rfl; simp at hn)
    have e1 : a * c * f / a = c * f := by rw [mul_assoc]; exact Nat.mul_div_cancel_left _ ha
    have e2 : c * f / c = f := Nat.mul_div_cancel_left _ hc
    refine ⟨a, ⟨a - 1, ?_, by omega⟩, ?_⟩
    · have : a * 1 ≤ a * (c * f) := Nat.mul_le_mul_left _ (Nat.mul_pos hc hf)
      rw [← mul_assoc] at this
      omega
    · rw [if_pos (by rw [mul_assoc]; exact Nat.mul_mod_right _ _)]
      simp only [List.mem_flatMap, List.mem_map, List.mem_range]
      rw [e1]
      refine ⟨c, ⟨c - 1, ?_, by omega⟩, ?_⟩
      · have : c * 1 ≤ c * f := Nat.mul_le_mul_left _ hf
        omega
      · rw [if_pos (Nat.mul_mod_right _ _), e2]
        simp

theorem nodup_hnfDiagonals (n : Nat) : (hnfDiagonals n).Nodup := by
  unfold hnfDiagonals
  have hr : ∀ m, ((List.range m).map (· + 1)).Nodup := fun m =>
    List.Nodup.map (fun a b h => by simpa using h) List.nodup_range
  rw [List.nodup_flatMap]
  constructor
  · intro i _
    split
    · rw [List.nodup_flatMap]
      constructor
      · intro j _; split <;> simp
      · apply List.Pairwise.imp _ (hr _)
        intro j j' hne x hx hx'
        simp only [Function.comp] at hx hx'
        split at hx
        · split at hx'
          · rw [List.mem_singleton] at hx hx'
            rw [hx] at hx'
            exact hne (Prod.mk.inj (Prod.mk.inj hx').2).1
          · simp at hx'
        · simp at hx
    · simp
  · apply List.Pairwise.imp _ (hr _)
    intro i i' hne x hx hx'
    have key : ∀ i, x ∈ (if n % i = 0 then
      ((List.range (n / i)).map (· + 1)).flatMap (fun j => if (n / i) % j = 0 then [(i, j, (n / i) / j)] else [])
      else []) → x.1 = i := by
      intro i h
      split at h
      · obtain ⟨j, -, h⟩ := List.mem_flatMap.mp h
        split at h
        · rw [List.mem_singleton] at h; rw [h]
        · simp at h
      · simp at h
    exact hne ((key i hx).symm.trans (key i' hx'))

theorem mem_findAllHNFs {n : Nat} (hn : 1 ≤ n) (H : M3 ℤ) : H ∈ findAllHNFs n ↔
    ∃ a b c d e f : ℕ, a * c * f = n ∧ b < c ∧ d < f ∧ e < f ∧ H = hnfMat a b c d e f := by
  unfold findAllHNFs
  simp only [List.mem_flatMap, List.mem_map, List.mem_range]
  constructor
  · rintro ⟨⟨a, c, f⟩, hd, b, hb, d, hd', e, he, rfl⟩
    exact ⟨a, b, c, d, e, f, (mem_hnfDiagonals hn a c f).mp hd, hb, hd', he, rfl⟩
  · rintro ⟨a, b, c, d, e, f, h, hb, hd, he, rfl⟩
    exact ⟨(a, c, f), (mem_hnfDiagonals hn a c f).mpr h, b, hb, d, hd, e, he, rfl⟩

theorem hnfMat_inj {a b c d e f a' b' c' d' e' f' : ℕ} (h : hnfMat a b c d e f = hnfMat a' b' c' d' e' f') :
    a = a' ∧ b = b' ∧ c = c' ∧ d = d' ∧ e = e' ∧ f = f' := by
  have h00 := congrFun (congrFun h 0) 0
  have h10 := congrFun (congrFun h 1) 0
  have h11 := congrFun (congrFun h 1) 1
  have h20 := congrFun (congrFun h 2) 0
  have h21 := congrFun (congrFun h 2) 1
  have h22 := congrFun (congrFun h 2) 2
  simp [hnfMat] at h00 h10 h11 h20 h21 h22
  exact ⟨h00, h10, h11, h20, h21, h22⟩

theorem nodup_findAllHNFs (n : Nat) : (findAllHNFs n).Nodup := by
  unfold findAllHNFs
  rw [List.nodup_flatMap]
  constructor
  · rintro ⟨a, c, f⟩ _
    simp only
    rw [List.nodup_flatMap]
    constructor
    · intro b _
      rw [List.nodup_flatMap]
      constructor
      · intro d _
        apply List.Nodup.map _ List.nodup_range
        intro e e' h
        exact (hnfMat_inj (a := a) (b := b) (c := c) (d := d) (e := e) (f := f) h).2.2.2.2.1
      · apply List.Pairwise.imp _ List.nodup_range
        intro d d' hne x hx hx'
        simp only [Function.comp, List.mem_map] at hx hx'
        obtain ⟨e, -, rfl⟩ := hx
        obtain ⟨e', -, h⟩ := hx'
        exact hne (hnfMat_inj (a := a) (b := b) (c := c) (d := d') (e := e') (f := f) h).2.2.2.1.symm
    · apply List.Pairwise.imp _ List.nodup_range
      intro b b' hne x hx hx'
      simp only [Function.comp, List.mem_flatMap, List.mem_map] at hx hx'
      obtain ⟨d, -, e, -, rfl⟩ := hx
      obtain ⟨d', -, e', -, h⟩ := hx'
      exact hne (hnfMat_inj (a := a) (b := b') (c := c) (d := d') (e := e') (f := f) h).2.1.symm
  · apply List.Pairwise.imp _ (nodup_hnfDiagonals n)
    rintro ⟨a, c, f⟩ ⟨a', c', f'⟩ hne x hx hx'
    simp only [Function.comp, List.mem_flatMap, List.mem_map] at hx hx'
    obtain ⟨b, -, d, -, e, -, rfl⟩ := hx
    obtain ⟨b', -, d', -, e', -, h⟩ := hx'
    obtain ⟨h1, h2, h3, h4, h5, h6⟩ := hnfMat_inj (a := a') (b := b') (c := c') (d := d') (e := e') (f := f') h
    exact hne (by rw [h1, h3, h6])

/-! existence and uniqueness -/

theorem vec3 {K : Type} {v w : Fin 3 → K} (h0 : v 0 = w 0) (h1 : v 1 = w 1) (h2 : v 2 = w 2) : v = w := by
  funext i
  fin_cases i
  · exact h0
  · exact h1
  · exact h2

theorem lat_zero (M : M3 ℤ) : (0 : Fin 3 → ℤ) ∈ IntLattice M := ⟨0, by simp⟩

theorem lat_zero' (M : M3 ℤ) : ![0, 0, 0] ∈ IntLattice M := by
  rw [show (![0, 0, 0] : Fin 3 → ℤ) = 0 from vec3 rfl rfl rfl]; exact lat_zero M

theorem lat_add {M : M3 ℤ} {u v : Fin 3 → ℤ} (hu : u ∈ IntLattice M) (hv : v ∈ IntLattice M) : u + v ∈ IntLattice M := by
  obtain ⟨x, rfl⟩ := hu
  obtain ⟨y, rfl⟩ := hv
  exact ⟨x + y, by rw [Matrix.mulVec_add]⟩

theorem lat_smul {M : M3 ℤ} {u : Fin 3 → ℤ} (t : ℤ) (hu : u ∈ IntLattice M) : t • u ∈ IntLattice M := by
  obtain ⟨x, rfl⟩ := hu
  exact ⟨t • x, by rw [Matrix.mulVec_smul]⟩

theorem lat_sub {M : M3 ℤ} {u v : Fin 3 → ℤ} (hu : u ∈ IntLattice M) (hv : v ∈ IntLattice M) : u - v ∈ IntLattice M := by
  have := lat_add hu (lat_smul (-1) hv)
  simpa [sub_eq_add_neg] using this

/-- det times any integer vector is in the lattice -/
theorem lat_det (M : M3 ℤ) (v : Fin 3 → ℤ) : M.det • v ∈ IntLattice M :=
  ⟨M.adjugate.mulVec v, by rw [Matrix.mulVec_mulVec, Matrix.mul_adjugate, Matrix.smul_mulVec, Matrix.one_mulVec]⟩

/-- a nonempty set of integers closed under subtraction and multiples, containing a nonzero number, consists of the
multiples of a positive number -/
theorem exists_gen (S : Set ℤ) (h0 : (0 : ℤ) ∈ S) (hadd : ∀ x ∈ S, ∀ y ∈ S, x + y ∈ S) (hm : ∀ t : ℤ, ∀ x ∈ S, t * x ∈ S)
    {m : ℤ} (hmS : m ∈ S) (hm0 : m ≠ 0) : ∃ g : ℕ, 1 ≤ g ∧ ∀ x, x ∈ S ↔ (g : ℤ) ∣ x := by
  let I : Ideal ℤ :=
    { carrier := S
      add_mem' := fun {a b} ha hb => hadd a ha b hb
      zero_mem' := h0
      smul_mem' := fun t x hx => hm t x hx }
  obtain ⟨g, hg⟩ := (IsPrincipalIdealRing.principal I).principal
  have hmem : ∀ x, x ∈ S ↔ g ∣ x := by
    intro x
    have : x ∈ I ↔ x ∈ Submodule.span ℤ {g} := by rw [hg]
    rw [show x ∈ S ↔ x ∈ I from Iff.rfl, this]
    exact Ideal.mem_span_singleton
  refine ⟨g.natAbs, ?_, fun x => by rw [hmem, Int.natAbs_dvd]⟩
  rw [Nat.one_le_iff_ne_zero]
  intro h
  rw [Int.natAbs_eq_zero] at h
  subst h
  exact hm0 (zero_dvd_iff.mp ((hmem m).mp hmS))

theorem hnf_mulVec (a b c d e f : ℕ) (x : Fin 3 → ℤ) :
    (hnfMat a b c d e f).mulVec x = ![a * x 0, b * x 0 + c * x 1, d * x 0 + e * x 1 + f * x 2] := by
  funext i
  fin_cases i <;> simp [hnfMat, Matrix.mulVec, dotProduct, Fin.sum_univ_three]

theorem hnf_det (a b c d e f : ℕ) : (hnfMat a b c d e f).det = a * c * f := by
  simp [hnfMat, Matrix.det_fin_three]

theorem lattice_mul {M N : M3 ℤ} (h : IntLattice M ⊆ IntLattice N) : ∃ U : M3 ℤ, M = N * U := by
  have : ∀ j : Fin 3, ∃ x : Fin 3 → ℤ, N.mulVec x = fun i => M i j := by
    intro j
    exact h ⟨Pi.single j 1, by funext i; simp [Matrix.mulVec, dotProduct_single]⟩
  choose x hx using this
  refine ⟨fun i j => x j i, ?_⟩
  apply Matrix.ext
  intro i j
  have := congrFun (hx j) i
  rw [← this]
  rfl

theorem lattice_det {M N : M3 ℤ} (h : IntLattice M = IntLattice N) : M.det.natAbs = N.det.natAbs := by
  obtain ⟨U, hU⟩ := lattice_mul h.subset
  obtain ⟨V, hV⟩ := lattice_mul h.symm.subset
  apply Nat.dvd_antisymm
  · rw [Int.natAbs_dvd_natAbs, hV, Matrix.det_mul]; exact dvd_mul_right _ _
  · rw [Int.natAbs_dvd_natAbs, hU, Matrix.det_mul]; exact dvd_mul_right _ _

theorem exists_hnf {M : M3 ℤ} (hM : M.det ≠ 0) : ∃ a b c d e f : ℕ, a * c * f = M.det.natAbs ∧ b < c ∧ d < f ∧ e < f ∧
    IntLattice (hnfMat a b c d e f) = IntLattice M := by
  obtain ⟨a, ha, hA⟩ := exists_gen {t | ∃ y z, ![t, y, z] ∈ IntLattice M} ⟨0, 0, by simpa using lat_zero' M⟩
    (by
      rintro x ⟨y, z, h⟩ x' ⟨y', z', h'⟩
      exact ⟨y + y', z + z', by simpa using lat_add h h'⟩)
    (by
      rintro t x ⟨y, z, h⟩
      exact ⟨t * y, t * z, by simpa using lat_smul t h⟩)
    (m := M.det) ⟨0, 0, by simpa using lat_det M ![1, 0, 0]⟩ hM
  obtain ⟨c, hc, hC⟩ := exists_gen {t | ∃ z, ![0, t, z] ∈ IntLattice M} ⟨0, by simpa using lat_zero' M⟩
    (by
      rintro x ⟨z, h⟩ x' ⟨z', h'⟩
      exact ⟨z + z', by simpa using lat_add h h'⟩)
    (by
      rintro t x ⟨z, h⟩
      exact ⟨t * z, by simpa using lat_smul t h⟩)
    (m := M.det) ⟨0, by simpa using lat_det M ![0, 1, 0]⟩ hM
  obtain ⟨f, hf, hF⟩ := exists_gen {t | ![0, 0, t] ∈ IntLattice M} (by simpa using lat_zero' M)
    (by
      intro x h x' h'
      simpa using lat_add h h')
    (by
      intro t x h
      simpa using lat_smul t h)
    (m := M.det) (by simpa using lat_det M ![0, 0, 1]) hM
  obtain ⟨b0, d0, h1⟩ := (hA a).mpr (dvd_refl _)
  obtain ⟨e0, h2⟩ := (hC c).mpr (dvd_refl _)
  have h3 : ![0, 0, (f : ℤ)] ∈ IntLattice M := (hF f).mpr (dvd_refl _)
  have hf0 : (0 : ℤ) < f := by exact_mod_cast hf
  have hc0 : (0 : ℤ) < c := by exact_mod_cast hc
  have h2' : ![0, (c : ℤ), e0 % f] ∈ IntLattice M := by
    have := lat_sub h2 (lat_smul (e0 / f) h3)
    convert this using 1
    funext i
    fin_cases i <;> simp
    rw [Int.emod_def]; ring
  have h1' : ![(a : ℤ), b0 % c, d0 - (b0 / c) * (e0 % f)] ∈ IntLattice M := by
    have := lat_sub h1 (lat_smul (b0 / c) h2')
    convert this using 1
    funext i
    fin_cases i <;> simp
    rw [Int.emod_def]; ring
  have h1'' : ![(a : ℤ), b0 % c, (d0 - (b0 / c) * (e0 % f)) % f] ∈ IntLattice M := by
    have := lat_sub h1' (lat_smul ((d0 - (b0 / c) * (e0 % f)) / f) h3)
    convert this using 1
    funext i
    fin_cases i <;> simp
    rw [Int.emod_def _ (f : ℤ)]; ring
  obtain ⟨b, hb⟩ := Int.eq_ofNat_of_zero_le (Int.emod_nonneg b0 hc0.ne')
  obtain ⟨e, he⟩ := Int.eq_ofNat_of_zero_le (Int.emod_nonneg e0 hf0.ne')
  obtain ⟨d, hd⟩ := Int.eq_ofNat_of_zero_le (Int.emod_nonneg (d0 - (b0 / c) * (e0 % f)) hf0.ne')
  have hbc : b < c := by have := Int.emod_lt_of_pos b0 hc0; omega
  have hef : e < f := by have := Int.emod_lt_of_pos e0 hf0; omega
  have hdf : d < f := by have := Int.emod_lt_of_pos (d0 - (b0 / c) * (e0 % f)) hf0; omega
  rw [hd, hb] at h1''
  rw [he] at h2'
  have hlat : IntLattice (hnfMat a b c d e f) = IntLattice M := by
    ext v
    constructor
    · rintro ⟨x, rfl⟩
      rw [hnf_mulVec]
      have := lat_add (lat_add (lat_smul (x 0) h1'') (lat_smul (x 1) h2')) (lat_smul (x 2) h3)
      convert this using 1
      funext i
      fin_cases i <;> simp <;> ring
    · intro hv
      obtain ⟨x0, hx0⟩ := (hA (v 0)).mp ⟨v 1, v 2, by
        convert hv using 1
        funext i; fin_cases i <;> rfl⟩
      have hv1 := lat_sub hv (lat_smul x0 h1'')
      obtain ⟨x1, hx1⟩ := (hC (v 1 - x0 * b)).mp ⟨v 2 - x0 * d, by
        convert hv1 using 1
        apply vec3 <;> simp [hx0, mul_comm]⟩
      have hv2 := lat_sub hv1 (lat_smul x1 h2')
      obtain ⟨x2, hx2⟩ := (hF (v 2 - x0 * d - x1 * e)).mp (by
        show ![0, 0, v 2 - x0 * d - x1 * e] ∈ IntLattice M
        convert hv2 using 1
        apply vec3
        · show (0 : ℤ) = v 0 - x0 * a - x1 * 0
          rw [hx0]; ring
        · show (0 : ℤ) = v 1 - x0 * b - x1 * c
          linear_combination -hx1
        · rfl)
      refine ⟨![x0, x1, x2], ?_⟩
      rw [hnf_mulVec]
      apply vec3
      · simp [hx0]
      · simp; linear_combination -hx1
      · simp; linear_combination -hx2
  refine ⟨a, b, c, d, e, f, ?_, hbc, hdf, hef, hlat⟩
  rw [← lattice_det hlat, hnf_det]
  exact_mod_cast rfl

theorem hnf_unique {a b c d e f a' b' c' d' e' f' : ℕ} (ha : 1 ≤ a) (hb : b < c) (hd : d < f) (he : e < f)
    (ha' : 1 ≤ a') (hb' : b' < c') (hd' : d' < f') (he' : e' < f')
    (h : IntLattice (hnfMat a b c d e f) = IntLattice (hnfMat a' b' c' d' e' f')) :
    hnfMat a b c d e f = hnfMat a' b' c' d' e' f' := by
  -- coordinates of the columns of one in terms of the other
  have col : ∀ {a b c d e f a' b' c' d' e' f' : ℕ}, 1 ≤ a' → b' < c' → d' < f' →
      IntLattice (hnfMat a b c d e f) = IntLattice (hnfMat a' b' c' d' e' f') →
      (∃ x y z : ℤ, (a : ℤ) = a' * x ∧ (b : ℤ) = b' * x + c' * y ∧ (d : ℤ) = d' * x + e' * y + f' * z) ∧
      (∃ y z : ℤ, (c : ℤ) = c' * y ∧ (e : ℤ) = e' * y + f' * z) ∧ ∃ z : ℤ, (f : ℤ) = f' * z := by
    intro a b c d e f a' b' c' d' e' f' ha' hc' hf' h
    have hmem : ∀ x, ∃ y, (hnfMat a' b' c' d' e' f').mulVec y = (hnfMat a b c d e f).mulVec x := by
      intro x
      have : (hnfMat a b c d e f).mulVec x ∈ IntLattice (hnfMat a' b' c' d' e' f') := by rw [← h]; exact ⟨x, rfl⟩
      exact this
    refine ⟨?_, ?_, ?_⟩
    · obtain ⟨y, hy⟩ := hmem ![1, 0, 0]
      rw [hnf_mulVec, hnf_mulVec] at hy
      have h0 := congrFun hy 0
      have h1 := congrFun hy 1
      have h2 := congrFun hy 2
      simp at h0 h1 h2
      exact ⟨y 0, y 1, y 2, h0.symm, h1.symm, h2.symm⟩
    · obtain ⟨y, hy⟩ := hmem ![0, 1, 0]
      rw [hnf_mulVec, hnf_mulVec] at hy
      have h0 := congrFun hy 0
      have h1 := congrFun hy 1
      have h2 := congrFun hy 2
      simp at h0 h1 h2
      have : y 0 = 0 := by
        rcases h0 with h0 | h0
        · omega
        · exact h0
      rw [this] at h1 h2
      exact ⟨y 1, y 2, by linarith, by linarith⟩
    · obtain ⟨y, hy⟩ := hmem ![0, 0, 1]
      rw [hnf_mulVec, hnf_mulVec] at hy
      have h0 := congrFun hy 0
      have h1 := congrFun hy 1
      have h2 := congrFun hy 2
      simp at h0 h1 h2
      have e0 : y 0 = 0 := by
        rcases h0 with h0 | h0
        · omega
        · exact h0
      rw [e0] at h1 h2
      have e1 : y 1 = 0 := by
        simp at h1
        rcases h1 with h1 | h1
        · omega
        · exact h1
      rw [e1] at h2
      exact ⟨y 2, by linarith⟩
  obtain ⟨⟨x, y, z, p1, p2, p3⟩, ⟨y1, z1, p4, p5⟩, z2, p6⟩ := col ha' hb' hd' h
  obtain ⟨⟨x', y', z', q1, q2, q3⟩, ⟨y1', z1', q4, q5⟩, z2', q6⟩ := col ha hb hd h.symm
  have heq : ∀ {m m' : ℕ} {u u' : ℤ}, (m : ℤ) = m' * u → (m' : ℤ) = m * u' → m = m' := by
    intro m m' u u' h1 h2
    apply Nat.dvd_antisymm
    · exact_mod_cast (Dvd.intro _ h2.symm : (m : ℤ) ∣ m')
    · exact_mod_cast (Dvd.intro _ h1.symm : (m' : ℤ) ∣ m)
  have hsame : ∀ {r r' m : ℕ} {u : ℤ}, r < m → r' < m → (r : ℤ) = r' + m * u → r = r' := by
    intro r r' m u h1 h2 h3
    have e1 : ((r : ℤ) % m) = r := Int.emod_eq_of_lt (by omega) (by omega)
    have e2 : ((r' : ℤ) % m) = r' := Int.emod_eq_of_lt (by omega) (by omega)
    have : ((r : ℤ) % m) = (r' : ℤ) % m := by rw [h3]; simp
    omega
  obtain rfl := heq p1 q1
  obtain rfl := heq p4 q4
  obtain rfl := heq p6 q6
  have hone : ∀ {m : ℕ} {u : ℤ}, 1 ≤ m → (m : ℤ) = m * u → u = 1 := by
    intro m u hm h
    have : (m : ℤ) * u = m * 1 := by omega
    exact mul_left_cancel₀ (by omega) this
  rw [hone ha p1] at p2 p3
  rw [hone (by omega) p4] at p5
  have eb : b = b' := hsame hb hb' (u := y) (by rw [p2]; ring)
  subst eb
  have hy0 : y = 0 := by
    have : (c : ℤ) * y = 0 := by linarith
    rcases mul_eq_zero.mp this with h | h
    · omega
    · exact h
  rw [hy0] at p3
  have ee : e = e' := hsame he he' (u := z1) (by rw [p5]; ring)
  have ed : d = d' := hsame hd hd' (u := z) (by rw [p3]; ring)
  rw [ee, ed]

end Phenum
