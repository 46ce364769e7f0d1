import Verif.Proof.CubicInt
import Verif.Props.Tolerance
/-
C39, C62, C63 for the cubic lattices: the reduction of the supercells never gives up, so the POSCAR files are written with the default
options of makeStr as well.
-/
namespace Phenum
open Spec

/-- The rows of `P` are the usual primitive vectors of the simple, face centred or body centred cubic lattice with edge `a`, in any order. -/
def Spec.CubicVectors {K : Type} [Field K] (a : K) (P : M3 K) : Prop :=
  ∃ σ : Equiv.Perm (Fin 3),
    (∀ i, P i = !![a, 0, 0; 0, a, 0; 0, 0, a] (σ i)) ∨
    (∀ i, P i = !![0, a / 2, a / 2; a / 2, 0, a / 2; a / 2, a / 2, 0] (σ i)) ∨
    (∀ i, P i = !![-a / 2, a / 2, a / 2; a / 2, -a / 2, a / 2; a / 2, a / 2, -a / 2] (σ i))

theorem zReduce_cell {s : ℝ} (hs : 1 / 100 ≤ s) {Z : M3 ℤ} (hZ : Z.det ≠ 0) (hz : zCanReduce Z 2000 100000 7 = true) {P : M3 ℝ}
    (hP : ∀ i j, P i j = s * Z i j) {eps : ℝ} (he0 : 0 < eps) (he : eps ≤ 1 / 10 ^ 7) {n : ℕ} (hn : 1 ≤ n) (h7 : n ≤ 7) {u : M3 ℤ}
    (hu : u ∈ findAllHNFs n) : ∃ S, superCell P.transpose u eps true = .ok S := by
  have hcell := zRow_cell Z u (A := P.transpose) (s := s) (fun i j => by rw [Matrix.transpose_apply, hP])
  have hsc : ZScale s eps 2000 100000 := by
    refine ⟨by linarith, he0, by norm_num at he ⊢; linarith, ?_, by norm_num, ?_⟩
    · have h1 : (1 / 100 : ℝ) ^ 2 ≤ s ^ 2 := pow_le_pow_left₀ (by norm_num) hs 2
      have h2 : eps ^ 2 ≤ (1 / 10 ^ 7) ^ 2 := pow_le_pow_left₀ he0.le he 2
      push_cast
      norm_num at h1 h2 ⊢
      linarith
    · push_cast
      norm_num at he ⊢
      linarith
  unfold zCanReduce at hz
  rw [List.all_eq_true] at hz
  have h1 := hz n (List.mem_range'_1.mpr ⟨hn, by omega⟩)
  rw [List.all_eq_true] at h1
  have h2 := h1 u hu
  have hdet : (P.transpose * castM u).transpose.det = s ^ 3 * Z.det * n := by
    have e : P = s • (castM Z : M3 ℝ) := by
      ext i j
      rw [hP]
      rfl
    rw [Matrix.det_transpose, Matrix.det_mul, Matrix.det_transpose, castM_det, findAll_det hn hu, e, Matrix.det_smul, castM_det]
    simp
  have hbig : eps < |(P.transpose * castM u).transpose.det| := by
    rw [hdet, abs_mul, abs_mul]
    have a1 : (1 / 100 : ℝ) ^ 3 ≤ |s ^ 3| := by
      rw [abs_of_pos (by have : 0 < s := by linarith
                         positivity)]
      exact pow_le_pow_left₀ (by norm_num) hs 3
    have a2 : (1 : ℝ) ≤ |(Z.det : ℝ)| := by
      rw [← Int.cast_abs]
      exact_mod_cast Int.one_le_abs hZ
    have a3 : (1 : ℝ) ≤ |(n : ℝ)| := by
      rw [Nat.abs_cast]
      exact_mod_cast hn
    have a4 : (1 / 100 : ℝ) ^ 3 * 1 * 1 ≤ |s ^ 3| * |(Z.det : ℝ)| * |(n : ℝ)| := by gcongr
    refine lt_of_lt_of_le (lt_of_le_of_lt he ?_) a4
    norm_num
  unfold superCell
  rw [if_pos rfl]
  rw [hcell] at hbig ⊢
  exact zMink_ok hsc hbig h2

/-- C39. The reduction never gives up on the supercells of up to seven cells of the cubic lattices (edge at least 1/50, tolerance at most 1E-7). -/
theorem C39_cubic {a : ℝ} (ha : 1 / 50 ≤ a) {P : M3 ℝ} (h : CubicVectors a P) {eps : ℝ} (he0 : 0 < eps) (he : eps ≤ 1 / 10 ^ 7) {n : ℕ} (hn : 1 ≤ n) (h7 : n ≤ 7) {u : M3 ℤ} (hu : u ∈ findAllHNFs n) :
    ∃ N, minkReduce (P.transpose * castM u).transpose eps = .ok N := by
  obtain ⟨σ, h | h | h⟩ := h
  · refine zReduce_cell (s := a) (by linarith) (Z := fun i => scZ (σ i)) ?_ (sc_zreduce σ) (fun i j => ?_) he0 he hn h7 hu
    · have : ∀ σ : Equiv.Perm (Fin 3), Matrix.det (fun i => scZ (σ i)) ≠ 0 := by decide +kernel
      exact this σ
    · rw [h i]
      generalize σ i = k
      fin_cases k <;> fin_cases j <;> simp [scZ]
  · refine zReduce_cell (s := a / 2) (by linarith) (Z := fun i => fccZ (σ i)) ?_ (fcc_zreduce σ) (fun i j => ?_) he0 he hn h7 hu
    · have : ∀ σ : Equiv.Perm (Fin 3), Matrix.det (fun i => fccZ (σ i)) ≠ 0 := by decide +kernel
      exact this σ
    · rw [h i]
      generalize σ i = k
      fin_cases k <;> fin_cases j <;> simp [fccZ]
  · refine zReduce_cell (s := a / 2) (by linarith) (Z := fun i => bccZ (σ i)) ?_ (bcc_zreduce σ) (fun i j => ?_) he0 he hn h7 hu
    · have : ∀ σ : Equiv.Perm (Fin 3), Matrix.det (fun i => bccZ (σ i)) ≠ 0 := by decide +kernel
      exact this σ
    · rw [h i]
      generalize σ i = k
      fin_cases k <;> fin_cases j <;> simp [bccZ] <;> ring

theorem cubic_real {a : ℚ} {P : M3 ℚ} (h : CubicVectors a P) : CubicVectors (a : ℝ) (realMat P) := by
  obtain ⟨σ, h⟩ := h
  refine ⟨σ, ?_⟩
  rcases h with h | h | h
  · refine Or.inl fun i => ?_
    funext j
    show ((P i j : ℚ) : ℝ) = _
    rw [h i]
    generalize σ i = k
    fin_cases k <;> fin_cases j <;> simp
  · refine Or.inr (Or.inl fun i => ?_)
    funext j
    show ((P i j : ℚ) : ℝ) = _
    rw [h i]
    generalize σ i = k
    fin_cases k <;> fin_cases j <;> simp
  · refine Or.inr (Or.inr fun i => ?_)
    funext j
    show ((P i j : ℚ) : ℝ) = _
    rw [h i]
    generalize σ i = k
    fin_cases k <;> fin_cases j <;> simp

theorem cubic_canReduce {a : ℚ} (ha : 1 / 50 ≤ a) {P : M3 ℚ} (h : CubicVectors a P) {hi : ℕ} (h7 : hi ≤ 7) (mink : Bool) :
    CanReduce (realMat P).transpose hi mink := by
  intro _ n hn hhi u hu
  have ha' : (1 / 50 : ℝ) ≤ a := by
    have : ((1 / 50 : ℚ) : ℝ) ≤ a := by exact_mod_cast ha
    simpa using this
  exact C39_cubic ha' (cubic_real h) (by norm_num) (by norm_num) hn (by omega) hu

section
variable {text : Str} {lat : LatticeIn} {P0 : Matrix (Fin 3) (Fin 3) ℚ} {b0 : List (Fin 3 → ℚ)} {hi k : ℕ}

/-- C62 and C63 for the cubic lattices: with the tolerances of the code and all options about the reduction of the cells, nothing has to be
assumed about the reduction. Enumerating and then writing all POSCAR files gives exactly one file for each crystal. -/
theorem C63_cubic_poscars (h : CrystalInput text lat P0 b0 1 hi k) (hfree : lat.restricted = false) (hk3 : k ≤ 3) (h7 : hi ≤ 7) (hsize : b0.length * hi ≤ 18)
    (hdec : ∀ i j, SevenDecimals (P0 i j)) (hdec' : ∀ v ∈ b0, ∀ i, SevenDecimals (v i))
    {K K' : ℝ} {g D : ℕ} (hc : Coarse (realMat P0) (realVecs b0) K K' g D (1 / 10 ^ 7)) {a : ℚ} (ha : 1 / 50 ≤ a) (hcub : CubicVectors a P0) :
    ∀ (w : World) (a : Args) (lattice : Str) (d : Dir), (∀ l, (w.listdir l).Perm l) → '\n' ∉ w.now →
        PlainCall a lattice false → FreshDir lattice text d →
      ∃ (file : Str) (d' : Dir), scriptEnum w shippedTol a d = (pure d' : Run Dir) ∧ dictGet d' "enum.out".toList = some file ∧
        ∀ m : MakeArgs, AllPoscars m → ∀ rnd : ReadStruct → ℕ → ℕ → ℝ,
        ∃ outs : List (Str × Poscar), makeStr (some m) file rnd = some (.ok (outs.map (fun o => OutFile.poscar o.1 o.2))) ∧ (outs.map (·.1)).Nodup ∧
          (∀ o ∈ outs, ∃ ψ, PoscarShows (CrystalSites (ColLattice (realMat P0).transpose) (realVecs b0)) k o.2 ψ) ∧
          ∀ (M : M3 ℤ), 1 ≤ M.det.natAbs → M.det.natAbs ≤ hi → ∀ χ : Decoration,
            PeriodicOn (CrystalSites (ColLattice (realMat P0).transpose) (realVecs b0)) (SupLat (realMat P0) M) χ →
            (∀ x ∈ CrystalSites (ColLattice (realMat P0).transpose) (realVecs b0), (χ x).2 = 0 ∧ 1 ≤ (χ x).1 ∧ (χ x).1 ≤ k) →
            ∃! o, o ∈ outs ∧ ∃ ψ, PoscarShows (CrystalSites (ColLattice (realMat P0).transpose) (realVecs b0)) k o.2 ψ ∧
              SameDecoration (ColLattice (realMat P0).transpose) (realVecs b0) χ ψ := by
  intro w ar lattice d hw hnow har hd
  obtain ⟨file, d', r1, r2, r3⟩ := C63_one_poscar h hfree hk3 h7 hsize hdec hdec' hc w ar lattice d hw hnow har hd
  exact ⟨file, d', r1, r2, fun m hm rnd => r3 m hm (cubic_canReduce ha hcub h7 _) rnd⟩

end

/-- the arguments of `makeStr.py all -input enum.out` with all other options at their defaults, so with reduction -/
noncomputable def defaultArgs : MakeArgs :=
  { structures := some ["all".toList], displace := 0, mink := .str "t".toList, species := none, speciesMapping := none,
    outfile := "vasp.{}".toList, config := .str "f".toList, removeZeros := .str "f".toList }

example : defaultArgs.mink.truth = true := by decide

/-- C63 for the simple cubic file of the examples: `enumeration.py -enum` and `makeStr.py all -input enum.out`, with the tolerances of the code and all other
options at their defaults, write exactly one POSCAR that shows alternating layers. -/
example (w : World) (hw : ∀ l, (w.listdir l).Perm l) (hnow : '\n' ∉ w.now) (rnd : ReadStruct → ℕ → ℕ → ℝ) :
    ∃ (file : Str) (d' : Dir),
      scriptEnum w shippedTol ⟨false, true, "lattice.in".toList, none, none, none, none, false, none, false, none⟩ scDir = (pure d' : Run Dir) ∧
      dictGet d' "enum.out".toList = some file ∧
      ∃ outs : List (Str × Poscar), makeStr (some defaultArgs) file rnd = some (.ok (outs.map (fun o => OutFile.poscar o.1 o.2))) ∧
        (∃! o, o ∈ outs ∧ ∃ ψ, PoscarShows (CrystalSites (ColLattice (1 : M3 ℝ).transpose) [0]) 2 o.2 ψ ∧
          SameDecoration (ColLattice (1 : M3 ℝ).transpose) [0] layers ψ) := by
  have h0 : SevenDecimals 0 := ⟨0, by norm_num⟩
  have h1 : SevenDecimals 1 := ⟨10 ^ 7, by norm_num⟩
  obtain ⟨file, d', r1, r2, r3⟩ := C63_cubic_poscars sc_crystal rfl (by norm_num) (by norm_num) (by simp)
    (by intro i j; fin_cases i <;> fin_cases j <;> first | exact h0 | exact h1)
    (by
      intro v hv i
      rw [List.mem_singleton] at hv
      subst hv
      fin_cases i <;> exact h0) (decimal_coarse sc_decimal) (a := 1) (by norm_num)
    ⟨1, Or.inl fun i => by fin_cases i <;> rfl⟩ w
    ⟨false, true, "lattice.in".toList, none, none, none, none, false, none, false, none⟩ "lattice.in".toList scDir hw hnow
    (by constructor <;> rfl) (by
      refine ⟨by decide +kernel, ?_, by decide +kernel⟩
      have : ∀ f ∈ ["notes.txt".toList, "lattice.in".toList], ¬ f.head? = some 'p' := by decide +kernel
      exact fun f hf h => this f hf h.2)
  obtain ⟨outs, q1, -, -, q4⟩ := r3 defaultArgs ⟨by decide, rfl, rfl, "vasp.".toList, [], by decide, by simp, Or.inl rfl⟩ rnd
  rw [realVecs_zero, realMat_sc] at q4
  have hdet : (!![2, 0, 0; 0, 1, 0; 0, 0, 1] : M3 ℤ).det = 2 := by rw [Matrix.det_fin_three]; simp
  refine ⟨file, d', r1, r2, outs, q1, ?_⟩
  refine q4 !![2, 0, 0; 0, 1, 0; 0, 0, 1] (by rw [hdet]; decide) (by rw [hdet]; decide) layers layers_structure.1 ?_
  intro x _
  unfold layers
  split <;> simp

/-- C39 for the face centred cubic lattice of the repository's input file -/
example (n : ℕ) (hn : 1 ≤ n) (h7 : n ≤ 7) (u : M3 ℤ) (hu : u ∈ findAllHNFs n) :
    ∃ N, minkReduce ((realMat fccP0).transpose * castM u).transpose ((1 / 10 ^ 7 : ℚ) : ℝ) = .ok N := by
  refine C39_cubic (a := ((1 : ℚ) : ℝ)) (by norm_num) (cubic_real ⟨Fin.revPerm, Or.inr (Or.inl fun i => ?_)⟩) (by norm_num) (by norm_num) hn h7 hu
  funext j
  fin_cases i <;> fin_cases j <;> rfl

end Phenum
