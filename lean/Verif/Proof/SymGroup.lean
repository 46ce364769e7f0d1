import Verif.Props.SpaceGroup
import Verif.Props.Perms
import Verif.Props.Lattice
import Verif.Model.SymGroup
import Verif.Proof.MakeStr
/-
The symmetry group of a supercell: proofs.
-/
namespace Phenum
open Spec

/-- The vector lies in the unit cell: its lattice coordinates lie in `[0,1)`. -/
def InCell (P : M3 ℝ) (v : V3) : Prop := ∃ y : V3, (∀ i, 0 ≤ y i ∧ y i < 1) ∧ P.transpose.mulVec y = v

theorem canonV_inCell (P : M3 ℝ) (v : V3) : InCell P (canonV P v) :=
  ⟨_, fun _ => ⟨Int.fract_nonneg _, Int.fract_lt_one _⟩, rfl⟩

section
variable {P : M3 ℝ} (hP : P.det ≠ 0)
include hP

theorem canonV_of_inCell {v : V3} (h : InCell P v) : canonV P v = v := by
  obtain ⟨y, hy, rfl⟩ := h
  unfold canonV
  rw [Matrix.mulVec_mulVec, c2l_l2c hP, Matrix.one_mulVec]
  congr 1
  funext i
  exact Int.fract_eq_self.mpr (hy i)

theorem canonV_idem (v : V3) : canonV P (canonV P v) = canonV P v := canonV_of_inCell hP (canonV_inCell P v)

/-- There are finitely many symmetries of a crystal with the translation in the cell. -/
theorem crystalSym_finite {atoms : List (ℕ × V3)} (hne : atoms ≠ []) :
    {p : M3 ℝ × V3 | IsCrystalSym (ColLattice P.transpose) atoms p.1 p.2 ∧ InCell P p.2}.Finite := by
  obtain ⟨a0, ha0⟩ := List.exists_mem_of_ne_nil atoms hne
  have hΛ := colLat_isSub P.transpose
  refine (((latSym_finite hP).prod (List.finite_toSet atoms)).image
    (fun q => (q.1, canonV P (q.2.2 - q.1.mulVec a0.2)))).subset ?_
  rintro ⟨R, s⟩ ⟨h, hc⟩
  obtain ⟨h1, h2, h3⟩ := (crystalSym_iff hΛ).mp h
  obtain ⟨c, hcm, -, hs⟩ := h3 a0 ha0
  refine ⟨(R, c), ⟨(isLatSym_iff hP R).mpr ⟨h1, h2⟩, hcm⟩, ?_⟩
  refine Prod.ext rfl ?_
  show canonV P (c.2 - R.mulVec a0.2) = s
  have hc' : canonV P s = s := canonV_of_inCell hP hc
  rw [← hc', canonV_eq_iff hP]
  have := hΛ.neg _ hs
  simp only at this
  convert this using 1
  abel

end

/-! ## `_map_dvector_permutation` -/

theorem findClose_eq {d : List V3} {eps : ℝ} {found : List Bool} {x : V3} {k : ℕ} (hk : k < d.length)
    (hf : found.getD k false = false) (h : ∀ j, j < d.length → ((∀ i, |x i - d.getD j 0 i| ≤ eps) ↔ j = k)) :
    findClose d eps found x = some k := by
  classical
  unfold findClose
  rw [List.find?_range_eq_some]
  refine ⟨?_, List.mem_range.mpr hk, ?_⟩
  · rw [hf]
    simp only [Bool.not_false, Bool.true_and, decide_eq_true_eq]
    exact (h k hk).mpr rfl
  · intro j hj
    have : ¬ ∀ i, |x i - d.getD j 0 i| ≤ eps := fun hc => by
      have := (h j (by omega)).mp hc
      omega
    rw [decide_eq_false this, Bool.and_false]; rfl

theorem findClose_none {d : List V3} {eps : ℝ} {found : List Bool} {x : V3}
    (h : ∀ j, j < d.length → ¬ (∀ i, |x i - d.getD j 0 i| ≤ eps)) : findClose d eps found x = none := by
  classical
  unfold findClose
  rw [List.find?_eq_none]
  intro j hj
  have := h j (List.mem_range.mp hj)
  rw [decide_eq_false this, Bool.and_false]; simp

theorem mapDvecLoop_length (d : List V3) (eps : ℝ) : ∀ (rd : List V3) (found : List Bool),
    (mapDvecLoop d eps rd found).length ≤ rd.length
  | [], _ => by simp [mapDvecLoop]
  | x :: xs, found => by
    unfold mapDvecLoop
    cases findClose d eps found x with
    | none => simp only; have := mapDvecLoop_length d eps xs found; simp; omega
    | some j => simp only [List.length_cons]; have := mapDvecLoop_length d eps xs (found.set j true); omega

theorem mapDvecLoop_short (d : List V3) (eps : ℝ) : ∀ (rd : List V3) (found : List Bool),
    (∃ x ∈ rd, ∀ j, j < d.length → ¬ (∀ i, |x i - d.getD j 0 i| ≤ eps)) →
    (mapDvecLoop d eps rd found).length < rd.length
  | [], _, h => by simp at h
  | x :: xs, found, h => by
    obtain ⟨y, hy, hn⟩ := h
    unfold mapDvecLoop
    rcases List.mem_cons.mp hy with rfl | hy
    · rw [findClose_none hn]
      have := mapDvecLoop_length d eps xs found
      simp; omega
    · cases findClose d eps found x with
      | none => simp only; have := mapDvecLoop_short d eps xs found ⟨y, hy, hn⟩; simp; omega
      | some j => simp only [List.length_cons]; have := mapDvecLoop_short d eps xs (found.set j true) ⟨y, hy, hn⟩; omega

/-- A rotated basis vector that is close to no basis vector makes the call exit. -/
theorem mapDvector_exit {rd d : List V3} {eps : ℝ} (hl : rd.length = d.length) {x : V3} (hx : x ∈ rd)
    (h : ∀ y ∈ d, ¬ (∀ i, |x i - y i| ≤ eps)) : mapDvectorPermutation rd d eps = .error .sysExit := by
  unfold mapDvectorPermutation
  rw [if_pos]
  have := mapDvecLoop_short d eps rd (List.replicate rd.length false) ⟨x, hx, fun j hj => by
    rw [getD_lt hj]; exact h _ (List.getElem_mem hj)⟩
  omega

theorem mapDvecLoop_eq {d : List V3} {eps : ℝ} (σ : V3 → ℕ) : ∀ (rd : List V3) (found : List Bool), (rd.map σ).Nodup →
    (∀ x ∈ rd, σ x < d.length) → (∀ x ∈ rd, found.getD (σ x) false = false) →
    (∀ x ∈ rd, ∀ j, j < d.length → ((∀ i, |x i - d.getD j 0 i| ≤ eps) ↔ j = σ x)) →
    mapDvecLoop d eps rd found = rd.map σ
  | [], _, _, _, _, _ => rfl
  | x :: xs, found, hnd, hlt, hf, h => by
    unfold mapDvecLoop
    rw [findClose_eq (hlt x List.mem_cons_self) (hf x List.mem_cons_self) (h x List.mem_cons_self)]
    simp only [List.map_cons]
    rw [mapDvecLoop_eq σ xs _ (List.nodup_cons.mp hnd).2 (fun y hy => hlt y (List.mem_cons_of_mem _ hy)) ?_
      (fun y hy => h y (List.mem_cons_of_mem _ hy))]
    intro y hy
    have hne : σ x ≠ σ y := fun e => (List.nodup_cons.mp hnd).1 (by rw [e]; exact List.mem_map_of_mem hy)
    have := hf y (List.mem_cons_of_mem _ hy)
    rw [List.getD_eq_getElem?_getD] at this ⊢
    rw [List.getElem?_set_ne hne]
    exact this

/-- If every rotated basis vector is close to exactly one basis vector, and no two to the same, the call returns the
permutation. -/
theorem mapDvector_ok {rd d : List V3} {eps : ℝ} (hl : rd.length = d.length) (σ : V3 → ℕ) (hnd : (rd.map σ).Nodup)
    (hlt : ∀ x ∈ rd, σ x < d.length)
    (h : ∀ x ∈ rd, ∀ j, j < d.length → ((∀ i, |x i - d.getD j 0 i| ≤ eps) ↔ j = σ x)) :
    mapDvectorPermutation rd d eps = .ok (rd.map σ) := by
  unfold mapDvectorPermutation
  rw [mapDvecLoop_eq σ rd _ hnd hlt (fun x _ => by
    rw [List.getD_eq_getElem?_getD, List.getElem?_replicate]; split_ifs <;> rfl) h]
  rw [if_neg (by simp [hl])]

/-! ## `_get_dvector_permutations` -/

/-- What `_get_dvector_permutations` records for an operation `(R, s)`: `v` brings the transformed basis vectors back to
the basis vectors given by the permutation. The transformation is with the transpose of `R`. -/
structure DvecGood (Λ : Set V3) (bas : List V3) (R : M3 ℝ) (s : V3) (x : List V3 × List ℕ) : Prop where
  perm : x.2.Perm (List.range bas.length)
  vlen : x.1.length = bas.length
  rows : ∀ i, i < bas.length → x.2.getD i 0 < bas.length ∧ x.1.getD i 0 ∈ Λ ∧
    R.transpose.mulVec (bas.getD i 0) + s = bas.getD (x.2.getD i 0) 0 - x.1.getD i 0

theorem dvecOne_ok {P : M3 ℝ} (hP : P.det ≠ 0) {bas : List V3} (hcell : ∀ d ∈ bas, InCell P d)
    (hd : ∀ i j, i < bas.length → j < bas.length → bas.getD i 0 - bas.getD j 0 ∈ ColLattice P.transpose → i = j)
    {R : M3 ℝ} {s : V3} (hR : R * R.transpose = 1) (hRΛ : R.mulVec '' ColLattice P.transpose = ColLattice P.transpose)
    (hmap : ∀ d ∈ bas, ∃ c ∈ bas, R.transpose.mulVec d + s - c ∈ ColLattice P.transpose) {eps : ℝ}
    (hb : ∀ d ∈ bas, bringIntoCell (R.transpose.mulVec d + s) (P.transpose)⁻¹ P.transpose eps =
      some (.ok (canonV P (R.transpose.mulVec d + s))))
    (hc : ∀ d ∈ bas, ∀ c ∈ bas, (∀ i, |canonV P (R.transpose.mulVec d + s) i - canonV P c i| ≤ eps) ↔
      R.transpose.mulVec d + s - c ∈ ColLattice P.transpose) :
    ∃ x, dvecOne (P.transpose)⁻¹ P.transpose bas eps (R, s) = pure x ∧ DvecGood (ColLattice P.transpose) bas R s x := by
  classical
  set Λ := ColLattice P.transpose with hΛdef
  have hΛ := colLat_isSub P.transpose
  set f : V3 → V3 := fun d => R.transpose.mulVec d + s with hf
  have hcanon : ∀ d ∈ bas, canonV P d = d := fun d hd => canonV_of_inCell hP (hcell d hd)
  have hex : ∀ x : V3, ∃ k, (∃ j, j < bas.length ∧ x - bas.getD j 0 ∈ Λ) → k < bas.length ∧ x - bas.getD k 0 ∈ Λ := by
    intro x
    by_cases h : ∃ j, j < bas.length ∧ x - bas.getD j 0 ∈ Λ
    · obtain ⟨j, hj⟩ := h; exact ⟨j, fun _ => hj⟩
    · exact ⟨0, fun h' => absurd h' h⟩
  choose σ hσ using hex
  have hσf : ∀ d ∈ bas, σ (canonV P (f d)) < bas.length ∧ f d - bas.getD (σ (canonV P (f d))) 0 ∈ Λ := by
    intro d hdm
    obtain ⟨c, hcm, h⟩ := hmap d hdm
    obtain ⟨j, hj, rfl⟩ := List.getElem_of_mem hcm
    have hcs := canonV_sub hP (f d)
    have := hσ (canonV P (f d)) ⟨j, hj, by
      rw [getD_lt hj]
      have := hΛ.add _ (hΛ.neg _ hcs) _ h
      convert this using 1
      simp only [hf]
      abel⟩
    refine ⟨this.1, ?_⟩
    have := hΛ.add _ hcs _ this.2
    rwa [sub_add_sub_cancel] at this
  have htrd : (bas.map (fun d => (fun i => Matrix.vecMul d R i + s i : V3))) = bas.map f := by
    apply List.map_congr_left
    intro d _
    funext i
    simp [hf, Matrix.mulVec_transpose]
  have hrd : (bas.map f).mapM (fun x => runO (bringIntoCell x (P.transpose)⁻¹ P.transpose eps)) =
      (pure ((bas.map f).map (canonV P)) : Run _) := by
    apply run_mapM_ok
    intro x hx
    obtain ⟨d, hdm, rfl⟩ := List.mem_map.mp hx
    show bringIntoCell _ _ _ _ = _
    rw [hb d hdm]
    rfl
  set rd := (bas.map f).map (canonV P) with hrddef
  have hrdmem : ∀ x, x ∈ rd ↔ ∃ d ∈ bas, canonV P (f d) = x := by
    intro x
    rw [hrddef, List.map_map, List.mem_map]
    rfl
  have hlen : rd.length = bas.length := by simp [hrddef]
  have hndb : bas.Nodup := by
    rw [List.nodup_iff_injective_getElem]
    intro i j hij
    simp only at hij
    apply Fin.ext
    apply hd i j i.2 j.2
    rw [getD_lt i.2, getD_lt j.2, hij, sub_self]
    exact hΛ.zero
  have hnd : (rd.map σ).Nodup := by
    rw [hrddef, List.map_map, List.map_map]
    refine hndb.map_on ?_
    intro d hdm d' hdm' e
    simp only [Function.comp] at e
    have h1 := hσf d hdm
    have h2 := hσf d' hdm'
    rw [e] at h1
    have h3 := colLat_sub h1.2 h2.2
    rw [sub_sub_sub_cancel_right] at h3
    simp only [hf] at h3
    rw [add_sub_add_right_eq_sub, ← Matrix.mulVec_sub] at h3
    have h4 := image_maps hRΛ h3
    rw [Matrix.mulVec_mulVec, hR, Matrix.one_mulVec] at h4
    obtain ⟨i, hi, rfl⟩ := List.getElem_of_mem hdm
    obtain ⟨j, hj, rfl⟩ := List.getElem_of_mem hdm'
    have := hd i j hi hj (by rw [getD_lt hi, getD_lt hj]; exact h4)
    subst this
    rfl
  have hperm : mapDvectorPermutation rd bas eps = .ok (rd.map σ) := by
    refine mapDvector_ok hlen σ hnd ?_ ?_
    · intro x hx
      obtain ⟨d, hdm, rfl⟩ := (hrdmem x).mp hx
      exact (hσf d hdm).1
    · intro x hx j hj
      obtain ⟨d, hdm, rfl⟩ := (hrdmem x).mp hx
      have hjm : bas.getD j 0 ∈ bas := by rw [getD_lt hj]; exact List.getElem_mem hj
      have := hc d hdm (bas.getD j 0) hjm
      rw [hcanon _ hjm] at this
      rw [this]
      constructor
      · intro h
        refine hd j _ hj (hσf d hdm).1 ?_
        have := colLat_sub (hσf d hdm).2 h
        rwa [sub_sub_sub_cancel_left] at this
      · rintro rfl
        exact (hσf d hdm).2
  refine ⟨(List.zipWith (fun r t => (fun i => r i - t i : V3)) rd (bas.map f), rd.map σ), ?_, ?_, ?_, ?_⟩
  · unfold dvecOne
    simp only
    rw [htrd, hrd]
    show (do
      let perm ← runPy (mapDvectorPermutation rd bas eps)
      pure (List.zipWith (fun r t => (fun i => r i - t i : V3)) rd (bas.map f), perm) : Run _) = _
    rw [hperm]
    rfl
  · have h1 : (rd.map σ).length = (List.range bas.length).length := by simp [hlen]
    refine List.Subperm.perm_of_length_le (List.subperm_of_subset hnd ?_) h1.ge
    intro k hk
    obtain ⟨x, hx, rfl⟩ := List.mem_map.mp hk
    obtain ⟨d, hdm, rfl⟩ := (hrdmem x).mp hx
    exact List.mem_range.mpr (hσf d hdm).1
  · simp [hlen]
  · intro i hi
    have hri : rd.getD i 0 = canonV P (f bas[i]) := by
      rw [getD_lt (by omega)]; simp [hrddef]
    have hpi : (rd.map σ).getD i 0 = σ (canonV P (f bas[i])) := by
      rw [getD_lt (by simp [hlen, hi])]; simp [hrddef]
    have hvi : (List.zipWith (fun r t => (fun i => r i - t i : V3)) rd (bas.map f)).getD i 0 =
        canonV P (f bas[i]) - f bas[i] := by
      rw [getD_lt (by simp [hlen, hi])]
      simp [hrddef]
      rfl
    have hm : bas[i] ∈ bas := List.getElem_mem hi
    simp only
    rw [hpi, hvi]
    have hs := hσf _ hm
    refine ⟨hs.1, ?_, ?_⟩
    · have := hΛ.neg _ (canonV_sub hP (f bas[i]))
      rwa [neg_sub] at this
    · have hk : bas.getD (σ (canonV P (f bas[i]))) 0 ∈ bas := by rw [getD_lt hs.1]; exact List.getElem_mem hs.1
      have := (canonV_eq_iff hP).mpr hs.2
      rw [hcanon _ hk] at this
      rw [← this, getD_lt hi, sub_sub_cancel]

/-- The facts about the space group proved in C47. -/
structure SgGood (Λ : Set V3) (atoms : List (ℕ × V3)) (L : List (M3 ℝ × V3)) : Prop where
  sound : ∀ p ∈ L, IsCrystalSym Λ atoms p.1 p.2
  complete : ∀ R s, IsCrystalSym Λ atoms R s → ∃ p ∈ L, p.1 = R ∧ p.2 - s ∈ Λ
  group : IsSpaceGroup Λ L

theorem cartAtoms_false (P : M3 ℝ) (atoms : List (ℕ × V3)) : cartAtoms P false atoms = atoms := rfl

/-- The vectors brought into the cell by `_get_dvector_permutations`. -/
def dvVecs (P : M3 ℝ) (bas : List V3) : Set V3 :=
  (fun p : (M3 ℝ × V3) × V3 => p.1.1.transpose.mulVec p.2 + p.1.2) ''
    ({p : M3 ℝ × V3 | IsCrystalSym (ColLattice P.transpose) (bas.map (fun d => (1, d))) p.1 p.2 ∧ InCell P p.2} ×ˢ {d | d ∈ bas}) ∪
  {d | d ∈ bas}

theorem dvVecs_finite {P : M3 ℝ} (hP : P.det ≠ 0) {bas : List V3} (hne : bas ≠ []) : (dvVecs P bas).Finite :=
  (((crystalSym_finite hP (by simpa using hne)).prod (List.finite_toSet bas)).image _).union (List.finite_toSet bas)

/-- At the tolerance `eps` the searches for the symmetries of the crystal with lattice `P` and basis `bas` are exact. -/
structure FineTol (P : M3 ℝ) (bas : List V3) (eps : ℝ) : Prop where
  pos : 0 < eps
  rot : PgExact P eps
  basis : BringExact P {d | d ∈ bas} eps
  space : BringExact P (sgVecs P ((bas.map (canonV P)).map (fun d => (1, d)))) eps
  perm : BringExact P (dvVecs P (bas.map (canonV P))) eps

/-- Small tolerances are fine. -/
theorem fineTol_exists {P : M3 ℝ} (hP : P.det ≠ 0) {bas : List V3} (hne : bas ≠ []) :
    ∃ e > 0, ∀ eps, 0 < eps → eps < e → FineTol P bas eps := by
  obtain ⟨e1, he1, h1⟩ := pointGroup_char P hP
  obtain ⟨e2, he2, h2⟩ := finite_bring hP (List.finite_toSet bas)
  obtain ⟨e3, he3, h3⟩ := finite_bring hP (sgVecs_finite hP ((bas.map (canonV P)).map (fun d => (1, d))))
  obtain ⟨e4, he4, h4⟩ := finite_bring hP (dvVecs_finite hP (bas := bas.map (canonV P)) (by simpa using hne))
  refine ⟨min (min e1 e2) (min e3 e4), lt_min (lt_min he1 he2) (lt_min he3 he4), fun eps h0 hlt => ?_⟩
  obtain ⟨l, l'⟩ := lt_min_iff.mp hlt
  obtain ⟨l1, l2⟩ := lt_min_iff.mp l
  obtain ⟨l3, l4⟩ := lt_min_iff.mp l'
  exact ⟨h0, h1 eps h0.le l1, h2 eps h0 l2, h3 eps h0 l3, h4 eps h0 l4⟩

/-- `_get_dvector_permutations` succeeds if the transformed basis vectors are basis vectors up to lattice vectors. -/
theorem dvectors_at {P : M3 ℝ} (hP : P.det ≠ 0) {bas : List V3} (hne : bas ≠ []) (hcell : ∀ d ∈ bas, InCell P d)
    (hd : ∀ i j, i < bas.length → j < bas.length → bas.getD i 0 - bas.getD j 0 ∈ ColLattice P.transpose → i = j)
    (hmap : ∀ R s, IsCrystalSym (ColLattice P.transpose) (bas.map (fun d => (1, d))) R s → ∀ d ∈ bas, ∃ c ∈ bas,
      R.transpose.mulVec d + s - c ∈ ColLattice P.transpose) {eps : ℝ} (hpg : PgExact P eps)
    (hsv : BringExact P (sgVecs P (bas.map (fun d => (1, d)))) eps) (hdv : BringExact P (dvVecs P bas) eps) : ∃ (L : List (M3 ℝ × V3)) (g : M3 ℝ × V3 → List V3 × List ℕ),
      spaceGroup P (bas.map (fun d => (1, d))) eps false = (pure L : Run _) ∧
      SgGood (ColLattice P.transpose) (bas.map (fun d => (1, d))) L ∧
      (∀ latDim, latDim ≠ 2 → dvectorPermutations P bas latDim eps = (pure (L.map g) : Run _)) ∧
      (∀ p ∈ L, DvecGood (ColLattice P.transpose) bas p.1 p.2 (g p)) ∧
      (∀ F, rm3D P L eps = .ok F → F ⊆ L → dvectorPermutations P bas 2 eps = (pure (F.map g) : Run _)) ∧
      (∀ p ∈ L, InCell P p.2) ∧ L.Pairwise (fun p q => ¬ (p.1 = q.1 ∧ p.2 - q.2 ∈ ColLattice P.transpose)) := by
  set Λ := ColLattice P.transpose with hΛdef
  set atoms : List (ℕ × V3) := bas.map (fun d => (1, d)) with hatoms
  have hne' : atoms ≠ [] := by simp [hatoms, hne]
  obtain ⟨L, hrun, hs, hc, hg, hin, hpw⟩ := space_group_at hP atoms hne' false hpg hsv
  rw [cartAtoms_false] at hs hc hpw
  obtain ⟨hb1, hb2⟩ := hdv
  have hone : ∀ p ∈ L, ∃ x, dvecOne (P.transpose)⁻¹ P.transpose bas eps p = pure x ∧ DvecGood Λ bas p.1 p.2 x := by
    rintro ⟨R, s⟩ hp
    have hsym := hs _ hp
    have hmemV : ∀ d ∈ bas, R.transpose.mulVec d + s ∈ dvVecs P bas := fun d hdm =>
      Or.inl ⟨((R, s), d), ⟨⟨hsym, hin _ hp⟩, hdm⟩, rfl⟩
    exact dvecOne_ok hP hcell hd hsym.orth hsym.lattice (hmap R s hsym)
      (fun d hdm => hb1 _ (hmemV d hdm)) (fun d hdm c hcm => hb2 _ (hmemV d hdm) _ (Or.inr hcm))
  have hex : ∀ p, ∃ x, p ∈ L → dvecOne (P.transpose)⁻¹ P.transpose bas eps p = pure x ∧ DvecGood Λ bas p.1 p.2 x := by
    intro p
    by_cases hp : p ∈ L
    · obtain ⟨x, hx⟩ := hone p hp; exact ⟨x, fun _ => hx⟩
    · exact ⟨([], []), fun h => absurd h hp⟩
  choose g hgs using hex
  refine ⟨L, g, hrun, ⟨hs, hc, hg⟩, ?_, fun p hp => (hgs p hp).2, ?_, hin, hpw ?_⟩
  · intro latDim hdim
    unfold dvectorPermutations
    rw [← hatoms, show spaceGroup P atoms eps false = (pure L : Run _) from hrun]
    simp only [pure_bind, if_neg hdim]
    exact run_mapM_ok _ g L (fun p hp => (hgs p hp).1)
  rotate_left
  · rw [hatoms, List.pairwise_map, List.pairwise_iff_getElem]
    rintro i j hi hj hij ⟨-, h⟩
    have := hd i j hi hj (by rw [getD_lt hi, getD_lt hj]; exact h)
    omega
  · intro F hF hsub
    unfold dvectorPermutations
    rw [← hatoms, show spaceGroup P atoms eps false = (pure L : Run _) from hrun]
    simp only [pure_bind, if_pos]
    rw [hF]
    exact run_mapM_ok _ g F (fun p hp => (hgs p (hsub hp)).1)

/-- The same for small tolerances. -/
theorem dvectors_ok {P : M3 ℝ} (hP : P.det ≠ 0) {bas : List V3} (hne : bas ≠ []) (hcell : ∀ d ∈ bas, InCell P d)
    (hd : ∀ i j, i < bas.length → j < bas.length → bas.getD i 0 - bas.getD j 0 ∈ ColLattice P.transpose → i = j)
    (hmap : ∀ R s, IsCrystalSym (ColLattice P.transpose) (bas.map (fun d => (1, d))) R s → ∀ d ∈ bas, ∃ c ∈ bas,
      R.transpose.mulVec d + s - c ∈ ColLattice P.transpose) :
    ∃ e > 0, ∀ eps, 0 < eps → eps < e → ∃ (L : List (M3 ℝ × V3)) (g : M3 ℝ × V3 → List V3 × List ℕ),
      spaceGroup P (bas.map (fun d => (1, d))) eps false = (pure L : Run _) ∧
      SgGood (ColLattice P.transpose) (bas.map (fun d => (1, d))) L ∧
      (∀ latDim, latDim ≠ 2 → dvectorPermutations P bas latDim eps = (pure (L.map g) : Run _)) ∧
      (∀ p ∈ L, DvecGood (ColLattice P.transpose) bas p.1 p.2 (g p)) ∧
      (∀ F, rm3D P L eps = .ok F → F ⊆ L → dvectorPermutations P bas 2 eps = (pure (F.map g) : Run _)) ∧
      (∀ p ∈ L, InCell P p.2) ∧ L.Pairwise (fun p q => ¬ (p.1 = q.1 ∧ p.2 - q.2 ∈ ColLattice P.transpose)) := by
  obtain ⟨e1, he1, h1⟩ := pointGroup_char P hP
  obtain ⟨e3, he3, h3⟩ := finite_bring hP (sgVecs_finite hP (bas.map (fun d => (1, d))))
  obtain ⟨e4, he4, h4⟩ := finite_bring hP (dvVecs_finite hP hne)
  refine ⟨min e1 (min e3 e4), lt_min he1 (lt_min he3 he4), fun eps h0 hlt => ?_⟩
  obtain ⟨l1, l'⟩ := lt_min_iff.mp hlt
  obtain ⟨l3, l4⟩ := lt_min_iff.mp l'
  exact dvectors_at hP hne hcell hd hmap (h1 eps h0.le l1) (h3 eps h0 l3) (h4 eps h0 l4)

theorem withData_map (L : List (M3 ℝ × V3)) (g : M3 ℝ × V3 → List V3 × List ℕ) :
    withData L (L.map g) = L.map (fun p => (p.1, (p.2, some (g p)))) := by
  apply List.ext_getElem
  · simp [withData]
  · intro i h1 h2
    have hi : i < L.length := by simpa [withData] using h1
    simp only [withData, List.getElem_map, List.getElem_range]
    rw [getD_lt hi]
    simp [hi]

theorem takeData_map (L : List (M3 ℝ × V3)) (g : M3 ℝ × V3 → List V3 × List ℕ) :
    takeData (L.map (fun p => (p.1, (p.2, some (g p))))) = .ok (L.map (fun p => ⟨p.1, p.2, (g p).1, (g p).2⟩)) := by
  unfold takeData
  rw [mapM_ok_eq (h := fun k => match k.2.2 with
    | some d => (⟨k.1, k.2.1, d.1, d.2⟩ : CellOp ℝ)
    | none => ⟨k.1, k.2.1, [], []⟩)]
  · rw [List.map_map]; rfl
  · intro x hx
    obtain ⟨p, -, rfl⟩ := List.mem_map.mp hx
    rfl

/-- The shift of an operation is not used. -/
theorem opPerm_shift {eps : ℝ} {tinv T : M3 ℝ} {S : GVec} {g : List GVec} {n nd : ℕ} (o : CellOp ℝ) (f : V3) :
    opPerm eps tinv T S g n nd { o with shift := f } = opPerm eps tinv T S g n nd o := by
  have h : ∀ l tab, fillRows eps tinv T S g n { o with shift := f } l tab = fillRows eps tinv T S g n o l tab := by
    intro l
    induction l with
    | nil => intro tab; rfl
    | cons a l ih =>
      intro tab
      unfold fillRows
      simp only [ih]
  unfold opPerm
  rw [h]

theorem rotationPerms_shift (At : M3 ℝ) (n nd : ℕ) (Lm : M3 ℤ) (S : GVec) (ops : List (CellOp ℝ)) (eps : ℝ) (arrows : Bool)
    (f : CellOp ℝ → V3) : rotationPerms At n nd Lm S (ops.map (fun o => { o with shift := f o })) eps arrows =
      rotationPerms At n nd Lm S ops eps arrows := by
  unfold rotationPerms
  have : ∀ tinv T g, (List.mapM (opPerm eps tinv T S g n nd) (ops.map (fun o => { o with shift := f o }))) =
      List.mapM (opPerm eps tinv T S g n nd) ops := by
    intro tinv T g
    induction ops with
    | nil => rfl
    | cons o l ih => rw [List.map_cons, List.mapM_cons, List.mapM_cons, opPerm_shift, ih]
  simp only [this]

/-! ## Failures -/

theorem takeData_error {kept : List (M3 ℝ × (V3 × Option (List V3 × List ℕ)))} (h : ∃ k ∈ kept, k.2.2 = none) :
    takeData kept = .error .indexError := by
  unfold takeData
  induction kept with
  | nil => simp at h
  | cons a l ih =>
    rw [List.mapM_cons]
    cases ha : a.2.2 with
    | none => rfl
    | some d =>
      simp only
      have hex : ∃ k ∈ l, k.2.2 = none := by
        obtain ⟨k, hk, e⟩ := h
        rcases List.mem_cons.mp hk with rfl | hk
        · rw [ha] at e; simp at e
        · exact ⟨k, hk, e⟩
      rw [ih hex]
      rfl

theorem run_mapM_error {α β : Type} (f : α → Run β) (e : PyErr) (l : List α)
    (h : ∀ a ∈ l, (∃ b, f a = (pure b : Run β)) ∨ f a = (throw e : Run β)) (hex : ∃ a ∈ l, f a = (throw e : Run β)) :
    l.mapM f = (throw e : Run (List β)) := by
  induction l with
  | nil => simp at hex
  | cons a l ih =>
    rw [List.mapM_cons]
    rcases h a List.mem_cons_self with ⟨b, hb⟩ | hb
    · rw [hb]
      have hex' : ∃ a ∈ l, f a = (throw e : Run β) := by
        obtain ⟨c, hc, hce⟩ := hex
        rcases List.mem_cons.mp hc with rfl | hc
        · rw [hb] at hce; exact absurd hce (by intro h; cases h)
        · exact ⟨c, hc, hce⟩
      rw [ih (fun c hc => h c (List.mem_cons_of_mem _ hc)) hex']
      rfl
    · rw [hb]; rfl

theorem dvecOne_run {P : M3 ℝ} {bas : List V3} {R : M3 ℝ} {s : V3} {eps : ℝ}
    (hb : ∀ d ∈ bas, bringIntoCell (R.transpose.mulVec d + s) (P.transpose)⁻¹ P.transpose eps =
      some (.ok (canonV P (R.transpose.mulVec d + s)))) :
    ∃ v, dvecOne (P.transpose)⁻¹ P.transpose bas eps (R, s) =
      (do let perm ← runPy (mapDvectorPermutation (bas.map (fun d => canonV P (R.transpose.mulVec d + s))) bas eps)
          pure (v, perm) : Run _) := by
  have htrd : (bas.map (fun d => (fun i => Matrix.vecMul d R i + s i : V3))) = bas.map (fun d => R.transpose.mulVec d + s) := by
    apply List.map_congr_left
    intro d _
    funext i
    simp [Matrix.mulVec_transpose]
  have hrd : (bas.map (fun d => R.transpose.mulVec d + s)).mapM
      (fun x => runO (bringIntoCell x (P.transpose)⁻¹ P.transpose eps)) =
      (pure ((bas.map (fun d => R.transpose.mulVec d + s)).map (canonV P)) : Run _) := by
    apply run_mapM_ok
    intro x hx
    obtain ⟨d, hdm, rfl⟩ := List.mem_map.mp hx
    show bringIntoCell _ _ _ _ = _
    rw [hb d hdm]
    rfl
  refine ⟨List.zipWith (fun r t => (fun i => r i - t i : V3)) (bas.map (fun d => canonV P (R.transpose.mulVec d + s)))
    (bas.map (fun d => R.transpose.mulVec d + s)), ?_⟩
  unfold dvecOne
  simp only
  rw [htrd, hrd, List.map_map]
  rfl

theorem dvecOne_total {P : M3 ℝ} {bas : List V3} {R : M3 ℝ} {s : V3} {eps : ℝ}
    (hb : ∀ d ∈ bas, bringIntoCell (R.transpose.mulVec d + s) (P.transpose)⁻¹ P.transpose eps =
      some (.ok (canonV P (R.transpose.mulVec d + s)))) :
    (∃ x, dvecOne (P.transpose)⁻¹ P.transpose bas eps (R, s) = (pure x : Run _)) ∨
      dvecOne (P.transpose)⁻¹ P.transpose bas eps (R, s) = (throw .sysExit : Run _) := by
  obtain ⟨v, hv⟩ := dvecOne_run hb
  rw [hv]
  unfold mapDvectorPermutation
  simp only
  split_ifs
  · exact Or.inr rfl
  · exact Or.inl ⟨_, rfl⟩

theorem dvecOne_exit {P : M3 ℝ} (hP : P.det ≠ 0) {bas : List V3} (hcell : ∀ d ∈ bas, InCell P d) {R : M3 ℝ} {s : V3} {eps : ℝ}
    (hb : ∀ d ∈ bas, bringIntoCell (R.transpose.mulVec d + s) (P.transpose)⁻¹ P.transpose eps =
      some (.ok (canonV P (R.transpose.mulVec d + s))))
    (hc : ∀ d ∈ bas, ∀ c ∈ bas, (∀ i, |canonV P (R.transpose.mulVec d + s) i - canonV P c i| ≤ eps) ↔
      R.transpose.mulVec d + s - c ∈ ColLattice P.transpose)
    {d : V3} (hd : d ∈ bas) (hout : ∀ c ∈ bas, R.transpose.mulVec d + s - c ∉ ColLattice P.transpose) :
    dvecOne (P.transpose)⁻¹ P.transpose bas eps (R, s) = (throw .sysExit : Run _) := by
  obtain ⟨v, hv⟩ := dvecOne_run hb
  rw [hv, mapDvector_exit (x := canonV P (R.transpose.mulVec d + s)) (by simp) (List.mem_map.mpr ⟨d, hd, rfl⟩)]
  · rfl
  · intro y hy h
    refine hout y hy ((hc d hd y hy).mp ?_)
    rwa [canonV_of_inCell hP (hcell y hy)]

/-- `_get_dvector_permutations` exits if some transformed basis vector is no basis vector up to lattice vectors. -/
theorem dvectors_exit_at {P : M3 ℝ} (hP : P.det ≠ 0) {bas : List V3} (hcell : ∀ d ∈ bas, InCell P d)
    {R : M3 ℝ} {s d : V3} (hsym : IsCrystalSym (ColLattice P.transpose) (bas.map (fun d => (1, d))) R s) (hd : d ∈ bas)
    (hout : ∀ c ∈ bas, R.transpose.mulVec d + s - c ∉ ColLattice P.transpose) {eps : ℝ} (hpg : PgExact P eps)
    (hsv : BringExact P (sgVecs P (bas.map (fun d => (1, d)))) eps) (hdv : BringExact P (dvVecs P bas) eps) : ∀ latDim, latDim ≠ 2 →
      dvectorPermutations P bas latDim eps = (throw .sysExit : Run _) := by
  have hne : bas ≠ [] := List.ne_nil_of_mem hd
  have hΛ := colLat_isSub P.transpose
  set Λ := ColLattice P.transpose with hΛdef
  set atoms : List (ℕ × V3) := bas.map (fun d => (1, d)) with hatoms
  have hne' : atoms ≠ [] := by simp [hatoms, hne]
  intro latDim hdim
  obtain ⟨L, hrun, hs, hc, hg, hin, -⟩ := space_group_at hP atoms hne' false hpg hsv
  rw [cartAtoms_false] at hs hc
  obtain ⟨hb1, hb2⟩ := hdv
  have hmemV : ∀ p ∈ L, ∀ d ∈ bas, p.1.transpose.mulVec d + p.2 ∈ dvVecs P bas := fun p hp d hdm =>
      Or.inl ⟨(p, d), ⟨⟨hs p hp, hin _ hp⟩, hdm⟩, rfl⟩
  unfold dvectorPermutations
  rw [← hatoms, show spaceGroup P atoms eps false = (pure L : Run _) from hrun]
  simp only [pure_bind, if_neg hdim]
  show L.mapM (dvecOne (P.transpose)⁻¹ P.transpose bas eps) = _
  apply run_mapM_error
  · rintro ⟨R, s⟩ hp
    exact dvecOne_total (fun d hdm => hb1 _ (hmemV _ hp d hdm))
  · obtain ⟨p, hp, e, hmod⟩ := hc R s hsym
    refine ⟨p, hp, ?_⟩
    refine dvecOne_exit hP hcell (fun d hdm => hb1 _ (hmemV p hp d hdm))
      (fun d hdm c hcm => hb2 _ (hmemV p hp d hdm) _ (Or.inr hcm)) hd ?_
    intro c hcm h
    refine hout c hcm ?_
    rw [e] at h
    have := hΛ.add _ h _ (hΛ.neg _ hmod)
    convert this using 1
    abel

end Phenum
