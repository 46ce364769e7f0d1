import Verif.Proof.NoiseSg
import Verif.Proof.NoiseLat
import Verif.Proof.RotGroup
import Verif.Props.SymGroup
/-
The drivers with rounding errors: every outcome is the one of exact arithmetic.
-/
namespace Phenum
open Spec

/-! ## Calls that have one outcome, that of exact arithmetic -/

section
variable {α β : Type}

/-- The call has exactly one outcome, and the exact call has the same. -/
def Settled (y : Noisy α) (x : Run α) : Prop := ∃ r : Py α, x = (some r : Option (Py α)) ∧ y = sure r

theorem Settled.py {y : Noisy α} {x : Py α} (h : y = sure x) : Settled y (runPy x) := ⟨x, rfl, h⟩

theorem Settled.pure (a : α) : Settled (Pure.pure a) (Pure.pure a) := ⟨.ok a, rfl, rfl⟩

theorem Settled.bind {y : Noisy α} {x : Run α} {f : α → Noisy β} {g : α → Run β} (h : Settled y x)
    (hf : ∀ a, x = (Pure.pure a : Run α) → Settled (f a) (g a)) : Settled (y >>= f) (x >>= g) := by
  obtain ⟨r, rfl, rfl⟩ := h
  cases r with
  | error e => exact ⟨.error e, rfl, sure_error_bind e f⟩
  | ok a =>
    obtain ⟨r, h1, h2⟩ := hf a rfl
    exact ⟨r, h1, by rw [sure_ok_bind]; exact h2⟩

theorem Settled.mapM {f : α → Noisy β} {g : α → Run β} : ∀ l : List α, (∀ a ∈ l, Settled (f a) (g a)) → Settled (mapN f l) (l.mapM g)
  | [], _ => Settled.pure []
  | a :: l, h => by
    rw [List.mapM_cons]
    unfold mapN
    exact (h a (by simp)).bind fun x _ => (Settled.mapM l (fun b hb => h b (by simp [hb]))).bind fun r _ => Settled.pure _

theorem Settled.ite {c : Prop} [Decidable c] {y y' : Noisy α} {x x' : Run α} (h : c → Settled y x) (h' : ¬ c → Settled y' x') :
    Settled (if c then y else y') (if c then x else x') := by
  split_ifs with hc
  · exact h hc
  · exact h' hc

theorem run_bind_ok {x : Run α} {f : α → Run β} {b : β} (h : (x >>= f) = (Pure.pure b : Run β)) :
    ∃ a, x = (Pure.pure a : Run α) ∧ f a = (Pure.pure b : Run β) := by
  match x, h with
  | none, h => cases h
  | some (.error e), h => cases h
  | some (.ok a), h => exact ⟨a, rfl, h⟩

theorem run_mapM_inv {f : α → Run β} : ∀ (l : List α) (r : List β), l.mapM f = (Pure.pure r : Run (List β)) →
    List.Forall₂ (fun a b => f a = (Pure.pure b : Run β)) l r
  | [], r, h => by
    rw [List.mapM_nil] at h
    cases h
    exact .nil
  | a :: l, r, h => by
    rw [List.mapM_cons] at h
    obtain ⟨b, hb, h⟩ := run_bind_ok h
    obtain ⟨r', hr, h⟩ := run_bind_ok h
    cases h
    exact .cons hb (run_mapM_inv l r' hr)

end

/-! ## The permutations of the basis vectors -/

section
variable {P : M3 ℝ} {K K' : ℝ} {g D : ℕ} {eps δ : ℝ} (N : NoiseOk P K K' g D eps δ)
include N

open Classical in
theorem NoiseOk.findClose (d : List V3) (found : List Bool) {x : V3} (hx : ∀ y ∈ d, x - y ∈ Grid P D) : ∀ (l : List V3) (j : ℕ),
    l = d.drop j → findCloseN δ eps found x l j = sure (.ok ((List.range' j l.length).find? (fun k =>
      !(found.getD k false) && decide (∀ i, |x i - d.getD k 0 i| ≤ eps))))
  | [], _, _ => rfl
  | y :: l, j, h => by
    have hl : l = d.drop (j + 1) := by
      rw [← List.tail_drop, ← h, List.tail_cons]
    have hj : j < d.length := by
      by_contra hc
      rw [List.drop_eq_nil_of_le (by omega)] at h
      simp at h
    have hy : d.getD j 0 = y := by
      rw [List.drop_eq_getElem_cons hj] at h
      rw [getD_lt hj]
      exact ((List.cons.inj h).1).symm
    have hm : y ∈ d := by rw [← hy, getD_lt hj]; exact List.getElem_mem hj
    have ih := NoiseOk.findClose d found hx l (j + 1) hl
    unfold findCloseN
    rw [List.length_cons, List.range'_succ, List.find?_cons, hy]
    cases hf : found.getD j false
    · rw [if_neg (by simp), N.close (hx y hm), sure_ok_bind, ih]
      by_cases hc : ∀ i, |x i - y i| ≤ eps
      · simp [hc, noisy_pure]
      · simp [hc]
    · rw [if_pos rfl, ih]
      simp

theorem NoiseOk.mapDvecLoop (d : List V3) : ∀ (rd : List V3) (found : List Bool), (∀ x ∈ rd, ∀ y ∈ d, x - y ∈ Grid P D) →
    mapDvecLoopN δ d eps rd found = sure (.ok (mapDvecLoop d eps rd found))
  | [], _, _ => rfl
  | x :: rd, found, h => by
    have ih := fun f => NoiseOk.mapDvecLoop d rd f (fun z hz => h z (by simp [hz]))
    unfold mapDvecLoopN Phenum.mapDvecLoop
    rw [N.findClose d found (h x (by simp)) d 0 rfl, sure_ok_bind, ← List.range_eq_range']
    change (match Phenum.findClose d eps found x with | some j => _ | none => _) = _
    cases hf : Phenum.findClose d eps found x with
    | none => exact ih _
    | some j =>
      simp only
      rw [ih, sure_ok_bind]
      rfl

theorem NoiseOk.mapDvector {rd d : List V3} (h : ∀ x ∈ rd, ∀ y ∈ d, x - y ∈ Grid P D) :
    mapDvectorPermutationN δ rd d eps = sure (mapDvectorPermutation rd d eps) := by
  unfold mapDvectorPermutationN mapDvectorPermutation
  rw [N.mapDvecLoop d rd _ h, sure_ok_bind]
  simp only
  split_ifs <;> rfl

theorem NoiseOk.bringList {c2l : M3 ℝ} (hc : c2l = (P.transpose)⁻¹) {l : List V3} (h : ∀ v ∈ l, v ∈ Grid P D) :
    mapN (fun x => bringIntoCellN δ x c2l P.transpose eps) l = sure (.ok (l.map (canonV P))) := by
  subst hc
  exact mapN_ok l fun v hv => N.bring (h v hv)

theorem NoiseOk.bringList_exact {c2l : M3 ℝ} (hc : c2l = (P.transpose)⁻¹) {l : List V3} (h : ∀ v ∈ l, v ∈ Grid P D) :
    l.mapM (fun x => runO (bringIntoCell x c2l P.transpose eps)) = (pure (l.map (canonV P)) : Run _) := by
  subst hc
  apply run_mapM_ok
  intro v hv
  show bringIntoCell _ _ _ _ = _
  rw [N.bring_exact (h v hv)]
  rfl

theorem NoiseOk.bringBasis {bas : List V3} (h : ∀ v ∈ bas, v ∈ Grid P D) : bringBasisN δ P bas eps = sure (.ok (bas.map (canonV P))) ∧
    bringBasis P bas eps = (pure (bas.map (canonV P)) : Run _) :=
  ⟨N.bringList (Matrix.transpose_nonsing_inv P) h, N.bringList_exact (Matrix.transpose_nonsing_inv P) h⟩

/-- The body of the loop of `_get_dvector_permutations`. -/
theorem NoiseOk.dvecOne {bas : List V3} (hb : ∀ d ∈ bas, d ∈ Grid P D) {op : M3 ℝ × V3}
    (hop : ∀ d ∈ bas, (fun i => Matrix.vecMul d op.1 i + op.2 i) ∈ Grid P D) :
    Settled (dvecOneN δ (P.transpose)⁻¹ P.transpose bas eps op) (dvecOne (P.transpose)⁻¹ P.transpose bas eps op) ∧
    ∀ x, dvecOne (P.transpose)⁻¹ P.transpose bas eps op = (pure x : Run _) → ∀ v ∈ x.1, v ∈ ColLattice P.transpose := by
  set trd := bas.map (fun d => (fun i => Matrix.vecMul d op.1 i + op.2 i : V3)) with htrd
  have ht : ∀ v ∈ trd, v ∈ Grid P D := by
    intro v hv
    obtain ⟨d, hd, rfl⟩ := List.mem_map.mp hv
    exact hop d hd
  have hg : ∀ x ∈ trd.map (canonV P), ∀ y ∈ bas, x - y ∈ Grid P D := by
    intro x hx y hy
    obtain ⟨v, hv, rfl⟩ := List.mem_map.mp hx
    exact grid_sub N.dpos (grid_canon N.det N.dpos (ht v hv)) (hb y hy)
  have e : Phenum.dvecOne (P.transpose)⁻¹ P.transpose bas eps op =
      (runPy (mapDvectorPermutation (trd.map (canonV P)) bas eps) >>= fun perm =>
        pure (List.zipWith (fun r t => (fun i => r i - t i : V3)) (trd.map (canonV P)) trd, perm) : Run _) := by
    unfold Phenum.dvecOne
    simp only [← htrd]
    rw [N.bringList_exact rfl ht]
    rfl
  constructor
  · rw [e]
    unfold dvecOneN
    simp only [← htrd]
    rw [N.bringList rfl ht, sure_ok_bind]
    exact (Settled.py (N.mapDvector hg)).bind fun p _ => Settled.pure _
  · intro x hx v hv
    rw [e] at hx
    obtain ⟨p, -, hp⟩ := run_bind_ok hx
    cases hp
    simp only at hv
    obtain ⟨i, hi, rfl⟩ := List.getElem_of_mem hv
    rw [List.getElem_zipWith, List.getElem_map]
    have := (colLat_isSub P.transpose).neg _ (canonV_sub N.det (trd[i]'(by simp at hi ⊢; omega)))
    convert this using 1
    rw [neg_sub]
    rfl


/-- The space group of the atoms in the cell. -/
theorem NoiseOk.sg {bas : List V3} (hne : bas ≠ []) (hb : ∀ d ∈ bas, d ∈ Grid P D) :
    ∃ L, Phenum.spaceGroup P ((bas.map (canonV P)).map (fun d => (1, d))) eps false = (pure L : Run _) ∧
      spaceGroupN δ P ((bas.map (canonV P)).map (fun d => (1, d))) eps = sure (.ok L) ∧
      (∀ p ∈ L, IsCrystalSym (ColLattice P.transpose) ((bas.map (canonV P)).map (fun d => (1, d))) p.1 p.2) ∧
      IsSpaceGroup (ColLattice P.transpose) L ∧ (∀ p ∈ L, InCell P p.2) := by
  have F := fineTol_coarse N.det (N.coarse hb)
  obtain ⟨L, h1, h2, -, h4, h5, -⟩ := space_group_at N.det ((bas.map (canonV P)).map (fun d => (1, d))) (by simpa using hne) false
    F.rot F.space
  rw [cartAtoms_false] at h2
  obtain ⟨L', e1, e2⟩ := N.spaceGroup (atoms := (bas.map (canonV P)).map (fun d => (1, d))) (by simpa using hne) (by
    intro a ha
    obtain ⟨d, hd, rfl⟩ := List.mem_map.mp ha
    obtain ⟨b, hb', rfl⟩ := List.mem_map.mp hd
    exact grid_canon N.det N.dpos (hb b hb'))
  have : L = L' := by rw [h1] at e1; cases e1; rfl
  subst this
  exact ⟨L, h1, e2, h2, h4, h5⟩

theorem NoiseOk.dvectors {bas : List V3} (hne : bas ≠ []) (hb : ∀ d ∈ bas, d ∈ Grid P D) {latDim : ℕ} (hdim : latDim ≠ 2) :
    Settled (dvectorPermutationsN δ P (bas.map (canonV P)) eps) (dvectorPermutations P (bas.map (canonV P)) latDim eps) ∧
    ∀ dp, dvectorPermutations P (bas.map (canonV P)) latDim eps = (pure dp : Run _) → ∀ x ∈ dp, ∀ v ∈ x.1, v ∈ ColLattice P.transpose := by
  obtain ⟨L, h1, h2, h3, -, h5⟩ := N.sg hne hb
  have hcan : ∀ d ∈ bas.map (canonV P), d ∈ Grid P D := by
    intro d hd
    obtain ⟨b, hb', rfl⟩ := List.mem_map.mp hd
    exact grid_canon N.det N.dpos (hb b hb')
  have hop : ∀ p ∈ L, ∀ d ∈ bas.map (canonV P), (fun i => Matrix.vecMul d p.1 i + p.2 i) ∈ Grid P D := by
    intro p hp d hd
    apply dvVecs_grid N.det N.dpos hcan
    refine Or.inl ⟨(p, d), ⟨⟨h3 p hp, h5 p hp⟩, hd⟩, ?_⟩
    funext i
    simp [Matrix.mulVec_transpose]
  have e : dvectorPermutations P (bas.map (canonV P)) latDim eps = L.mapM (Phenum.dvecOne (P.transpose)⁻¹ P.transpose (bas.map (canonV P)) eps) := by
    unfold dvectorPermutations
    rw [h1]
    simp only [pure_bind, if_neg hdim]
    rfl
  rw [e]
  constructor
  · unfold dvectorPermutationsN
    rw [h2, sure_ok_bind]
    exact Settled.mapM L fun p hp => (N.dvecOne hcan (hop p hp)).1
  · intro dp hdp x hx
    have hf := run_mapM_inv L dp hdp
    obtain ⟨i, hi, rfl⟩ := List.getElem_of_mem hx
    have hi' : i < L.length := by rw [hf.length_eq]; exact hi
    exact (N.dvecOne hcan (hop _ (List.getElem_mem hi'))).2 _ (hf.get hi' hi)

end

/-! ## The permutations of the sites -/

theorem npRound_within {y : ℝ} {z : ℤ} (h : |y - z| < 1 / 2) : npRound y = z := by
  rw [abs_lt] at h
  have hr : round y = z := by
    rw [round_eq, Int.floor_eq_iff]
    constructor <;> linarith [h.1, h.2]
  unfold npRound
  rw [if_neg, hr]
  intro hf
  have hfl := Int.floor_add_fract y
  rw [hf] at hfl
  rcases lt_trichotomy ⌊y⌋ z with hc | hc | hc
  · have : (⌊y⌋ : ℝ) + 1 ≤ z := by exact_mod_cast hc
    rcases eq_or_lt_of_le this with e | e
    · linarith [h.1]
    · linarith [h.1]
  · rw [← hc] at h; linarith [h.2]
  · have : (z : ℝ) + 1 ≤ ⌊y⌋ := by exact_mod_cast hc
    linarith [h.2]

/-- The rotation has no entry near one half. -/
def NoHalf (δ : ℝ) (R : M3 ℝ) : Prop := ∀ i j, δ < |(|R i j| - 1 / 2)|

theorem orth_le_one {R : M3 ℝ} (h : R * R.transpose = 1) (i j : Fin 3) : |R i j| ≤ 1 := by
  have h1 := congrFun (congrFun h i) i
  rw [Matrix.mul_apply, Matrix.one_apply_eq, Fin.sum_univ_three] at h1
  simp only [Matrix.transpose_apply] at h1
  have h2 : R i j * R i j ≤ 1 := by
    fin_cases j <;> simp <;> nlinarith [mul_self_nonneg (R i 0), mul_self_nonneg (R i 1), mul_self_nonneg (R i 2)]
  exact abs_le_one_iff_mul_self_le_one.mpr h2

/-- Rounding a number that is not near a half. -/
theorem npRound_stable {x y δ : ℝ} (hδ : δ < 1 / 2) (hx : |x| ≤ 1) (hh : δ < |(|x| - 1 / 2)|) (h0 : 0 ≤ δ) (hy : |y - x| ≤ δ) :
    npRound y = npRound x := by
  have key : ∃ z : ℤ, |x - z| + δ < 1 / 2 := by
    rcases lt_or_ge |x| (1 / 2) with hl | hl
    · refine ⟨0, ?_⟩
      rw [abs_of_neg (by linarith)] at hh
      simp only [Int.cast_zero, sub_zero]
      linarith
    · rw [abs_of_nonneg (by linarith)] at hh
      rcases le_total 0 x with hs | hs
      · rw [abs_of_nonneg hs] at hh hx
        refine ⟨1, ?_⟩
        rw [abs_of_nonpos (by push_cast; linarith)]
        push_cast
        linarith
      · rw [abs_of_nonpos hs] at hh hx
        refine ⟨-1, ?_⟩
        rw [abs_of_nonneg (by push_cast; linarith)]
        push_cast
        linarith
  obtain ⟨z, hz⟩ := key
  rw [npRound_within (z := z), npRound_within (z := z)]
  · linarith
  · calc |y - z| = |(y - x) + (x - z)| := by ring_nf
      _ ≤ |y - x| + |x - z| := abs_add_le _ _
      _ < 1 / 2 := by linarith

theorem measV_bind_sure {δ : ℝ} (h0 : 0 ≤ δ) {α : Type} {v : V3} {f : V3 → Noisy α} {r : Py α} (h : ∀ w : V3, (∀ i, |w i - v i| ≤ δ) → f w = sure r) :
    (measV δ v >>= f) = sure r := (measV_always h0 v).bind h

section
variable {δ eps : ℝ} (h0 : 0 ≤ δ) (hδ : δ < eps) (hh : δ < 1 / 2)
include h0 hδ hh

theorem rotGpN_ok {tinv T R : M3 ℝ} (hinv : tinv * T = 1) (hR : ∀ u ∈ ColLattice T, R.mulVec u ∈ ColLattice T) {v : V3} (hv : v ∈ ColLattice T)
    (S : GVec) (g : List GVec) : rotGpN δ eps tinv R T v S g = sure (rotGp eps tinv R T v S g) := by
  classical
  unfold rotGpN rotGp
  apply mapN_sure
  intro x _
  obtain ⟨z, hz⟩ := colLat_add (colLat_neg hv) (hR _ (⟨x, rfl⟩ : T.mulVec (fun i => (x i : ℝ)) ∈ ColLattice T))
  have hr : tinv.mulVec (-v + (R * T).mulVec (fun i => (x i : ℝ))) = fun i => (z i : ℝ) := by
    rw [← Matrix.mulVec_mulVec, ← hz, Matrix.mulVec_mulVec, hinv, Matrix.one_mulVec]
  simp only [hr]
  have h1 : ∀ i, npRound ((z i : ℤ) : ℝ) = z i := fun i => npRound_int _
  simp only [h1, sub_self, abs_zero]
  rw [if_pos (fun _ => (lt_of_le_of_lt h0 hδ).le)]
  apply measV_bind_sure h0
  intro w hw
  have h2 : ∀ i, npRound (w i) = z i := fun i => npRound_within (lt_of_le_of_lt (hw i) hh)
  simp only [h2]
  rw [if_pos (fun i => (hw i).trans hδ.le)]
  rfl

theorem fillRowsN_ok {tinv T : M3 ℝ} (hinv : tinv * T = 1) {op : CellOp ℝ} (hR : ∀ u ∈ ColLattice T, op.rot.mulVec u ∈ ColLattice T)
    (hv : ∀ i, op.v.getD i 0 ∈ ColLattice T) (S : GVec) (g : List GVec) (n : ℕ) : ∀ (l : List ℕ) (tab : List ℕ),
    fillRowsN δ eps tinv T S g n op l tab = sure (fillRows eps tinv T S g n op l tab)
  | [], _ => rfl
  | i :: l, tab => by
    unfold fillRowsN fillRows
    rw [rotGpN_ok h0 hδ hh hinv hR (hv i)]
    exact sure_bind _ _ _ fun gp _ => fillRowsN_ok hinv hR hv S g n l _

omit hδ in
theorem arrowPermN_ok {R : M3 ℝ} (ho : R * R.transpose = 1) (hn : NoHalf δ R) : arrowPermN δ R = sure (arrowPerm R) := by
  unfold arrowPermN arrowPerm
  have e : mapN (fun a : GVec => do
      let w ← measV δ (R.transpose.mulVec (fun k => (a k : ℝ)))
      pure (fun i => npRound (w i) : GVec)) arrowDirs =
      sure (.ok (arrowDirs.map (fun a => (fun i => npRound (R.transpose.mulVec (fun k => (a k : ℝ)) i) : GVec)))) := by
    apply mapN_ok
    intro a ha
    apply measV_bind_sure h0
    intro w hw
    rw [noisy_pure]
    congr 2
    funext i
    have hent : ∃ j, |R.transpose.mulVec (fun k => (a k : ℝ)) i| = |R j i| := by
      simp only [arrowDirs, List.mem_cons, List.not_mem_nil, or_false] at ha
      rcases ha with rfl | rfl | rfl | rfl | rfl | rfl
      · exact ⟨0, by simp [Matrix.mulVec, dotProduct, Fin.sum_univ_three]⟩
      · exact ⟨0, by simp [Matrix.mulVec, dotProduct, Fin.sum_univ_three]⟩
      · exact ⟨1, by simp [Matrix.mulVec, dotProduct, Fin.sum_univ_three]⟩
      · exact ⟨1, by simp [Matrix.mulVec, dotProduct, Fin.sum_univ_three]⟩
      · exact ⟨2, by simp [Matrix.mulVec, dotProduct, Fin.sum_univ_three]⟩
      · exact ⟨2, by simp [Matrix.mulVec, dotProduct, Fin.sum_univ_three]⟩
    obtain ⟨j, hj⟩ := hent
    exact npRound_stable hh (by rw [hj]; exact orth_le_one ho j i) (by rw [hj]; exact hn j i) h0 (hw i)
  rw [e, sure_ok_bind]
  simp only
  split_ifs <;> rfl

theorem opPermN_ok {tinv T : M3 ℝ} (hinv : tinv * T = 1) {op : CellOp ℝ} (hR : ∀ u ∈ ColLattice T, op.rot.mulVec u ∈ ColLattice T)
    (hv : ∀ i, op.v.getD i 0 ∈ ColLattice T) (ho : op.rot * op.rot.transpose = 1) (hn : NoHalf δ op.rot) (S : GVec) (g : List GVec) (n nd : ℕ) :
    opPermN δ eps tinv T S g n nd op = sure (opPerm eps tinv T S g n nd op) := by
  unfold opPermN opPerm
  rw [fillRowsN_ok h0 hδ hh hinv hR hv]
  refine sure_bind _ _ _ fun tab _ => ?_
  rw [arrowPermN_ok h0 hh ho hn]
  exact sure_bind _ _ _ fun dap _ => rfl

theorem rotationPermsN_ok {At : M3 ℝ} (hA : At.det ≠ 0) {L : M3 ℤ} (hL : IsUnit L.det) {ops : List (CellOp ℝ)}
    (hR : ∀ o ∈ ops, ColLattice (o.rot * At) = ColLattice At) (hv : ∀ o ∈ ops, ∀ i, o.v.getD i 0 ∈ ColLattice At)
    (ho : ∀ o ∈ ops, o.rot * o.rot.transpose = 1) (hn : ∀ o ∈ ops, NoHalf δ o.rot) (n nd : ℕ) (S : GVec) (arrows : Bool) :
    rotationPermsN δ At n nd L S ops eps arrows = sure (rotationPerms At n nd L S ops eps arrows) := by
  have hAu : IsUnit At.det := isUnit_iff_ne_zero.mpr hA
  have htd : (castM L * At⁻¹ : M3 ℝ).det ≠ 0 := by
    rw [Matrix.det_mul, castM_det, Matrix.det_nonsing_inv, Ring.inverse_eq_inv]
    exact mul_ne_zero (by exact_mod_cast hL.ne_zero) (inv_ne_zero hA)
  have hinv : (castM L * At⁻¹ : M3 ℝ) * (castM L * At⁻¹ : M3 ℝ)⁻¹ = 1 := Matrix.mul_nonsing_inv _ (isUnit_iff_ne_zero.mpr htd)
  have hlat : ColLattice (castM L * At⁻¹ : M3 ℝ)⁻¹ = ColLattice At := by
    refine (transform_facts hA hL (H := L⁻¹) (B := 1) (S := 1) (by rw [Matrix.det_one]; exact isUnit_one) ?_ ?_).2.1
    · rw [Matrix.mul_nonsing_inv _ hL, one_mul]; exact Matrix.diagonal_one.symm
    · rw [Matrix.det_nonsing_inv]
      exact hL.ringInverse.ne_zero
  unfold rotationPermsN rotationPerms
  rw [if_neg hA, if_neg hA]
  simp only [if_neg htd]
  split_ifs
  · rfl
  rw [mapN_sure ops fun o hom => opPermN_ok h0 hδ hh hinv (fun u hu => by
      rw [hlat] at hu ⊢
      exact colLat_mapsTo (hR o hom) hu) (fun i => by rw [hlat]; exact hv o hom i) (ho o hom) (hn o hom) S _ n nd]
  exact sure_bind _ _ _ fun perms _ => rfl

end

/-! ## The drivers -/

theorem detN_bind {δ : ℝ} (h0 : 0 ≤ δ) (hh : δ < 1 / 2) {H : M3 ℤ} {α : Type} {f : ℝ → Noisy α} {r : Py α}
    (h : ∀ d : ℝ, npRound d = H.det → (2 ≤ H.det → 1 ≤ d) → (H = 1 → d = 1) → f d = sure r) : (detN δ H >>= f) = sure r := by
  unfold detN
  split_ifs with h1
  · rw [noisy_pure, sure_ok_bind]
    refine h 1 ?_ (fun _ => le_refl _) (fun _ => rfl)
    rw [h1, Matrix.det_one]
    exact_mod_cast npRound_int (K := ℝ) 1
  · refine (meas_always h0 _).bind fun d hd => h d (npRound_within (lt_of_le_of_lt hd hh)) (fun h2 => ?_) (fun e => absurd e h1)
    have : (2 : ℝ) ≤ (H.det : ℝ) := by exact_mod_cast h2
    rw [abs_le] at hd
    linarith [hd.1]

theorem smithN_ok {δ : ℝ} (h0 : 0 ≤ δ) (hh : δ < 1 / 2) {H : M3 ℤ} (hH : H = 1 ∨ 2 ≤ H.det) :
    ∃ r, smithNormalForm H = some r ∧ smithNormalFormN δ H = sure r := by
  have hd1 : 1 ≤ H.det := by
    rcases hH with rfl | h
    · rw [Matrix.det_one]
    · omega
  have htot : ∃ r, smithNormalForm H = some r := by
    rcases C24_smith_total H hd1 with ⟨s, h⟩ | h
    · exact ⟨_, h⟩
    · exact ⟨_, h⟩
  obtain ⟨r, hr⟩ := htot
  refine ⟨r, hr, ?_⟩
  unfold smithNormalFormN
  apply detN_bind h0 hh
  intro d _ h2 h1
  have hd : ¬ d < 1 := by
    rcases hH with e | h
    · rw [h1 e]; norm_num
    · exact not_lt.mpr (h2 h)
  rw [if_neg hd]
  unfold smithNormalForm at hr
  rw [if_neg (by omega)] at hr
  cases hs : snfLoop H 99 0 { M := H, A := 1, B := 1 } with
  | none => rw [hs] at hr; cases hr
  | some x =>
    rw [hs] at hr
    cases x with
    | error e => simp only at hr ⊢; cases hr; rfl
    | ok s => simp only at hr ⊢; cases hr; rfl

theorem takeData_inv : ∀ (kept : List (M3 ℝ × (V3 × Option (List V3 × List ℕ)))) (ops : List (CellOp ℝ)), takeData kept = .ok ops →
    ∀ o ∈ ops, ∃ k ∈ kept, k.1 = o.rot ∧ k.2.2 = some (o.v, o.dperm)
  | [], ops, h, o, ho => by
    unfold takeData at h
    rw [List.mapM_nil] at h
    cases h
    simp at ho
  | k :: kept, ops, h, o, ho => by
    unfold takeData at h
    rw [List.mapM_cons] at h
    obtain ⟨a, ha⟩ : ∃ a, k.2.2 = some a := by
      cases hk : k.2.2 with
      | none => rw [hk] at h; cases h
      | some a => exact ⟨a, rfl⟩
    rw [ha] at h
    simp only at h
    cases ht : takeData kept with
    | error e => unfold takeData at ht; rw [ht] at h; cases h
    | ok ops' =>
      have ih := takeData_inv kept ops' ht
      unfold takeData at ht
      rw [ht] at h
      cases h
      rcases List.mem_cons.mp ho with rfl | ho
      · exact ⟨k, by simp, rfl, by rw [ha]⟩
      · obtain ⟨k', hk', e⟩ := ih o ho
        exact ⟨k', by simp [hk'], e⟩

theorem withData_mem {sg : List (M3 ℝ × V3)} {dp : List (List V3 × List ℕ)} {k : M3 ℝ × (V3 × Option (List V3 × List ℕ))}
    (h : k ∈ withData sg dp) : (∃ p ∈ sg, p.1 = k.1) ∧ ∀ x, k.2.2 = some x → x ∈ dp := by
  unfold withData at h
  obtain ⟨i, hi, rfl⟩ := List.mem_map.mp h
  rw [List.mem_range] at hi
  refine ⟨⟨sg.getD i (0, 0), ?_, rfl⟩, fun x hx => List.mem_of_getElem? hx⟩
  rw [List.getD_eq_getElem?_getD, List.getElem?_eq_getElem hi]
  exact List.getElem_mem hi

theorem fixLoop_sub {D : Type} {A : M3 ℝ} {H : M3 ℤ} {eps : ℝ} : ∀ (ops fixed : List (M3 ℝ × D)) (dg : List (M3 ℝ)) (r : List (M3 ℝ × D) × Nat),
    fixLoop A H eps ops fixed dg = .ok r → ∀ o ∈ r.1, o ∈ fixed ∨ o ∈ ops
  | [], fixed, dg, r, h, o, ho => by
    unfold fixLoop at h
    cases h
    exact Or.inl ho
  | op :: ops, fixed, dg, r, h, o, ho => by
    unfold fixLoop at h
    simp only at h
    cases hb : isEquivLattice (op.1 * (A * castM H)) (A * castM H) eps with
    | error e => rw [hb] at h; cases h
    | ok b =>
      rw [hb] at h
      cases b with
      | true =>
        rcases fixLoop_sub ops _ dg r h o ho with hc | hc
        · rcases List.mem_append.mp hc with hc | hc
          · exact Or.inl hc
          · simp at hc; exact Or.inr (by simp [hc])
        · exact Or.inr (by simp [hc])
      | false =>
        cases hd : inDegen eps (op.1 * (A * castM H)) dg with
        | error e =>
          change (do let inList ← inDegen eps (op.1 * (A * castM H)) dg; _ : Py _) = _ at h
          rw [hd] at h; cases h
        | ok b =>
          change (do let inList ← inDegen eps (op.1 * (A * castM H)) dg; _ : Py _) = _ at h
          rw [hd] at h
          cases b with
          | true =>
            rcases fixLoop_sub ops _ dg r h o ho with hc | hc
            · exact Or.inl hc
            · exact Or.inr (by simp [hc])
          | false =>
            rcases fixLoop_sub ops _ _ r h o ho with hc | hc
            · exact Or.inl hc
            · exact Or.inr (by simp [hc])

theorem dupLoop_sub {A : M3 ℝ} {rots : List (M3 ℝ)} {eps : ℝ} : ∀ (l u r : List (M3 ℤ)), dupLoop A rots eps l u = .ok r →
    ∀ H ∈ r, H ∈ u ∨ H ∈ l
  | [], u, r, h, H, hH => by
    unfold dupLoop at h
    cases h
    exact Or.inl hH
  | hi :: l, u, r, h, H, hH => by
    unfold dupLoop at h
    cases hd : dupAny A rots eps hi u with
    | error e => rw [hd] at h; cases h
    | ok b =>
      rw [hd] at h
      cases b with
      | true =>
        rcases dupLoop_sub l u r h H hH with hc | hc
        · exact Or.inl hc
        · exact Or.inr (by simp [hc])
      | false =>
        rcases dupLoop_sub l _ r h H hH with hc | hc
        · rcases List.mem_append.mp hc with hc | hc
          · exact Or.inl hc
          · simp at hc; exact Or.inr (by simp [hc])
        · exact Or.inr (by simp [hc])

theorem removeDuplicates_sub {l U : List (M3 ℤ)} {A : M3 ℝ} {rots : List (M3 ℝ)} {eps : ℝ} (h : removeDuplicates l A rots eps = .ok U) :
    ∀ u ∈ U, u ∈ l := by
  unfold removeDuplicates at h
  split_ifs at h
  · cases h; exact fun u hu => hu
  · intro u hu
    rcases dupLoop_sub _ _ _ h u hu with hc | hc
    · simp at hc
    · exact hc

section
variable {P : M3 ℝ} {K K' : ℝ} {g D : ℕ} {eps δ : ℝ} (N : NoiseOk P K K' g D eps δ)
include N

theorem NoiseOk.half : δ < 1 / 2 := by linarith [N.sum_lt, N.lt]

theorem NoiseOk.dedup {L : List (M3 ℝ × V3)} {atoms : List (ℕ × V3)} (hs : ∀ p ∈ L, IsCrystalSym (ColLattice P.transpose) atoms p.1 p.2)
    (hG : IsSpaceGroup (ColLattice P.transpose) L) {n : ℕ} (hn : 1 ≤ n) (hlt : (eps + δ) * n < 1) :
    DedupOk P.transpose (L.map (·.1)) n (eps + δ) := by
  refine ⟨by rw [Matrix.det_transpose]; exact N.det, sg_matGroup hG, ?_, hn, by linarith [N.eps_pos, N.nonneg], hlt⟩
  intro r hr
  obtain ⟨p, hp, rfl⟩ := List.mem_map.mp hr
  rw [colLat_image]
  exact (hs p hp).lattice

/-- `remove_duplicate_lattices` with rounding errors, for the atoms in the cell. -/
theorem NoiseOk.removeDuplicateLattices {bas : List V3} (hne : bas ≠ []) (hb : ∀ d ∈ bas, d ∈ Grid P D) {n : ℕ} (hn : 1 ≤ n)
    (hlt : (eps + δ) * n < 1) {hnfs : List (M3 ℤ)} (hdet : ∀ H ∈ hnfs, H.det.natAbs = n) (dp : List (List V3 × List ℕ)) :
    Settled (removeDuplicateLatticesN δ hnfs P (bas.map (canonV P)) dp eps) (removeDuplicateLattices hnfs P (bas.map (canonV P)) dp eps) := by
  obtain ⟨L, h1, h2, h3, h4, -⟩ := N.sg hne hb
  have hok := N.dedup h3 h4 hn hlt
  unfold removeDuplicateLatticesN Phenum.removeDuplicateLattices
  rw [h2, sure_ok_bind, h1]
  refine (Settled.py (removeDuplicatesN_ok hok N.nonneg N.lt hnfs hdet)).bind fun U hU => ?_
  have hUsub : ∀ u ∈ U, u ∈ hnfs := by
    have hU' : removeDuplicates hnfs P.transpose (L.map (·.1)) eps = .ok U := by
      exact Option.some.inj hU
    exact removeDuplicates_sub hU'
  refine (Settled.py ?_).bind fun dg _ => Settled.pure _
  unfold checkFixingN checkFixing
  apply mapN_sure
  intro u hu
  rw [fixingOperationsN_ok hok N.nonneg N.lt (hdet u (hUsub u hu)) _ (fun op hop => by
    obtain ⟨⟨p, hp, e⟩, -⟩ := withData_mem hop
    rw [← e]
    exact List.mem_map_of_mem hp)]
  refine sure_bind _ _ _ fun fix _ => ?_
  exact sure_bind _ _ _ fun _ _ => rfl

/-- `get_HNFs` with rounding errors. -/
theorem NoiseOk.getHNFs {bas : List V3} (hne : bas ≠ []) (hb : ∀ d ∈ bas, d ∈ Grid P D) {n : ℕ} (hn : 1 ≤ n) (hlt : (eps + δ) * n < 1)
    {latDim : ℕ} (hdim : latDim ≠ 2) : Settled (getHNFsN δ n P bas eps) (getHNFs n P bas latDim eps) := by
  unfold getHNFsN Phenum.getHNFs
  rw [if_neg N.det, if_neg N.det, (N.bringBasis hb).1, (N.bringBasis hb).2, sure_ok_bind]
  refine (N.dvectors hne hb hdim).1.bind fun dp _ => ?_
  refine (N.removeDuplicateLattices hne hb hn hlt (fun H hH => by rw [findAll_det hn hH]; rfl) dp).bind fun r _ => Settled.pure _

/-- `get_sym_group` with rounding errors. -/
theorem NoiseOk.getSymGroup {bas : List V3} (hne : bas ≠ []) (hb : ∀ d ∈ bas, d ∈ Grid P D) {H : M3 ℤ} (hH : H = 1 ∨ 2 ≤ H.det)
    (hlt : (eps + δ) * H.det.toNat < 1)
    (hhalf : ∀ R s, IsCrystalSym (ColLattice P.transpose) (bas.map (fun d => (1, d))) R s → NoHalf δ R)
    {latDim : ℕ} (hdim : latDim ≠ 2) (arrows : Bool) : Settled (getSymGroupN δ P bas H eps arrows) (getSymGroup P bas H latDim eps arrows) := by
  have hd1 : 1 ≤ H.det := by
    rcases hH with rfl | h
    · rw [Matrix.det_one]
    · omega
  obtain ⟨L, h1, h2, h3, h4, -⟩ := N.sg hne hb
  have hok := N.dedup h3 h4 (n := H.det.toNat) (by omega) hlt
  unfold getSymGroupN Phenum.getSymGroup
  rw [if_neg N.det, if_neg N.det, (N.bringBasis hb).1, (N.bringBasis hb).2, sure_ok_bind]
  refine (N.dvectors hne hb hdim).1.bind fun dp hdp => ?_
  have hdpv := (N.dvectors hne hb hdim).2 dp hdp
  rw [h2, sure_ok_bind, h1]
  refine (Settled.py (fixingOperationsN_ok hok N.nonneg N.lt (by omega) _ (fun op hop => by
    obtain ⟨⟨p, hp, e⟩, -⟩ := withData_mem hop
    rw [← e]
    exact List.mem_map_of_mem hp))).bind fun fix hfix => ?_
  have hfix' : fixingOperations P.transpose H eps (withData L dp) = .ok fix := Option.some.inj hfix
  have hsub : ∀ o ∈ fix.1, o ∈ withData L dp := fun o ho => by
    rcases fixLoop_sub _ _ _ _ hfix' o ho with h | h
    · simp at h
    · exact h
  refine (Settled.py rfl).bind fun ops hops => ?_
  have hops' : takeData fix.1 = .ok ops := Option.some.inj hops
  obtain ⟨rs, e1, e2⟩ := smithN_ok N.nonneg N.half hH
  refine Settled.bind (⟨rs, e1, e2⟩ : Settled _ (runO (smithNormalForm H))) fun snf hsnf => ?_
  have hsnf' : smithNormalForm H = some (.ok snf) := hsnf
  obtain ⟨-, hA1, -⟩ := C23_smith_correct H snf hsnf'
  have hL : IsUnit snf.A.det := Int.isUnit_iff.mpr hA1
  apply Settled.py
  apply detN_bind N.nonneg N.half
  intro d hd _ _
  rw [hd]
  have hop : ∀ o ∈ ops, (∃ p ∈ L, p.1 = o.rot) ∧ (o.v, o.dperm) ∈ dp := by
    intro o ho
    obtain ⟨k, hk, ek, ed⟩ := takeData_inv _ _ hops' o ho
    obtain ⟨⟨p, hp, e⟩, hx⟩ := withData_mem (hsub k hk)
    exact ⟨⟨p, hp, by rw [e, ek]⟩, hx _ ed⟩
  refine rotationPermsN_ok N.nonneg N.lt N.half hok.det hL ?_ ?_ ?_ ?_ _ _ _ _
  · intro o ho
    obtain ⟨⟨p, hp, e⟩, -⟩ := hop o ho
    exact hok.pres _ (by rw [← e]; exact List.mem_map_of_mem hp)
  · intro o ho i
    have h := hdpv _ (hop o ho).2
    rw [List.getD_eq_getElem?_getD]
    cases hi : o.v[i]? with
    | none => exact (colLat_isSub P.transpose).zero
    | some v => exact h v (List.mem_of_getElem? hi)
  · intro o ho
    obtain ⟨⟨p, hp, e⟩, -⟩ := hop o ho
    rw [← e]
    exact (h3 p hp).orth
  · intro o ho
    obtain ⟨⟨p, hp, e⟩, -⟩ := hop o ho
    rw [← e]
    exact hhalf p.1 p.2 ((crystalSym_canon N.det bas _ _).mp (h3 p hp))

end
end Phenum
