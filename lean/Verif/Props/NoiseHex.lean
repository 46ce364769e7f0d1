import Verif.Props.Noise
/-
C73, an instance where rounding errors do matter: `get_sym_group` for hexagonal lattices.
-/
namespace Phenum
open Spec

theorem mapN_error {α β : Type} {f : α → Noisy β} {e : PyErr} : ∀ l : List α, (∀ a ∈ l, (∃ b, f a (.ok b)) ∨ f a (.error e)) → (∃ a ∈ l, f a (.error e)) →
    mapN f l (.error e)
  | [], _, ⟨a, ha, _⟩ => by simp at ha
  | a :: l, h, ⟨c, hc, he⟩ => by
    unfold mapN
    by_cases ha : f a (.error e)
    · exact Or.inl ⟨e, ha, rfl⟩
    · obtain ⟨b, hb⟩ := (h a (by simp)).resolve_right ha
      have hcl : c ∈ l := by
        rcases List.mem_cons.mp hc with rfl | h
        · exact absurd he ha
        · exact h
      refine Or.inr ⟨b, hb, Or.inl ⟨e, mapN_error l (fun a h' => h a (by simp [h'])) ⟨c, hcl, he⟩, rfl⟩⟩

theorem mapN_all {α β : Type} {f : α → Noisy β} {g : α → β} : ∀ l : List α, (∀ a ∈ l, f a (.ok (g a))) → mapN f l (.ok (l.map g))
  | [], _ => rfl
  | a :: l, h => by
    unfold mapN
    exact Or.inr ⟨g a, h a (by simp), Or.inr ⟨l.map g, mapN_all l (fun b hb => h b (by simp [hb])), rfl⟩⟩

theorem mapN_list {α β : Type} {f : α → Noisy β} {l : List α} {r : List β} (h : List.Forall₂ (fun a b => f a (.ok b)) l r) : mapN f l (.ok r) := by
  induction h with
  | nil => rfl
  | cons h _ ih => exact Or.inr ⟨_, h, Or.inr ⟨_, ih, rfl⟩⟩

/-- The exact arrow permutation is one of the possible ones. -/
theorem arrowPermN_some {δ : ℝ} (h0 : 0 ≤ δ) (R : M3 ℝ) : arrowPermN δ R (arrowPerm R) := by
  unfold arrowPermN arrowPerm
  refine Or.inr ⟨_, mapN_all arrowDirs (g := fun a => (fun i => npRound (R.transpose.mulVec (fun k => (a k : ℝ)) i) : GVec)) (fun a _ => ?_), ?_⟩
  · exact Or.inr ⟨_, ⟨_, fun i => by rw [sub_self, abs_zero]; exact h0, rfl⟩, rfl⟩
  · simp only
    split_ifs <;> rfl

theorem arrowPerm_error {R : M3 ℝ} {e : PyErr} (h : arrowPerm R = .error e) : e = .sysExit := by
  unfold arrowPerm at h
  simp only at h
  split_ifs at h
  cases h
  rfl

theorem mapM_sysExit {α β : Type} {f : α → Py β} (hf : ∀ a e, f a = .error e → e = .sysExit) : ∀ (l : List α) (e : PyErr), l.mapM f = .error e → e = .sysExit
  | [], e, h => by cases h
  | a :: l, e, h => by
    rw [List.mapM_cons] at h
    cases ha : f a with
    | error e' => rw [ha] at h; cases h; exact hf a _ ha
    | ok b =>
      rw [ha] at h
      cases hl : l.mapM f with
      | error e' => 
        change (do let bs ← l.mapM f; _ : Py _) = _ at h
        rw [hl] at h; cases h; exact mapM_sysExit hf l _ hl
      | ok bs =>
        change (do let bs ← l.mapM f; _ : Py _) = _ at h
        rw [hl] at h; cases h

theorem fillRows_error {eps : ℝ} {tinv T : M3 ℝ} {S : GVec} {g : List GVec} {n : ℕ} {op : CellOp ℝ} : ∀ (l tab : List ℕ) (e : PyErr),
    fillRows eps tinv T S g n op l tab = .error e → e = .sysExit
  | [], _, _, h => by cases h
  | i :: l, tab, e, h => by
    unfold fillRows at h
    cases hg : rotGp eps tinv op.rot T (op.v.getD i 0) S g with
    | error e' =>
      rw [hg] at h
      cases h
      unfold rotGp at hg
      refine mapM_sysExit ?_ _ _ hg
      intro a e ha
      simp only at ha
      split_ifs at ha
      cases ha
      rfl
    | ok gp =>
      rw [hg] at h
      exact fillRows_error l _ e h

theorem fixLoop_keeps {D : Type} {A : M3 ℝ} {H : M3 ℤ} {eps : ℝ} : ∀ (ops fixed : List (M3 ℝ × D)) (dg : List (M3 ℝ)) (r : List (M3 ℝ × D) × Nat),
    fixLoop A H eps ops fixed dg = .ok r → (∀ o ∈ fixed, o ∈ r.1) ∧ ∀ o ∈ ops, isEquivLattice (o.1 * (A * castM H)) (A * castM H) eps = .ok true → o ∈ r.1
  | [], fixed, dg, r, h => by
    unfold fixLoop at h
    cases h
    exact ⟨fun o ho => ho, fun o ho => by simp at ho⟩
  | op :: ops, fixed, dg, r, h => by
    unfold fixLoop at h
    simp only at h
    cases hb : isEquivLattice (op.1 * (A * castM H)) (A * castM H) eps with
    | error e => rw [hb] at h; cases h
    | ok b =>
      rw [hb] at h
      cases b with
      | true =>
        obtain ⟨h1, h2⟩ := fixLoop_keeps ops _ dg r h
        refine ⟨fun o ho => h1 o (by simp [ho]), fun o ho he => ?_⟩
        rcases List.mem_cons.mp ho with rfl | ho
        · exact h1 _ (by simp)
        · exact h2 o ho he
      | false =>
        have key : ∀ dg', fixLoop A H eps ops fixed dg' = .ok r →
            (∀ o ∈ fixed, o ∈ r.1) ∧ ∀ o ∈ op :: ops, isEquivLattice (o.1 * (A * castM H)) (A * castM H) eps = .ok true → o ∈ r.1 := by
          intro dg' h'
          obtain ⟨h1, h2⟩ := fixLoop_keeps ops _ dg' r h'
          refine ⟨h1, fun o ho he => ?_⟩
          rcases List.mem_cons.mp ho with rfl | ho
          · rw [hb] at he; cases he
          · exact h2 o ho he
        change (do let inList ← inDegen eps (op.1 * (A * castM H)) dg; _ : Py _) = _ at h
        cases hd : inDegen eps (op.1 * (A * castM H)) dg with
        | error e => rw [hd] at h; cases h
        | ok b =>
          rw [hd] at h
          cases b with
          | true => exact key _ h
          | false => exact key _ h

theorem takeData_all : ∀ (kept : List (M3 ℝ × (V3 × Option (List V3 × List ℕ)))) (ops : List (CellOp ℝ)), takeData kept = .ok ops →
    ∀ k ∈ kept, ∃ o ∈ ops, o.rot = k.1
  | [], ops, h, k, hk => by simp at hk
  | c :: kept, ops, h, k, hk => by
    unfold takeData at h
    rw [List.mapM_cons] at h
    obtain ⟨a, ha⟩ : ∃ a, c.2.2 = some a := by
      cases hk : c.2.2 with
      | none => rw [hk] at h; cases h
      | some a => exact ⟨a, rfl⟩
    rw [ha] at h
    simp only at h
    cases ht : takeData kept with
    | error e => unfold takeData at ht; rw [ht] at h; cases h
    | ok ops' =>
      have ih := takeData_all kept ops' ht
      unfold takeData at ht
      rw [ht] at h
      cases h
      rcases List.mem_cons.mp hk with rfl | hk
      · exact ⟨_, List.mem_cons_self, rfl⟩
      · obtain ⟨o, ho, e⟩ := ih k hk
        exact ⟨o, by simp [ho], e⟩

theorem settled_pure {α : Type} {y : Noisy α} {x : Run α} {a : α} (h : Settled y x) (hx : x = (pure a : Run α)) : y = sure (.ok a) := by
  obtain ⟨r, h1, h2⟩ := h
  rw [hx] at h1
  cases h1
  exact h2

/-- If rounding errors may lead the arrow permutation of one symmetry of the supercell to the exit, they may lead `get_sym_group` to the exit. -/
theorem NoiseOk.symGroup_exit {P : M3 ℝ} {K K' : ℝ} {g D : ℕ} {eps δ : ℝ} (N : NoiseOk P K K' g D eps δ) {bas : List V3} (hne : bas ≠ []) (hb : ∀ d ∈ bas, d ∈ Grid P D) {H : M3 ℤ}
    (hH : H = 1 ∨ 2 ≤ H.det) (hlt : (eps + δ) * H.det.toNat < 1) {R : M3 ℝ} {s : V3}
    (hR : IsCrystalSym (ColLattice P.transpose) (bas.map (fun d => (1, d))) R s)
    (hfix : ColLattice (R * (P.transpose * castM H)) = ColLattice (P.transpose * castM H))
    (harr : arrowPermN δ R (.error .sysExit)) {arrows : Bool} {G : List (List ℕ × List ℕ)} (hG : Phenum.getSymGroup P bas H 3 eps arrows = (pure G : Run _)) :
    getSymGroupN δ P bas H eps arrows (.error .sysExit) := by
  have hd1 : 1 ≤ H.det := by
    rcases hH with rfl | h
    · rw [Matrix.det_one]
    · omega
  obtain ⟨L, h1, h2, h3, h4, -⟩ := N.sg hne hb
  have hok := N.dedup h3 h4 (n := H.det.toNat) (by omega) hlt
  have hcanon : ∀ d ∈ bas.map (canonV P), d ∈ Grid P D := by
    intro d hd
    obtain ⟨b, hb', rfl⟩ := List.mem_map.mp hd
    exact grid_canon N.det N.dpos (hb b hb')
  unfold Phenum.getSymGroup at hG
  unfold getSymGroupN
  rw [if_neg N.det, (N.bringBasis hb).2] at hG
  rw [if_neg N.det, (N.bringBasis hb).1, sure_ok_bind]
  obtain ⟨_, e0, hG⟩ := run_bind_ok hG
  cases e0
  obtain ⟨dp, hdp, hG⟩ := run_bind_ok hG
  rw [settled_pure (N.dvectors hne hb (latDim := 3) (by norm_num)).1 hdp, sure_ok_bind]
  have hdpv := (N.dvectors hne hb (latDim := 3) (by norm_num)).2 dp hdp
  rw [h1] at hG
  rw [h2, sure_ok_bind]
  obtain ⟨_, e0, hG⟩ := run_bind_ok hG
  cases e0
  obtain ⟨fix, hfx, hG⟩ := run_bind_ok hG
  have hfx' : fixingOperations P.transpose H eps (withData L dp) = .ok fix := Option.some.inj hfx
  rw [fixingOperationsN_ok hok N.nonneg N.lt (by omega) _ (fun op hop => by
    obtain ⟨⟨p, hp, e⟩, -⟩ := withData_mem hop
    rw [← e]
    exact List.mem_map_of_mem hp), hfx', sure_ok_bind]
  obtain ⟨ops, hops, hG⟩ := run_bind_ok hG
  have hops' : takeData fix.1 = .ok ops := Option.some.inj hops
  rw [hops', sure_ok_bind]
  obtain ⟨snf, hsnf, hG⟩ := run_bind_ok hG
  have hsnf' : smithNormalForm H = some (.ok snf) := hsnf
  obtain ⟨rs, e1, e2⟩ := smithN_ok N.nonneg N.half hH
  rw [hsnf'] at e1
  cases e1
  rw [e2, sure_ok_bind]
  obtain ⟨-, hA1, -⟩ := C23_smith_correct H snf hsnf'
  have hL : IsUnit snf.A.det := Int.isUnit_iff.mpr hA1
  refine Or.inr ⟨(H.det : ℝ), ?_, ?_⟩
  · unfold detN
    split_ifs with h
    · rw [h, Matrix.det_one, Int.cast_one]; rfl
    · exact ⟨_, by rw [sub_self, abs_zero]; exact N.nonneg, rfl⟩
  simp only
  rw [npRound_int]
  have hG' : rotationPerms P.transpose H.det.toNat (bas.map (canonV P)).length snf.A (fun i => snf.M i i) ops eps arrows = .ok G := Option.some.inj hG
  -- the operation with rotation `R`
  have hRL : ∃ p ∈ L, p.1 = R := by
    obtain ⟨L', q1, -, q3⟩ := C63_space_group N.det (atoms := (bas.map (canonV P)).map (fun d => (1, d))) (by simpa using hne)
      (N.coarse (bas := ((bas.map (canonV P)).map (fun d => (1, d))).map (·.2)) (by
        intro d hd
        rw [List.map_map] at hd
        obtain ⟨b, hb', rfl⟩ := List.mem_map.mp hd
        exact hcanon b hb'))
    rw [h1] at q1
    cases q1
    obtain ⟨p, hp, e, -⟩ := q3 R s ((crystalSym_canon N.det bas R s).mpr hR)
    exact ⟨p, hp, e⟩
  obtain ⟨p, hp, rfl⟩ := hRL
  have hk : ∃ k ∈ withData L dp, k.1 = p.1 := by
    obtain ⟨i, hi, e⟩ := List.getElem_of_mem hp
    refine ⟨_, List.mem_map.mpr ⟨i, List.mem_range.mpr hi, rfl⟩, ?_⟩
    rw [List.getD_eq_getElem?_getD, List.getElem?_eq_getElem hi, Option.getD_some, e]
  obtain ⟨k, hk, hkp⟩ := hk
  have hkeep : k ∈ fix.1 := by
    refine (fixLoop_keeps _ _ _ _ hfx').2 k hk ?_
    rw [hkp]
    have hok' := (N.dedup h3 h4 (n := H.det.toNat) (by omega) hlt)
    have F := (⟨hok'.det, hok'.grp, hok'.pres, hok'.n_pos, N.eps_pos.le, by
      have : (0 : ℝ) ≤ (H.det.toNat : ℝ) := Nat.cast_nonneg _
      have := N.nonneg
      nlinarith⟩ : DedupOk P.transpose (L.map (·.1)) H.det.toNat eps)
    obtain ⟨b, e1, e2⟩ := F.test (H := H) (H' := H) (by omega) (List.mem_map_of_mem (f := (·.1)) hp) F.grp.one
    rw [one_mul_castM] at e1 e2
    rw [e1, e2.mpr hfix]
  obtain ⟨o, ho, hop⟩ := takeData_all _ _ hops' k hkeep
  have hop2 : ∀ o ∈ ops, (∃ p ∈ L, p.1 = o.rot) ∧ (o.v, o.dperm) ∈ dp := by
    have hsub : ∀ o ∈ fix.1, o ∈ withData L dp := fun o ho => by
      rcases fixLoop_sub _ _ _ _ hfx' o ho with h | h
      · simp at h
      · exact h
    intro o ho
    obtain ⟨k, hk, ek, ed⟩ := takeData_inv _ _ hops' o ho
    obtain ⟨⟨p, hp, e⟩, hx⟩ := withData_mem (hsub k hk)
    exact ⟨⟨p, hp, by rw [e, ek]⟩, hx _ ed⟩
  have htd : (castM snf.A * (P.transpose)⁻¹ : M3 ℝ).det ≠ 0 := by
    rw [Matrix.det_mul, castM_det, Matrix.det_nonsing_inv, Ring.inverse_eq_inv]
    exact mul_ne_zero (by exact_mod_cast hL.ne_zero) (inv_ne_zero hok.det)
  have hinv := Matrix.mul_nonsing_inv _ (isUnit_iff_ne_zero.mpr htd)
  have hlat : ColLattice (castM snf.A * (P.transpose)⁻¹ : M3 ℝ)⁻¹ = ColLattice P.transpose := by
    refine (transform_facts hok.det hL (H := snf.A⁻¹) (B := 1) (S := 1) (by rw [Matrix.det_one]; exact isUnit_one) ?_ ?_).2.1
    · rw [Matrix.mul_nonsing_inv _ hL, one_mul]; exact Matrix.diagonal_one.symm
    · rw [Matrix.det_nonsing_inv]
      exact hL.ringInverse.ne_zero
  unfold rotationPerms at hG'
  unfold rotationPermsN
  rw [if_neg hok.det] at hG' ⊢
  simp only [if_neg htd] at hG' ⊢
  have hlen : ¬ (memberList (fun i => snf.M i i)).length ≠ H.det.toNat := by
    intro h
    rw [if_pos h] at hG'
    cases hG'
  rw [if_neg hlen]
  refine Or.inl ⟨_, mapN_error ops ?_ ⟨o, ho, ?_⟩, rfl⟩
  all_goals
    first
    | intro o ho
    | skip
    have hfill := fillRowsN_ok N.nonneg N.lt N.half hinv (op := o) (fun u hu => by
      rw [hlat] at hu ⊢
      obtain ⟨⟨q, hq, e⟩, -⟩ := hop2 o ho
      exact colLat_mapsTo (hok.pres _ (by rw [← e]; exact List.mem_map_of_mem hq)) hu) (fun i => by
      rw [hlat, List.getD_eq_getElem?_getD]
      cases hi : o.v[i]? with
      | none => exact (colLat_isSub P.transpose).zero
      | some v => exact hdpv _ (hop2 o ho).2 v (List.mem_of_getElem? hi)) (fun i => snf.M i i) (memberList (fun i => snf.M i i)) H.det.toNat
      (List.range (bas.map (canonV P)).length) (List.replicate ((bas.map (canonV P)).length * H.det.toNat) 0)
    unfold opPermN
    rw [hfill]
  · cases hr : fillRows eps (castM snf.A * (P.transpose)⁻¹) (castM snf.A * (P.transpose)⁻¹)⁻¹ (fun i => snf.M i i) (memberList (fun i => snf.M i i)) H.det.toNat o
      (List.range (bas.map (canonV P)).length) (List.replicate ((bas.map (canonV P)).length * H.det.toNat) 0) with
    | error e =>
      cases fillRows_error _ _ _ hr
      exact Or.inr (Or.inl ⟨_, rfl, rfl⟩)
    | ok tab =>
      have := arrowPermN_some N.nonneg o.rot
      cases ha : arrowPerm o.rot with
      | error e =>
        cases arrowPerm_error ha
        rw [ha] at this
        exact Or.inr (Or.inr ⟨tab, rfl, Or.inl ⟨_, this, rfl⟩⟩)
      | ok dap =>
        rw [ha] at this
        exact Or.inl ⟨_, Or.inr ⟨tab, rfl, Or.inr ⟨dap, this, rfl⟩⟩⟩
  · cases hr : fillRows eps (castM snf.A * (P.transpose)⁻¹) (castM snf.A * (P.transpose)⁻¹)⁻¹ (fun i => snf.M i i) (memberList (fun i => snf.M i i)) H.det.toNat o
      (List.range (bas.map (canonV P)).length) (List.replicate ((bas.map (canonV P)).length * H.det.toNat) 0) with
    | error e =>
      cases fillRows_error _ _ _ hr
      exact Or.inl ⟨_, rfl, rfl⟩
    | ok tab =>
      rw [← hkp, ← hop] at harr
      exact Or.inr ⟨tab, rfl, Or.inl ⟨_, harr, rfl⟩⟩

/-! ## The hexagonal lattice -/

/-- a hexagonal lattice: two vectors of length one at an angle of sixty degrees, and a perpendicular one of length two -/
noncomputable def hexLat : M3 ℝ := !![1, 0, 0; 1 / 2, √3 / 2, 0; 0, 0, 2]

/-- the rotation by sixty degrees -/
noncomputable def hexTurn : M3 ℝ := !![1 / 2, -(√3 / 2), 0; √3 / 2, 1 / 2, 0; 0, 0, 1]

theorem sqrt3_sq : (√3 / 2 : ℝ) * (√3 / 2) = 3 / 4 := by
  have : (√3 : ℝ) * √3 = 3 := Real.mul_self_sqrt (by norm_num)
  linear_combination this / 4

theorem sqrt3_pos : (0 : ℝ) < √3 / 2 := by positivity

theorem sqrt3_gt : (3 / 4 : ℝ) < √3 / 2 := by nlinarith [sqrt3_sq, sqrt3_pos]

theorem sqrt3_lt : (√3 / 2 : ℝ) < 1 := by nlinarith [sqrt3_sq, sqrt3_pos]

theorem rounds_neg {x : ℝ} {z : ℤ} (h : RoundsTo x z) : RoundsTo (-x) (-z) := by
  have e : |-x - ((-z : ℤ) : ℝ)| = |x - z| := by
    rw [← abs_neg (x - z)]
    push_cast
    congr 1
    ring
  rcases h with h | ⟨h, h'⟩
  · exact Or.inl (by rw [e]; exact h)
  · exact Or.inr ⟨by rw [e]; exact h, h'.neg⟩

theorem rounds_int (z : ℤ) : RoundsTo (z : ℝ) z := Or.inl (by rw [sub_self, abs_zero]; norm_num)

theorem rounds_half : RoundsTo (1 / 2 : ℝ) 0 := Or.inr ⟨by rw [Int.cast_zero, sub_zero, abs_of_pos (by norm_num)], ⟨0, rfl⟩⟩

theorem rounds_sqrt : RoundsTo (√3 / 2 : ℝ) 1 := by
  refine Or.inl ?_
  rw [Int.cast_one, abs_lt]
  constructor <;> linarith [sqrt3_gt, sqrt3_lt]

/-- A rotation whose rounded rows are, up to signs and order, the axes turns the arrows (as far as the code without arrows looks at them). -/
theorem turns_of_rows {R : M3 ℝ} (h : ∀ c : Fin 3, ∃ j, ∃ α : ℤ, (α = 1 ∨ α = -1) ∧ ∀ i, RoundsTo (R j i) (if i = c then α else 0)) (k : ℕ) (a : Fin 3 → ℤ)
    (ha : IsArrowDir k a) : ∃ m b, IsArrowDir m b ∧ ∀ i, RoundsTo (R.transpose.mulVec (fun i => (b i : ℝ)) i) (a i) := by
  obtain ⟨c, τ, hτ, rfl⟩ : ∃ c : Fin 3, ∃ τ : ℤ, (τ = 1 ∨ τ = -1) ∧ a = fun i => if i = c then τ else 0 := by
    rcases ha with ⟨-, rfl⟩ | ⟨-, rfl⟩ | ⟨-, rfl⟩ | ⟨-, rfl⟩ | ⟨-, rfl⟩ | ⟨-, rfl⟩
    · exact ⟨0, 1, Or.inl rfl, by funext i; fin_cases i <;> rfl⟩
    · exact ⟨0, -1, Or.inr rfl, by funext i; fin_cases i <;> rfl⟩
    · exact ⟨1, 1, Or.inl rfl, by funext i; fin_cases i <;> rfl⟩
    · exact ⟨1, -1, Or.inr rfl, by funext i; fin_cases i <;> rfl⟩
    · exact ⟨2, 1, Or.inl rfl, by funext i; fin_cases i <;> rfl⟩
    · exact ⟨2, -1, Or.inr rfl, by funext i; fin_cases i <;> rfl⟩
  obtain ⟨j, α, hα, hr⟩ := h c
  have hdir : ∀ j : Fin 3, ∀ σ : ℤ, (σ = 1 ∨ σ = -1) → ∃ m, IsArrowDir m (fun i => if i = j then σ else 0) := by
    rintro j σ (rfl | rfl) <;> fin_cases j
    · exact ⟨0, Or.inl ⟨rfl, by funext i; fin_cases i <;> rfl⟩⟩
    · exact ⟨2, Or.inr (Or.inr (Or.inl ⟨rfl, by funext i; fin_cases i <;> rfl⟩))⟩
    · exact ⟨4, Or.inr (Or.inr (Or.inr (Or.inr (Or.inl ⟨rfl, by funext i; fin_cases i <;> rfl⟩))))⟩
    · exact ⟨1, Or.inr (Or.inl ⟨rfl, by funext i; fin_cases i <;> rfl⟩)⟩
    · exact ⟨3, Or.inr (Or.inr (Or.inr (Or.inl ⟨rfl, by funext i; fin_cases i <;> rfl⟩)))⟩
    · exact ⟨5, Or.inr (Or.inr (Or.inr (Or.inr (Or.inr ⟨rfl, by funext i; fin_cases i <;> rfl⟩))))⟩
  have hmul : ∀ σ : ℤ, ∀ i, R.transpose.mulVec (fun i => ((if i = j then σ else 0 : ℤ) : ℝ)) i = R j i * σ := by
    intro σ i
    fin_cases j <;> simp [Matrix.mulVec, dotProduct, Fin.sum_univ_three]
  by_cases hs : α = τ
  · obtain ⟨m, hm⟩ := hdir j 1 (Or.inl rfl)
    refine ⟨m, _, hm, fun i => ?_⟩
    rw [hmul, ← hs, Int.cast_one, mul_one]
    exact hr i
  · obtain ⟨m, hm⟩ := hdir j (-1) (Or.inr rfl)
    refine ⟨m, _, hm, fun i => ?_⟩
    have hs' : τ = -α := by rcases hα with rfl | rfl <;> rcases hτ with rfl | rfl <;> simp_all
    have := rounds_neg (hr i)
    rw [hmul, hs']
    have e : -(if i = c then α else 0) = if i = c then -α else 0 := by split_ifs <;> simp
    rw [e] at this
    simpa using this

theorem hex_mem {v : V3} (h : v ∈ ColLattice hexLat.transpose) : ∃ x y z : ℤ, v 0 = x + y / 2 ∧ v 1 = √3 / 2 * y ∧ v 2 = 2 * z := by
  obtain ⟨x, rfl⟩ := h
  refine ⟨x 0, x 1, x 2, ?_, ?_, ?_⟩ <;> simp [hexLat, Matrix.mulVec, dotProduct, Fin.sum_univ_three]
  ring

theorem hex_of {v : V3} {x y z : ℤ} (h0 : v 0 = x + y / 2) (h1 : v 1 = √3 / 2 * y) (h2 : v 2 = 2 * z) : v ∈ ColLattice hexLat.transpose := by
  refine ⟨![x, y, z], ?_⟩
  funext i
  fin_cases i <;> simp [hexLat, Matrix.mulVec, dotProduct, Fin.sum_univ_three, h0, h1, h2]
  ring

theorem hex_short {v : V3} (h : v ∈ ColLattice hexLat.transpose) (hn : v 0 * v 0 + v 1 * v 1 + v 2 * v 2 = 1) :
    v 2 = 0 ∧ (((v 0 = 1 ∨ v 0 = -1) ∧ v 1 = 0) ∨ ((v 0 = 1 / 2 ∨ v 0 = -(1 / 2)) ∧ (v 1 = √3 / 2 ∨ v 1 = -(√3 / 2)))) := by
  obtain ⟨x, y, z, h0, h1, h2⟩ := hex_mem h
  rw [h0, h1, h2] at hn
  have e : (x : ℝ) * x + x * y + y * y + 4 * (z * z) = 1 := by
    linear_combination hn - (y * y : ℝ) * sqrt3_sq
  have e' : x * x + x * y + y * y + 4 * (z * z) = 1 := by exact_mod_cast e
  have hz : z = 0 := by
    by_contra hz
    have : 1 ≤ z * z := by
      rcases lt_or_gt_of_ne hz with h | h <;> nlinarith
    nlinarith [sq_nonneg (2 * x + y), sq_nonneg y]
  subst hz
  have hy : -1 ≤ y ∧ y ≤ 1 := by constructor <;> nlinarith [sq_nonneg (2 * x + y)]
  have hx : -1 ≤ x ∧ x ≤ 1 := by constructor <;> nlinarith [sq_nonneg (2 * y + x)]
  rw [h0, h1, h2]
  obtain ⟨y1, y2⟩ := hy
  obtain ⟨x1, x2⟩ := hx
  refine ⟨by simp, ?_⟩
  interval_cases y <;> interval_cases x <;> first | (exfalso; revert e'; norm_num; done) | (norm_num; done)

/-- The rows of a symmetry of the hexagonal lattice round to the axes. -/
theorem hex_rows {R : M3 ℝ} (ho : R * R.transpose = 1) (hl : R.mulVec '' ColLattice hexLat.transpose = ColLattice hexLat.transpose) :
    ∀ c : Fin 3, ∃ j, ∃ α : ℤ, (α = 1 ∨ α = -1) ∧ ∀ i, RoundsTo (R j i) (if i = c then α else 0) := by
  have ho' : R.transpose * R = 1 := mul_eq_one_comm.mp ho
  have O : ∀ i j, R 0 i * R 0 j + R 1 i * R 1 j + R 2 i * R 2 j = if i = j then 1 else 0 := by
    intro i j
    have := congrFun (congrFun ho' i) j
    rw [Matrix.mul_apply, Fin.sum_univ_three, Matrix.one_apply] at this
    exact this
  have O2 : R 2 0 * R 2 0 + R 2 1 * R 2 1 + R 2 2 * R 2 2 = 1 := by
    have := congrFun (congrFun ho 2) 2
    rw [Matrix.mul_apply, Fin.sum_univ_three, Matrix.one_apply] at this
    exact this
  have m0 : (fun i => R i 0) ∈ ColLattice hexLat.transpose := by
    have h : (![1, 0, 0] : V3) ∈ ColLattice hexLat.transpose := hex_of (x := 1) (y := 0) (z := 0) (by simp) (by simp) (by simp)
    have h' : R.mulVec ![1, 0, 0] ∈ ColLattice hexLat.transpose := hl ▸ Set.mem_image_of_mem _ h
    convert h' using 1
    funext i
    simp [Matrix.mulVec, dotProduct, Fin.sum_univ_three]
  have m1 : (fun i => R i 0 * (1 / 2) + R i 1 * (√3 / 2)) ∈ ColLattice hexLat.transpose := by
    have h : (![1 / 2, √3 / 2, 0] : V3) ∈ ColLattice hexLat.transpose := hex_of (x := 0) (y := 1) (z := 0) (by simp) (by simp) (by simp)
    have h' : R.mulVec ![1 / 2, √3 / 2, 0] ∈ ColLattice hexLat.transpose := hl ▸ Set.mem_image_of_mem _ h
    convert h' using 1
    funext i
    simp [Matrix.mulVec, dotProduct, Fin.sum_univ_three]
  have O00 := O 0 0
  have O01 := O 0 1
  have O11 := O 1 1
  have O22 := O 2 2
  simp only [if_pos, Fin.isValue, zero_ne_one, if_false] at O00 O01 O11 O22
  obtain ⟨z0, hc⟩ := hex_short m0 O00
  obtain ⟨z1, -⟩ := hex_short m1 (by
    beta_reduce
    linear_combination (1 / 4) * O00 + (√3 / 2) * O01 + (3 / 4) * O11 + (R 0 1 * R 0 1 + R 1 1 * R 1 1 + R 2 1 * R 2 1) * sqrt3_sq)
  beta_reduce at z0 z1 hc
  have z1' : R 2 1 = 0 := by
    rw [z0] at z1
    have := sqrt3_pos.ne'
    have e : R 2 1 * (√3 / 2) = 0 := by linarith
    exact (mul_eq_zero.mp e).resolve_right this
  have c2 : R 2 2 * R 2 2 = 1 := by rw [z0, z1'] at O2; linarith
  have c0 : R 0 2 = 0 := by nlinarith [mul_self_nonneg (R 0 2), mul_self_nonneg (R 1 2)]
  have c1 : R 1 2 = 0 := by nlinarith [mul_self_nonneg (R 0 2), mul_self_nonneg (R 1 2)]
  have c2' : R 2 2 = 1 ∨ R 2 2 = -1 := mul_self_eq_one_iff.mp c2
  rw [z0] at O00 O01
  rw [z1'] at O11
  -- the second column
  have hε : (R 0 0 * R 1 1 - R 1 0 * R 0 1) * (R 0 0 * R 1 1 - R 1 0 * R 0 1) = 1 := by
    linear_combination (R 0 1 * R 0 1 + R 1 1 * R 1 1) * O00 + O11 - (R 0 0 * R 0 1 + R 1 0 * R 1 1) * O01
  obtain ⟨ε, he, hε⟩ : ∃ ε : ℝ, (ε = 1 ∨ ε = -1) ∧ ε = R 0 0 * R 1 1 - R 1 0 * R 0 1 := ⟨_, mul_self_eq_one_iff.mp hε, rfl⟩
  have r1 : R 1 1 = ε * R 0 0 := by
    rw [hε]
    linear_combination -(R 1 1) * O00 + R 1 0 * O01
  have r0 : R 0 1 = -(ε * R 1 0) := by
    rw [hε]
    linear_combination -(R 0 1) * O00 + R 0 0 * O01
  have hz : RoundsTo (0 : ℝ) 0 := by exact_mod_cast rounds_int 0
  have h1 : RoundsTo (1 : ℝ) 1 := by exact_mod_cast rounds_int 1
  have hm : RoundsTo (-1 : ℝ) (-1) := by exact_mod_cast rounds_int (-1)
  have third : ∃ j, ∃ α : ℤ, (α = 1 ∨ α = -1) ∧ ∀ i, RoundsTo (R j i) (if i = 2 then α else 0) := by
    rcases c2' with e | e
    · refine ⟨2, 1, Or.inl rfl, fun i => ?_⟩
      fin_cases i
      · simpa [z0] using hz
      · simpa [z1'] using hz
      · simpa [e] using h1
    · refine ⟨2, -1, Or.inr rfl, fun i => ?_⟩
      fin_cases i
      · simpa [z0] using hz
      · simpa [z1'] using hz
      · simpa [e] using hm
  have key : (∃ α β : ℤ, (α = 1 ∨ α = -1) ∧ (β = 1 ∨ β = -1) ∧
      ((RoundsTo (R 0 0) α ∧ RoundsTo (R 0 1) 0 ∧ RoundsTo (R 1 0) 0 ∧ RoundsTo (R 1 1) β) ∨
       (RoundsTo (R 0 0) 0 ∧ RoundsTo (R 0 1) β ∧ RoundsTo (R 1 0) α ∧ RoundsTo (R 1 1) 0))) := by
    have hh := rounds_half
    have hs := rounds_sqrt
    have hh' : RoundsTo (-(1 / 2) : ℝ) 0 := by simpa using rounds_neg hh
    have hs' := rounds_neg hs
    rcases hc with ⟨hp, hq⟩ | ⟨hp, hq⟩
    · rw [r0, r1, hq]
      rcases hp with e | e <;> rw [e] <;> rcases he with rfl | rfl
      · exact ⟨1, 1, by simp, by simp, Or.inl ⟨h1, by simpa using hz, hz, by simpa using h1⟩⟩
      · exact ⟨1, -1, by simp, by simp, Or.inl ⟨h1, by simpa using hz, hz, by simpa using hm⟩⟩
      · exact ⟨-1, -1, by simp, by simp, Or.inl ⟨hm, by simpa using hz, hz, by simpa using hm⟩⟩
      · exact ⟨-1, 1, by simp, by simp, Or.inl ⟨hm, by simpa using hz, hz, by simpa using h1⟩⟩
    · rw [r0, r1]
      rcases hp with e | e <;> rcases hq with e' | e' <;> rw [e, e'] <;> rcases he with rfl | rfl <;> simp only [one_mul, neg_mul, neg_neg]
      · exact ⟨1, -1, by simp, by simp, Or.inr ⟨hh, hs', hs, hh⟩⟩
      · exact ⟨1, 1, by simp, by simp, Or.inr ⟨hh, hs, hs, hh'⟩⟩
      · exact ⟨-1, 1, by simp, by simp, Or.inr ⟨hh, hs, hs', hh⟩⟩
      · exact ⟨-1, -1, by simp, by simp, Or.inr ⟨hh, hs', hs', hh'⟩⟩
      · exact ⟨1, -1, by simp, by simp, Or.inr ⟨hh', hs', hs, hh'⟩⟩
      · exact ⟨1, 1, by simp, by simp, Or.inr ⟨hh', hs, hs, hh⟩⟩
      · exact ⟨-1, 1, by simp, by simp, Or.inr ⟨hh', hs, hs', hh'⟩⟩
      · exact ⟨-1, -1, by simp, by simp, Or.inr ⟨hh', hs', hs', hh⟩⟩
  obtain ⟨α, β, hα, hβ, ⟨k1, k2, k3, k4⟩ | ⟨k1, k2, k3, k4⟩⟩ := key
  · intro c
    fin_cases c
    · refine ⟨0, α, hα, fun i => ?_⟩
      fin_cases i
      · simpa using k1
      · simpa using k2
      · simpa [c0] using hz
    · refine ⟨1, β, hβ, fun i => ?_⟩
      fin_cases i
      · simpa using k3
      · simpa using k4
      · simpa [c1] using hz
    · exact third
  · intro c
    fin_cases c
    · refine ⟨1, α, hα, fun i => ?_⟩
      fin_cases i
      · simpa using k3
      · simpa using k4
      · simpa [c1] using hz
    · refine ⟨0, β, hβ, fun i => ?_⟩
      fin_cases i
      · simpa using k1
      · simpa using k2
      · simpa [c0] using hz
    · exact third

/-- Rounding errors, however small, may lead to the exit in the search for the arrow permutation of the rotation by sixty degrees. -/
theorem hexTurn_exit {δ : ℝ} (h0 : 0 < δ) : arrowPermN δ hexTurn (.error .sysExit) := by
  set e := min δ (1 / 4) with he
  have e0 : 0 < e := lt_min h0 (by norm_num)
  have e1 : e ≤ 1 / 4 := min_le_right _ _
  have e2 : e ≤ δ := min_le_left _ _
  have w1 : npRound (1 / 2 + e) = 1 := npRound_within (by rw [Int.cast_one, abs_lt]; constructor <;> linarith)
  have w2 : npRound (-(1 / 2 + e)) = -1 := npRound_within (by rw [Int.cast_neg, Int.cast_one, abs_lt]; constructor <;> linarith)
  have hz : npRound (0 : ℝ) = 0 := by exact_mod_cast npRound_int (K := ℝ) 0
  have h1 : npRound (1 : ℝ) = 1 := by exact_mod_cast npRound_int (K := ℝ) 1
  have h1' : npRound (-1 : ℝ) = -1 := by exact_mod_cast npRound_int (K := ℝ) (-1)
  have hs : npRound (√3 / 2 : ℝ) = 1 := npRound_of rounds_sqrt
  have hs' : npRound (-(√3 / 2) : ℝ) = -1 := npRound_of (rounds_neg rounds_sqrt)
  have hh : npRound (1 / 2 : ℝ) = 0 := npRound_of rounds_half
  have hh' : npRound (-(1 / 2) : ℝ) = 0 := by simpa using npRound_of (rounds_neg rounds_half)
  have hT : ∀ a : GVec, hexTurn.transpose.mulVec (fun k => (a k : ℝ)) = ![1 / 2 * a 0 + √3 / 2 * a 1, -(√3 / 2) * a 0 + 1 / 2 * a 1, a 2] := by
    intro a
    funext i
    fin_cases i <;> simp [hexTurn, Matrix.mulVec, dotProduct, Fin.sum_univ_three]
  unfold arrowPermN
  have one : ∀ (a b : GVec) (w : V3), (∀ i, |w i - (![1 / 2 * a 0 + √3 / 2 * a 1, -(√3 / 2) * a 0 + 1 / 2 * a 1, a 2] : V3) i| ≤ δ) → (∀ i, npRound (w i) = b i) →
      (do
        let w ← measV δ (hexTurn.transpose.mulVec (fun k => (a k : ℝ)))
        pure (fun i => npRound (w i) : GVec)) (.ok b) := by
    intro a b w hw hb
    refine Or.inr ⟨w, ⟨w, by rw [hT]; exact hw, rfl⟩, ?_⟩
    change Except.ok b = Except.ok _
    congr 1
    funext i
    exact (hb i).symm
  refine Or.inr ⟨[![1, -1, 0], ![-1, 1, 0], ![1, 0, 0], ![-1, 0, 0], ![0, 0, 1], ![0, 0, -1]], mapN_list ?_, ?_⟩
  · refine .cons (one _ _ ![1 / 2 + e, -(√3 / 2), 0] ?_ ?_) (.cons (one _ _ ![-(1 / 2 + e), √3 / 2, 0] ?_ ?_) (.cons (one _ _ ![√3 / 2, 1 / 2, 0] ?_ ?_)
      (.cons (one _ _ ![-(√3 / 2), -(1 / 2), 0] ?_ ?_) (.cons (one _ _ ![0, 0, 1] ?_ ?_) (.cons (one _ _ ![0, 0, -1] ?_ ?_) .nil)))))
    · intro i; fin_cases i <;> simp [abs_of_pos e0, e2, h0.le]
    · intro i; fin_cases i <;> simp only [Fin.zero_eta, Fin.mk_one, Fin.reduceFinMk, Matrix.cons_val] <;> assumption
    · intro i; fin_cases i <;> simp [abs_of_pos e0, e2, h0.le]
    · intro i; fin_cases i <;> simp only [Fin.zero_eta, Fin.mk_one, Fin.reduceFinMk, Matrix.cons_val] <;> assumption
    · intro i; fin_cases i <;> simp [h0.le]
    · intro i; fin_cases i <;> simp only [Fin.zero_eta, Fin.mk_one, Fin.reduceFinMk, Matrix.cons_val] <;> assumption
    · intro i; fin_cases i <;> simp [h0.le]
    · intro i; fin_cases i <;> simp only [Fin.zero_eta, Fin.mk_one, Fin.reduceFinMk, Matrix.cons_val] <;> assumption
    · intro i; fin_cases i <;> simp [h0.le]
    · intro i; fin_cases i <;> simp only [Fin.zero_eta, Fin.mk_one, Fin.reduceFinMk, Matrix.cons_val] <;> assumption
    · intro i; fin_cases i <;> simp [h0.le]
    · intro i; fin_cases i <;> simp only [Fin.zero_eta, Fin.mk_one, Fin.reduceFinMk, Matrix.cons_val] <;> assumption
  · have : fillTable 6 [![1, -1, 0], ![-1, 1, 0], ![1, 0, 0], ![-1, 0, 0], ![0, 0, 1], ![0, 0, -1]] 0 0 arrowDirs 0 (List.replicate 6 false) (List.replicate 6 0)
        = [2, 3, 0, 0, 4, 5] := by decide +kernel
    simp only [this]
    rfl

theorem hex_det : hexLat.det ≠ 0 := by
  rw [Matrix.det_fin_three]
  have := sqrt3_pos.ne'
  simp [hexLat]

theorem hexTurn_orth : hexTurn * hexTurn.transpose = 1 := by
  have h := sqrt3_sq
  ext i j
  fin_cases i <;> fin_cases j <;> simp [hexTurn, Matrix.mul_apply, Fin.sum_univ_three] <;> linarith

theorem hexTurn_maps {v : V3} (h : v ∈ ColLattice hexLat.transpose) : hexTurn.mulVec v ∈ ColLattice hexLat.transpose := by
  obtain ⟨x, y, z, h0, h1, h2⟩ := hex_mem h
  refine hex_of (x := -y) (y := x + y) (z := z) ?_ ?_ ?_ <;> simp [hexTurn, Matrix.mulVec, dotProduct, Fin.sum_univ_three, h0, h1, h2]
  · linear_combination -(y : ℝ) * sqrt3_sq
  · ring

theorem hexTurn_back {v : V3} (h : v ∈ ColLattice hexLat.transpose) : hexTurn.transpose.mulVec v ∈ ColLattice hexLat.transpose := by
  obtain ⟨x, y, z, h0, h1, h2⟩ := hex_mem h
  refine hex_of (x := x + y) (y := -x) (z := z) ?_ ?_ ?_ <;> simp [hexTurn, Matrix.mulVec, dotProduct, Fin.sum_univ_three, h0, h1, h2]
  · linear_combination (y : ℝ) * sqrt3_sq
  · ring

theorem hexTurn_lattice : hexTurn.mulVec '' ColLattice hexLat.transpose = ColLattice hexLat.transpose := by
  apply Set.Subset.antisymm
  · rintro _ ⟨v, hv, rfl⟩
    exact hexTurn_maps hv
  · intro v hv
    refine ⟨_, hexTurn_back hv, ?_⟩
    rw [Matrix.mulVec_mulVec, hexTurn_orth, Matrix.one_mulVec]

theorem hex_inv : hexLat⁻¹ = !![1, 0, 0; -(√3 / 3), 2 * √3 / 3, 0; 0, 0, 1 / 2] := by
  apply Matrix.inv_eq_right_inv
  have h : (√3 : ℝ) * √3 = 3 := Real.mul_self_sqrt (by norm_num)
  ext i j
  fin_cases i <;> fin_cases j <;> simp [hexLat, Matrix.mul_apply, Fin.sum_univ_three] <;> linarith

theorem hex_coarse {e : ℝ} (h0 : 0 < e) (h : e ≤ 1 / 10 ^ 3) : Coarse hexLat [0] 2 2 2 1 e := by
  have s1 := sqrt3_gt
  have s2 := sqrt3_lt
  have s3 := sqrt3_sq
  refine ⟨?_, ?_, ?_, ?_, by norm_num, by norm_num, h0, by linarith, by norm_num; linarith, by norm_num; linarith, by norm_num; linarith⟩
  · intro i j
    rw [abs_le]
    fin_cases i <;> fin_cases j <;> simp [hexLat] <;> first | linarith | (constructor <;> linarith)
  · intro i j
    rw [abs_le, hex_inv]
    fin_cases i <;> fin_cases j <;> simp <;> first | linarith | (constructor <;> linarith)
  · intro i j
    have k0 : ∃ z : ℤ, (0 : ℝ) = z / (2 : ℕ) := ⟨0, by simp⟩
    have k1 : ∃ z : ℤ, (1 : ℝ) = z / (2 : ℕ) := ⟨2, by norm_num⟩
    have k2 : ∃ z : ℤ, (1 / 2 : ℝ) = z / (2 : ℕ) := ⟨1, by norm_num⟩
    have k4 : ∃ z : ℤ, (4 : ℝ) = z / (2 : ℕ) := ⟨8, by norm_num⟩
    have e : hexLat * hexLat.transpose = !![1, 1 / 2, 0; 1 / 2, 1, 0; 0, 0, 4] := by
      ext i j
      fin_cases i <;> fin_cases j <;> simp [hexLat, Matrix.mul_apply, Fin.sum_univ_three] <;> linarith
    rw [e]
    fin_cases i <;> fin_cases j <;> first | exact k0 | exact k1 | exact k2 | exact k4
  · intro d hd
    rw [List.mem_singleton] at hd
    subst hd
    exact ⟨0, by funext i; simp [Matrix.mulVec, dotProduct]⟩

/-- C73. One case where rounding errors matter, however small they are: the hexagonal lattice with one atom, and any supercell that the rotation by sixty degrees maps to itself. In exact
arithmetic `get_sym_group` (without arrows) succeeds; with rounding errors of up to any `δ > 0` the program may exit, because the rotation has entries one half, which are rounded to
0 or to 1 as the errors fall. -/
theorem C73_hexagonal {eps δ : ℝ} (h0 : 0 < δ) (hlt : δ < eps) (he : eps ≤ 1 / 10 ^ 4) {H : M3 ℤ} (hH : H = 1 ∨ 2 ≤ H.det) (hH' : H.det < 2 ^ 24)
    (hn : (eps + δ) * H.det.toNat < 1)
    (hfix : ColLattice (hexTurn * (hexLat.transpose * H.map (fun x => (x : ℝ)))) = ColLattice (hexLat.transpose * H.map (fun x => (x : ℝ)))) :
    (∃ G, getSymGroup hexLat [0] H 3 eps false = some (.ok G) ∧ IsOpGroup (1 * H.det.toNat) 6 G) ∧
    getSymGroupN δ hexLat [0] H eps false (.error .sysExit) := by
  have hΛ := colLat_isSub hexLat.transpose
  have hc := hex_coarse (e := eps + δ) (by linarith) (by linarith)
  have N := noiseOk_coarse hex_det h0.le hlt hc
  have hd1 : 1 ≤ H.det := by
    rcases hH with rfl | h
    · rw [Matrix.det_one]
    · omega
  have hn0 : (0 : ℝ) ≤ (H.det.toNat : ℝ) := Nat.cast_nonneg _
  obtain ⟨G, pos, e, -, -, -, hG, -⟩ := sym_group_at hexLat hex_det [0] [0] (by simp)
    (List.Forall₂.cons ⟨by rw [sub_zero]; exact hΛ.zero, 0, fun i => ⟨le_refl _, one_pos⟩, by rw [Matrix.mulVec_zero]⟩ .nil)
    (by intro i j hi hj _; simp at hi hj; omega) H hd1 hH' (by
      intro R s _
      refine ⟨0, hΛ.zero, fun d hd => ?_⟩
      simp only [List.mem_singleton] at hd
      subst hd
      rw [Matrix.mulVec_zero, Matrix.mulVec_zero, add_zero]) false (by
      intro R s hs k a ha
      obtain ⟨h1, h2, -⟩ := (one_atom_sym hΛ.zero R s).mp hs
      exact turns_of_rows (hex_rows h1 h2) k a ha) 3 (by norm_num) (fineTol_coarse hex_det (N.coarse hc.atoms)) (by nlinarith)
  refine ⟨⟨G, e, hG⟩, ?_⟩
  exact N.symGroup_exit (by simp) hc.atoms hH hn ((one_atom_sym hΛ.zero hexTurn 0).mpr ⟨hexTurn_orth, hexTurn_lattice, hΛ.zero⟩) hfix (hexTurn_exit h0) e

/-- an instance: the primitive cell at the tolerance of the program, with the errors of double precision -/
example : (∃ G, getSymGroup hexLat [0] 1 3 (1 / 10 ^ 10) false = some (.ok G) ∧ IsOpGroup 1 6 G) ∧
    getSymGroupN (1 / 2 ^ 53) hexLat [0] 1 (1 / 10 ^ 10) false (.error .sysExit) := by
  have e : (1 : M3 ℤ).map (fun x => (x : ℝ)) = 1 := castM_one
  have := C73_hexagonal (eps := 1 / 10 ^ 10) (δ := 1 / 2 ^ 53) (H := 1) (by norm_num) (by norm_num) (by norm_num) (Or.inl rfl) (by simp) (by
    rw [Matrix.det_one]; norm_num) (by
    rw [e, Matrix.mul_one, colLat_image]
    exact hexTurn_lattice)
  simpa using this

end Phenum
