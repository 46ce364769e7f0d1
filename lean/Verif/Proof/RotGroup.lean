import Verif.Proof.RotPerms
import Verif.Proof.SNFLoop
/-
The generated permutations are those induced by the operations of the crystal, and form a group.
-/
namespace Phenum
open Spec

section
variable {K : Type} [Field K]

theorem Spec.Induces.congr {Λ : Set (Fin 3 → K)} (hΛ : IsSub Λ) {N : ℕ} {pos : ℕ → Fin 3 → K} {R : M3 K}
    {s t : Fin 3 → K} {σ : List ℕ} (h : Induces Λ N pos R s σ) (hst : s - t ∈ Λ) : Induces Λ N pos R t σ := by
  refine ⟨h.length, ?_⟩
  intro i j hi
  rw [h.entries i j hi]
  refine and_congr_right (fun _ => ?_)
  constructor
  · intro hu
    have := hΛ.add _ hu _ (hΛ.neg _ hst)
    rwa [show R.mulVec (pos j) + s - pos i + -(s - t) = R.mulVec (pos j) + t - pos i by abel] at this
  · intro hu
    have := hΛ.add _ hu _ hst
    rwa [show R.mulVec (pos j) + t - pos i + (s - t) = R.mulVec (pos j) + s - pos i by abel] at this

end

section
variable {K : Type} [Field K] [LinearOrder K] [IsStrictOrderedRing K]

theorem slat_eq_colLat (T : M3 K) (S : GVec) : SLat T S = ColLattice (T * castM (Matrix.diagonal S)) := by
  ext w
  constructor
  · rintro ⟨u, hu, rfl⟩
    choose y hy using hu
    refine ⟨y, ?_⟩
    rw [← Matrix.mulVec_mulVec, castM_mulVec]
    congr 1
    funext i
    simp [castV, Matrix.mulVec_diagonal, hy i]
  · rintro ⟨y, rfl⟩
    refine ⟨fun i => S i * y i, fun i => dvd_mul_right _ _, ?_⟩
    rw [← Matrix.mulVec_mulVec, castM_mulVec]
    congr 1
    funext i
    simp [castV, Matrix.mulVec_diagonal]

/-- the transformation used for a supercell -/
theorem transform_facts {A : M3 K} (hA : A.det ≠ 0) {L H B : M3 ℤ} (hL : IsUnit L.det) (hB : IsUnit B.det) {S : GVec}
    (hM : L * H * B = Matrix.diagonal S) (hH : H.det ≠ 0) :
    (castM L * A⁻¹ : M3 K).det ≠ 0 ∧ ColLattice (castM L * A⁻¹ : M3 K)⁻¹ = ColLattice A ∧
      SLat (castM L * A⁻¹ : M3 K)⁻¹ S = ColLattice (A * castM H) := by
  have hLc : (castM L : M3 K).det ≠ 0 := by
    rw [castM_det]
    rcases Int.isUnit_iff.mp hL with h | h <;> rw [h] <;> norm_num
  have hd : (castM L * A⁻¹ : M3 K).det ≠ 0 := by
    rw [Matrix.det_mul, Matrix.det_nonsing_inv, Ring.inverse_eq_inv]
    exact mul_ne_zero hLc (inv_ne_zero hA)
  have hT : (castM L * A⁻¹ : M3 K)⁻¹ = A * castM L⁻¹ := by
    rw [Matrix.mul_inv_rev, Matrix.nonsing_inv_nonsing_inv _ (isUnit_iff_ne_zero.mpr hA)]
    congr 1
    apply Matrix.inv_eq_right_inv
    rw [← castM_mul, Matrix.mul_nonsing_inv _ hL, castM_one]
  have habs : ∀ {X : M3 ℤ}, IsUnit X.det → |X.det| = 1 := by
    intro X hX
    rcases Int.isUnit_iff.mp hX with h | h <;> rw [h] <;> rfl
  refine ⟨hd, ?_, ?_⟩
  · rw [hT]
    refine ((colLat_eq hA).mpr ⟨L⁻¹, rfl, habs ?_⟩).symm
    rw [Matrix.det_nonsing_inv]
    exact (IsUnit.ringInverse hL)
  · rw [hT, slat_eq_colLat, mul_assoc, ← castM_mul, ← hM, ← mul_assoc, ← mul_assoc, Matrix.nonsing_inv_mul _ hL, one_mul,
      castM_mul, ← mul_assoc]
    have hAH : (A * castM H).det ≠ 0 := by
      rw [Matrix.det_mul, castM_det]
      exact mul_ne_zero hA (by exact_mod_cast hH)
    exact ((colLat_eq hAH).mpr ⟨B, rfl, habs hB⟩).symm

/-- every site of the crystal is equivalent to exactly one position -/
theorem sites_cover {T : M3 K} (hT : T.det ≠ 0) {S : GVec} (hS : ∀ i, 0 < S i) {d : List (Fin 3 → K)} {nd : ℕ}
    (hd : ∀ i j, i < nd → j < nd → d.getD i 0 - d.getD j 0 ∈ ColLattice T → i = j) (a : ℕ) (ha : a < nd)
    (l : Fin 3 → K) (hl : l ∈ ColLattice T) :
    ∃! k, k < nd * (memberList S).length ∧
      d.getD a 0 + l - sitePos T S d (memberList S).length k ∈ SLat T S := by
  have hap := sites_apart hT hS hd
  have hsub := slat_isSub T S
  set n := (memberList S).length with hn
  have hn0 : 0 < n := by rw [hn, memberList_length hS]; have := card_pos hS; omega
  obtain ⟨x, rfl⟩ := hl
  change ∃! k, k < nd * n ∧ d.getD a 0 + T.mulVec (castV x) - sitePos T S d n k ∈ SLat T S
  obtain ⟨k, hk⟩ := List.mem_iff_getElem?.mp ((mem_memberList hS).mpr (red_valid hS x))
  have hkn : k < n := (List.getElem?_eq_some_iff.mp hk).1
  have hlt : a * n + k < nd * n := by
    have := Nat.mul_le_mul_right n (Nat.succ_le_of_lt ha)
    rw [Nat.succ_mul] at this; omega
  have hmem : d.getD a 0 + T.mulVec (castV x) - sitePos T S d n (a * n + k) ∈ SLat T S := by
    have h1 : (a * n + k) / n = a := by
      rw [add_comm, Nat.add_mul_div_right _ _ hn0, Nat.div_eq_of_lt hkn, zero_add]
    have h2 : (a * n + k) % n = k := by
      rw [add_comm, Nat.add_mul_mod_self_right, Nat.mod_eq_of_lt hkn]
    have h3 : (memberList S).getD k 0 = red S x := by rw [List.getD_eq_getElem?_getD, hk]; rfl
    unfold sitePos
    rw [h1, h2, h3]
    have e : d.getD a 0 + T.mulVec (castV x) - (d.getD a 0 + T.mulVec (castV (red S x))) =
        T.mulVec (castV (x - red S x)) := by
      rw [castV_sub, Matrix.mulVec_sub]; abel
    rw [e, slat_mem_iff hT]
    exact fun i => red_dvd S x i
  refine ⟨a * n + k, ⟨hlt, hmem⟩, ?_⟩
  rintro k' ⟨hk', h'⟩
  apply hap k' _ hk' hlt
  have := hsub.add _ hmem _ (hsub.neg _ h')
  convert this using 1
  abel

end

section
variable {K : Type} [Field K] [LinearOrder K] [IsStrictOrderedRing K] [FloorRing K]

/-- what the theorems need about the operations -/
structure OpsGood (A : M3 K) (Λ : Set (Fin 3 → K)) (d : List (Fin 3 → K)) (nd : ℕ) (ops : List (CellOp K)) (arr : Bool) : Prop where
  det : ∀ op ∈ ops, op.rot.det ≠ 0
  lat : ∀ op ∈ ops, Keeps (ColLattice A) op.rot
  sup : ∀ op ∈ ops, Keeps Λ op.rot
  rounds : ∀ op ∈ ops, RoundsArrows op.rot
  arrows : arr = true → ∀ op ∈ ops, KeepsArrows op.rot
  orth : ∀ op ∈ ops, op.rot.transpose * op.rot = 1
  data : ∀ op ∈ ops, OpData A d nd op

/-- `g` is the pair of permutations induced by the operation `op` followed by the translation `t` -/
def InducedBy (Λ : Set (Fin 3 → K)) (N : ℕ) (pos : ℕ → Fin 3 → K) (arrows : Bool) (R : M3 K) (s : Fin 3 → K)
    (g : List ℕ × List ℕ) : Prop :=
  Induces Λ N pos R s g.1 ∧ if arrows then TurnsArrows R g.2 else g.2 = List.range 6

theorem rotationPerms_spec {A : M3 K} (hA : A.det ≠ 0) {L H B : M3 ℤ} (hL : IsUnit L.det) (hB : IsUnit B.det) {S : GVec}
    (hM : L * H * B = Matrix.diagonal S) (hS : ∀ i, 0 < S i) (hH : H.det ≠ 0) {n : ℕ}
    (hn : (n : ℤ) = S 0 * S 1 * S 2) {d : List (Fin 3 → K)} {nd : ℕ}
    (hd : ∀ i j, i < nd → j < nd → d.getD i 0 - d.getD j 0 ∈ ColLattice A → i = j) {ops : List (CellOp K)}
    {arrows : Bool}
    (hops : OpsGood A (ColLattice (A * castM H)) d nd ops arrows)
    (hone : ∃ op ∈ ops, op.rot = 1 ∧ op.shift = 0) {eps : K} (heps : 0 ≤ eps) :
    ∃ G, rotationPerms A n nd L S ops eps arrows = .ok G ∧
      (∀ g ∈ G, ∃ op ∈ ops, ∃ t ∈ ColLattice A, InducedBy (ColLattice (A * castM H)) (nd * n)
        (sitePos (castM L * A⁻¹)⁻¹ S d n) arrows op.rot (op.shift + t) g) ∧
      (∀ op ∈ ops, ∀ t ∈ ColLattice A, ∃ g ∈ G, InducedBy (ColLattice (A * castM H)) (nd * n)
        (sitePos (castM L * A⁻¹)⁻¹ S d n) arrows op.rot (op.shift + t) g) ∧
      n ≤ G.length ∧
      (∀ g ∈ G.take n, g.2 = List.range 6 ∧ ∃ t ∈ ColLattice A,
        Induces (ColLattice (A * castM H)) (nd * n) (sitePos (castM L * A⁻¹)⁻¹ S d n) 1 t g.1) ∧
      (∀ t ∈ ColLattice A, ∃ g ∈ G.take n,
        Induces (ColLattice (A * castM H)) (nd * n) (sitePos (castM L * A⁻¹)⁻¹ S d n) 1 t g.1) ∧
      ∃ f : CellOp K → List ℕ × List ℕ,
        (∀ op ∈ ops, Induces (ColLattice (A * castM H)) (nd * n) (sitePos (castM L * A⁻¹)⁻¹ S d n) op.rot op.shift (f op).1 ∧
          (f op).2.Perm (List.range 6) ∧ (KeepsArrows op.rot → TurnsArrows op.rot (f op).2)) ∧
        G = (cleanPerms arrows (ops.map f)).flatMap (fun r => ((memberList S).map (transPerm S (memberList S) n nd)).map
          (fun t => (permute r.1 t, r.2))) ∧
        (∀ t : GVec, Induces (ColLattice (A * castM H)) (nd * n) (sitePos (castM L * A⁻¹)⁻¹ S d n) 1
          ((castM L * A⁻¹)⁻¹.mulVec (castV t)) (transPerm S (memberList S) n nd t)) ∧
        (cleanPerms arrows (ops.map f)).head? = some (List.range (nd * n), List.range 6) := by
  obtain ⟨htd, hAL, hSL⟩ := transform_facts hA hL hB hM hH
  set tinv : M3 K := castM L * A⁻¹ with htinv
  set T : M3 K := tinv⁻¹ with hTdef
  have hTd : T.det ≠ 0 := by
    rw [hTdef, Matrix.det_nonsing_inv, Ring.inverse_eq_inv]
    exact inv_ne_zero htd
  have hinv : tinv * T = 1 := Matrix.mul_nonsing_inv _ (isUnit_iff_ne_zero.mpr htd)
  rw [← hSL] at hops ⊢
  rw [← hAL] at hd ⊢
  have hglen : (memberList S).length = n := by
    rw [memberList_length hS]; omega
  have hsub := slat_isSub T S
  have hap := sites_apart hTd hS hd
  have hlat : ∀ op ∈ ops, Keeps (ColLattice T) op.rot := by
    intro op ho; rw [hAL]; exact hops.lat op ho
  have hdata : ∀ op ∈ ops, OpData T d nd op := by
    intro op ho
    have := hops.data op ho
    exact ⟨this.row, by rw [hAL]; exact this.lat, this.img⟩
  -- the permutations of the operations
  have hop : ∀ op : CellOp K, ∃ p : List ℕ × List ℕ, op ∈ ops →
      (opPerm eps tinv T S (memberList S) n nd op = .ok p ∧
        Induces (SLat T S) (nd * n) (sitePos T S d n) op.rot op.shift p.1 ∧ p.2.Perm (List.range 6) ∧ (KeepsArrows op.rot → TurnsArrows op.rot p.2)) := by
    intro op
    by_cases ho : op ∈ ops
    · obtain ⟨tab, e1, h1⟩ := fillRows_induces hinv hS heps (hlat op ho) (hops.sup op ho) (hdata op ho) hd
      obtain ⟨dap, e2, h2, -⟩ := arrowPerm_rounds (hops.rounds op ho)
      rw [hglen] at e1 h1
      refine ⟨(tab, dap), fun _ => ⟨?_, h1, h2, fun hk => ?_⟩⟩
      swap
      · obtain ⟨dap', e3, h3⟩ := arrowPerm_ok hk (hops.orth op ho)
        rw [e2, Except.ok.injEq] at e3
        rw [e3]; exact h3
      unfold opPerm
      rw [e1, e2]; rfl
    · exact ⟨([], []), fun h => absurd h ho⟩
  choose f hf using hop
  have hmap : ops.mapM (opPerm eps tinv T S (memberList S) n nd) = .ok (ops.map f) :=
    mapM_ok_eq _ _ _ (fun op ho => (hf op ho).1)
  have hp1 : ∀ p ∈ ops.map f, p.1.Perm (List.range (nd * n)) := by
    intro p hp
    obtain ⟨op, ho, rfl⟩ := List.mem_map.mp hp
    refine (hf op ho).2.1.perm hsub ?_
    rw [← hglen]; exact hap
  have hp2 : ∀ p ∈ ops.map f, p.2.Perm (List.range 6) := by
    intro p hp
    obtain ⟨op, ho, rfl⟩ := List.mem_map.mp hp
    exact (hf op ho).2.2.1
  rw [hglen] at hap
  have hid : (List.range (nd * n), List.range 6) ∈ ops.map f := by
    obtain ⟨op, ho, h1, h2⟩ := hone
    refine List.mem_map.mpr ⟨op, ho, ?_⟩
    have a := (hf op ho).2.1
    have b := (hf op ho).2.2.2 (by rw [h1]; exact fun k a ha => ⟨k, a, ha, by rw [Matrix.one_mulVec]⟩)
    rw [h1, h2] at a
    rw [h1] at b
    apply Prod.ext
    · exact a.unique hsub (induces_one hsub hap) (by rw [sub_zero]; exact hsub.zero)
    · exact b.unique turns_one
  have hclean := cleanPerms_head hp1 hp2 hid arrows
  have hmemc := mem_cleanPerms (fun p hp => perm_range_length (hp1 p hp)) (fun p hp => perm_range_length (hp2 p hp))
    arrows
  set C := cleanPerms arrows (ops.map f) with hC
  have hCind : ∀ q ∈ C, ∃ op ∈ ops, InducedBy (SLat T S) (nd * n) (sitePos T S d n) arrows op.rot op.shift q := by
    intro q hq
    obtain ⟨p, hp, rfl⟩ := (hmemc q).mp hq
    obtain ⟨op, ho, rfl⟩ := List.mem_map.mp hp
    refine ⟨op, ho, ?_⟩
    cases arrows
    · exact ⟨(hf op ho).2.1, rfl⟩
    · exact ⟨(hf op ho).2.1, (hf op ho).2.2.2 (hops.arrows rfl op ho)⟩
  have hCall : ∀ op ∈ ops, ∃ q ∈ C, InducedBy (SLat T S) (nd * n) (sitePos T S d n) arrows op.rot op.shift q := by
    intro op ho
    refine ⟨_, (hmemc _).mpr ⟨f op, List.mem_map_of_mem ho, rfl⟩, ?_⟩
    cases arrows
    · exact ⟨(hf op ho).2.1, rfl⟩
    · exact ⟨(hf op ho).2.1, (hf op ho).2.2.2 (hops.arrows rfl op ho)⟩
  have htr : ∀ t : GVec, Induces (SLat T S) (nd * n) (sitePos T S d n) 1 (T.mulVec (castV t))
      (transPerm S (memberList S) n nd t) := by
    intro t
    have := transPerm_induces hTd hS hd t
    rw [hglen] at this; exact this
  have htlen : ∀ t ∈ transPerms S (memberList S) n nd, t.length = nd * n := by
    intro t ht
    rw [transPerms_eq] at ht
    obtain ⟨x, -, rfl⟩ := List.mem_map.mp ht
    exact (htr x).length
  have hcomp := composePerms_ok (transPerms S (memberList S) n nd) htlen C (by
    intro q hq
    obtain ⟨op, -, h, -⟩ := hCind q hq
    exact h.lt)
  have hrot : rotationPerms A n nd L S ops eps arrows =
      .ok (C.flatMap (fun r => (transPerms S (memberList S) n nd).map (fun t => (permute r.1 t, r.2)))) := by
    rw [← hcomp]
    unfold rotationPerms
    rw [if_neg hA]
    simp only
    rw [← htinv, if_neg htd, ← hTdef, if_neg (by simp [hglen]), hmap]
    rfl
  -- first block
  obtain ⟨C', hCC⟩ : ∃ C', C = (List.range (nd * n), List.range 6) :: C' := by
    cases hc : C with
    | nil => rw [hc] at hclean; simp at hclean
    | cons a l => rw [hc] at hclean; simp at hclean; exact ⟨l, by rw [hclean]⟩
  have hblen : (transPerms S (memberList S) n nd).length = n := by rw [transPerms_eq, List.length_map, hglen]
  have htake : (C.flatMap (fun r => (transPerms S (memberList S) n nd).map (fun t => (permute r.1 t, r.2)))).take n =
      (transPerms S (memberList S) n nd).map (fun t => (t, List.range 6)) := by
    rw [hCC, List.flatMap_cons, List.take_left' (by rw [List.length_map, hblen])]
    apply List.map_congr_left
    intro t ht
    simp only
    rw [← htlen t ht, permute_range]
  refine ⟨_, hrot, ?_, ?_, ?_, ?_, ?_, f, fun op ho => (hf op ho).2, by rw [transPerms_eq], htr, hclean⟩
  · intro g hg
    obtain ⟨q, hq, hg⟩ := List.mem_flatMap.mp hg
    obtain ⟨t, ht, rfl⟩ := List.mem_map.mp hg
    rw [transPerms_eq] at ht
    obtain ⟨x, hx, rfl⟩ := List.mem_map.mp ht
    obtain ⟨op, ho, h1, h2⟩ := hCind q hq
    refine ⟨op, ho, op.rot.mulVec (T.mulVec (castV x)), (hlat op ho).fwd _ ⟨x, rfl⟩, ?_, h2⟩
    have := (htr x).comp hsub h1 (hops.sup op ho)
    rwa [mul_one, add_comm] at this
  · intro op ho t ht
    obtain ⟨q, hq, h1, h2⟩ := hCall op ho
    have hR : ∃ y, op.rot.mulVec (T.mulVec (castV y)) = t := by
      have hu : op.rot.mulVec (op.rot⁻¹.mulVec t) = t := by
        rw [Matrix.mulVec_mulVec, Matrix.mul_nonsing_inv _ (isUnit_iff_ne_zero.mpr (hops.det op ho)), Matrix.one_mulVec]
      obtain ⟨y, hy⟩ := (hlat op ho).bwd (op.rot⁻¹.mulVec t) (by rw [hu]; exact ht)
      exact ⟨y, by rw [show T.mulVec (castV y) = op.rot⁻¹.mulVec t from hy, hu]⟩
    obtain ⟨y, hy⟩ := hR
    refine ⟨(permute q.1 (transPerm S (memberList S) n nd (red S y)), q.2), ?_, ?_, h2⟩
    · refine List.mem_flatMap.mpr ⟨q, hq, List.mem_map.mpr ⟨_, ?_, rfl⟩⟩
      rw [transPerms_eq]
      exact List.mem_map_of_mem ((mem_memberList hS).mpr (red_valid hS y))
    · have := (htr (red S y)).comp hsub h1 (hops.sup op ho)
      rw [mul_one] at this
      refine this.congr hsub ?_
      rw [← hy]
      have e : op.rot.mulVec (T.mulVec (castV (red S y))) + op.shift - (op.shift + op.rot.mulVec (T.mulVec (castV y))) =
          -(op.rot.mulVec (T.mulVec (castV (y - red S y)))) := by
        rw [castV_sub, Matrix.mulVec_sub, Matrix.mulVec_sub]; abel
      rw [e]
      apply hsub.neg
      apply (hops.sup op ho).fwd
      rw [slat_mem_iff hTd]
      exact fun i => red_dvd S y i
  · rw [hCC, List.flatMap_cons, List.length_append, List.length_map, hblen]; omega
  · intro g hg
    rw [htake] at hg
    obtain ⟨t, ht, rfl⟩ := List.mem_map.mp hg
    rw [transPerms_eq] at ht
    obtain ⟨x, hx, rfl⟩ := List.mem_map.mp ht
    exact ⟨rfl, _, ⟨x, rfl⟩, htr x⟩
  · rintro _ ⟨y, rfl⟩
    rw [htake]
    refine ⟨(transPerm S (memberList S) n nd (red S y), List.range 6), ?_, ?_⟩
    · rw [transPerms_eq]
      exact List.mem_map.mpr ⟨_, List.mem_map_of_mem ((mem_memberList hS).mpr (red_valid hS y)), rfl⟩
    · refine (htr (red S y)).congr hsub ?_
      have e : T.mulVec (castV (red S y)) - T.mulVec (fun i => (y i : K)) = -T.mulVec (castV (y - red S y)) := by
        rw [castV_sub, Matrix.mulVec_sub]
        change _ - T.mulVec (castV y) = _
        abel
      rw [e]
      apply hsub.neg
      rw [slat_mem_iff hTd]
      exact fun i => red_dvd S y i

/-- induced permutations of a space group form a group -/
theorem induced_group {A : M3 K} {Λ : Set (Fin 3 → K)} (hΛ : IsSub Λ) {N : ℕ}
    {pos : ℕ → Fin 3 → K} (hap : Apart Λ N pos) {d : List (Fin 3 → K)} {nd : ℕ} {ops : List (CellOp K)}
    (hG : IsSpaceGroup (ColLattice A) (ops.map (fun o => (o.rot, o.shift)))) {arrows : Bool} (hops : OpsGood A Λ d nd ops arrows)
    {G : List (List ℕ × List ℕ)}
    (h1 : ∀ g ∈ G, ∃ op ∈ ops, ∃ t ∈ ColLattice A, InducedBy Λ N pos arrows op.rot (op.shift + t) g)
    (h2 : ∀ op ∈ ops, ∀ t ∈ ColLattice A, ∃ g ∈ G, InducedBy Λ N pos arrows op.rot (op.shift + t) g) :
    IsOpGroup N 6 G := by
  have hone : ∃ op ∈ ops, op.rot = 1 ∧ op.shift = 0 := by
    obtain ⟨op, ho, e⟩ := List.mem_map.mp hG.one
    rw [Prod.mk.injEq] at e
    exact ⟨op, ho, e⟩
  have key : ∀ R s g g', InducedBy Λ N pos arrows R s g → InducedBy Λ N pos arrows R s g' → g = g' := by
    intro R s g g' a b
    apply Prod.ext
    · exact a.1.unique hΛ b.1 (by rw [sub_self]; exact hΛ.zero)
    · have a2 := a.2; have b2 := b.2
      cases arrows
      · simp only [Bool.false_eq_true, if_false] at a2 b2; rw [a2, b2]
      · simp only [if_true] at a2 b2; exact a2.unique b2
  have idem : permute (List.range 6) (List.range 6) = List.range 6 := by
    have := permute_range (List.range 6); rwa [List.length_range] at this
  have kcomp : ∀ R s Q t g h, Keeps Λ Q → InducedBy Λ N pos arrows R s g → InducedBy Λ N pos arrows Q t h →
      InducedBy Λ N pos arrows (Q * R) (Q.mulVec s + t) (permute h.1 g.1, permute g.2 h.2) := by
    intro R s Q t g h hQ a b
    refine ⟨a.1.comp hΛ b.1 hQ, ?_⟩
    have a2 := a.2; have b2 := b.2
    cases arrows
    · simp only [Bool.false_eq_true, if_false] at a2 b2 ⊢; rw [a2, b2, idem]
    · simp only [if_true] at a2 b2 ⊢; exact a2.comp b2
  have kone : InducedBy Λ N pos arrows 1 0 (List.range N, List.range 6) := by
    refine ⟨induces_one hΛ hap, ?_⟩
    cases arrows
    · rfl
    · exact turns_one
  have kcongr : ∀ R s t g, InducedBy Λ N pos arrows R s g → s = t → InducedBy Λ N pos arrows R t g := by
    rintro R s t g h rfl; exact h
  refine ⟨?_, ?_, ?_, ?_, ?_⟩
  · intro g hg
    obtain ⟨op, ho, t, ht, h, -⟩ := h1 g hg
    exact h.perm hΛ hap
  · intro g hg
    obtain ⟨op, ho, t, ht, -, h⟩ := h1 g hg
    cases arrows
    · simp only [Bool.false_eq_true, if_false] at h; rw [h]
    · simp only [if_true] at h; exact h.perm (hops.det op ho)
  · obtain ⟨op, ho, e1, e2⟩ := hone
    obtain ⟨g, hg, h⟩ := h2 op ho 0 (colLat_zero A)
    rw [e1, e2, add_zero] at h
    rw [← key _ _ _ _ h kone]; exact hg
  · intro g hg h hh
    obtain ⟨op, ho, t, ht, hi⟩ := h1 g hg
    obtain ⟨op', ho', t', ht', hi'⟩ := h1 h hh
    have hc := kcomp _ _ _ _ _ _ (hops.sup op' ho') hi hi'
    obtain ⟨r, hr, e1, e2⟩ := hG.mul _ (List.mem_map_of_mem ho') _ (List.mem_map_of_mem ho)
    obtain ⟨op3, ho3, rfl⟩ := List.mem_map.mp hr
    simp only at e1 e2
    obtain ⟨g3, hg3, hi3⟩ := h2 op3 ho3 (op'.rot.mulVec t + t' + (op'.rot.mulVec op.shift + op'.shift - op3.shift))
      (colLat_add (colLat_add ((hops.lat op' ho').fwd _ ht) ht') e2)
    rw [e1] at hi3
    have := key _ _ _ _ (kcongr _ _ _ _ hi3 (by rw [Matrix.mulVec_add]; abel)) hc
    rw [← this]; exact hg3
  · intro g hg
    obtain ⟨op, ho, t, ht, hi⟩ := h1 g hg
    obtain ⟨r, hr, e1, e2⟩ := hG.inv _ (List.mem_map_of_mem ho)
    obtain ⟨op', ho', rfl⟩ := List.mem_map.mp hr
    simp only at e1 e2
    obtain ⟨h, hh, hi'⟩ := h2 op' ho' (-(op'.rot.mulVec t) - (op'.rot.mulVec op.shift + op'.shift))
      (colLat_sub (colLat_neg ((hops.lat op' ho').fwd _ ht)) e2)
    refine ⟨h, hh, ?_⟩
    have hc := kcomp _ _ _ _ _ _ (hops.sup op' ho') hi hi'
    rw [e1] at hc
    have := key _ _ _ _ (kcongr _ _ _ _ hc (by rw [Matrix.mulVec_add]; abel)) kone
    rw [Prod.mk.injEq] at this
    exact this

end

end Phenum
