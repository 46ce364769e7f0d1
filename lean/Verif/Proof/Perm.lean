import Verif.Proof.Canon
/-
What one call of `perm` returns, and existence of canonical representatives.
-/
namespace Phenum
open Spec

section
variable {concs : List Nat} {G : List (List Nat)} (hG : IsPermGroup concs.sum G)
  (hpos : ∀ c ∈ concs, 1 ≤ c)

theorem one_mem_levelRow (hpos : ∀ c ∈ concs, 1 ≤ c) {y : List Nat} (hy : IsLabelling concs y) {i : Nat}
    (hi : i < concs.length) : 1 ∈ levelRow i y := by
  apply List.count_pos_iff.mp
  rw [levelRow_count, hy.2 i hi]
  exact hpos _ (List.getElem_mem _)

theorem hash_level (hpos : ∀ c ∈ concs, 1 ≤ c) {y : List Nat} (hy : IsLabelling concs y) {i : Nat}
    (hi : i < concs.length) : hash (levelRow i y) = .ok (dg y i) := by
  rw [hash_eq_rank _ (one_mem_levelRow hpos hy hi)]; rfl

/-- the `order` table after a pass over the operations -/
def markOrder (c : Nat) (x : List Nat) (L : List Op) (order : List Int) : List Int :=
  L.foldl (fun o g => if c < dg (permute g.1 x) 0 then o.set (dg (permute g.1 x) 0) (-1) else o) order

theorem markOrder_length (c : Nat) (x : List Nat) (L : List Op) (order : List Int) :
    (markOrder c x L order).length = order.length := by
  unfold markOrder
  induction L generalizing order with
  | nil => rfl
  | cons g L ih =>
    rw [List.foldl_cons, ih]
    split <;> simp

theorem markOrder_neg (c : Nat) (x : List Nat) (L : List Op) (order : List Int) (j : Nat)
    (hj : j < order.length) :
    (markOrder c x L order)[j]? = some (-1) ↔
      order[j]? = some (-1) ∨ ∃ g ∈ L, dg (permute g.1 x) 0 = j ∧ c < j := by
  unfold markOrder
  induction L generalizing order with
  | nil => simp
  | cons g L ih =>
    rw [List.foldl_cons, ih _ (by split <;> simpa using hj)]
    by_cases hc : c < dg (permute g.1 x) 0
    · rw [if_pos hc]
      by_cases e : dg (permute g.1 x) 0 = j
      · constructor
        · intro _; exact Or.inr ⟨g, by simp, e, by omega⟩
        · intro _; left; rw [e]; simp [hj]
      · rw [List.getElem?_set_ne e]
        constructor
        · rintro (h | ⟨g', hg', h⟩)
          · exact Or.inl h
          · exact Or.inr ⟨g', by simp [hg'], h⟩
        · rintro (h | ⟨g', hg', h⟩)
          · exact Or.inl h
          · rcases List.mem_cons.mp hg' with rfl | hg'
            · exact absurd h.1 e
            · exact Or.inr ⟨g', hg', h⟩
    · rw [if_neg hc]
      constructor
      · rintro (h | ⟨g', hg', h⟩)
        · exact Or.inl h
        · exact Or.inr ⟨g', by simp [hg'], h⟩
      · rintro (h | ⟨g', hg', h⟩)
        · exact Or.inl h
        · rcases List.mem_cons.mp hg' with rfl | hg'
          · omega
          · exact Or.inr ⟨g', hg', h⟩

include hG hpos

theorem perm0Loop_eq {x : List Nat} (hx : IsLabelling concs x) (hk : 0 < concs.length)
    (L st ast : List Op) (order : List Int) (hL : ∀ g ∈ L, g.1 ∈ G)
    (hmin : ∀ g ∈ L, dg x 0 ≤ dg (permute g.1 x) 0) :
    perm0Loop (dg x 0) x L st order ast = .ok ⟨0, st ++ L.filter (fun g => dg (permute g.1 x) 0 = dg x 0),
      markOrder (dg x 0) x L order, ast ++ L.filter (fun g => permute g.1 x = x)⟩ := by
  induction L generalizing st ast order with
  | nil => simp [perm0Loop, markOrder]
  | cons g L ih =>
    have hg := hL g (by simp)
    have hm := hmin g (by simp)
    have hy := lab_permute hG hx hg
    rw [perm0Loop, pyGather_eq _ _ (by rw [lab_len hx]; exact hG.lt hg)]
    simp only [bind, Except.bind]
    have hrow : (permute g.1 x).map (fun v => if v = 1 then 1 else 0) = levelRow 0 (permute g.1 x) := by
      rw [levelRow_full _ _ (fun v hv => (hy.1 v hv).1)]
    rw [hrow, hash_level hpos hy hk]
    simp only []
    have ih' := fun st ast order => ih st ast order (fun a ha => hL a (List.mem_cons_of_mem _ ha))
      (fun a ha => hmin a (List.mem_cons_of_mem _ ha))
    by_cases hlt : dg x 0 < dg (permute g.1 x) 0
    · have hne : permute g.1 x ≠ x := by intro e; rw [e] at hlt; omega
      rw [if_pos hlt, if_neg (fun e => hne e.symm), ih', List.filter_cons_of_neg (by simp; omega),
        List.filter_cons_of_neg (by simpa using hne)]
      simp only [markOrder, List.foldl_cons, if_pos hlt]
    · have he : dg (permute g.1 x) 0 = dg x 0 := by omega
      rw [if_neg hlt, if_neg (by omega), ih', List.filter_cons_of_pos (by simpa using he)]
      simp only [markOrder, List.foldl_cons, if_neg hlt, List.append_assoc, List.singleton_append]
      by_cases e : permute g.1 x = x
      · rw [if_pos e.symm, List.filter_cons_of_pos (by simpa using e)]; simp
      · rw [if_neg (fun h => e h.symm), List.filter_cons_of_neg (by simpa using e)]

theorem permLoop_eq {x : List Nat} (hx : IsLabelling concs x) {i : Nat} (hi : i < concs.length)
    (L st ast : List Op) (order : List Int) (hL : ∀ g ∈ L, g.1 ∈ G) :
    permLoop i (dg x i) x L st order ast =
      if ∀ g ∈ L, dg x i ≤ dg (permute g.1 x) i then
        .ok ⟨0, st ++ L.filter (fun g => cut (i + 1) (permute g.1 x) = cut (i + 1) x), order,
          ast ++ L.filter (fun g => permute g.1 x = x)⟩
      else .ok ⟨1, [], order, []⟩ := by
  induction L generalizing st ast with
  | nil => simp [permLoop]
  | cons g L ih =>
    have hg := hL g (by simp)
    have hy := lab_permute hG hx hg
    rw [permLoop, pyGather_eq _ _ (by rw [lab_len hx]; exact hG.lt hg)]
    simp only [bind, Except.bind]
    rw [show levelMask i (cutAbove i (permute g.1 x)) = levelRow i (permute g.1 x) from
      levelMask_cut i _ (lab_ge hy), hash_level hpos hy hi]
    simp only []
    have ih' := fun st ast => ih st ast (fun a ha => hL a (List.mem_cons_of_mem _ ha))
    by_cases hgt : dg x i > dg (permute g.1 x) i
    · rw [if_pos hgt, if_neg]
      intro h; have := h g (by simp); omega
    · rw [if_neg hgt, ih']
      have hall : (∀ a ∈ g :: L, dg x i ≤ dg (permute a.1 x) i) ↔
          (∀ a ∈ L, dg x i ≤ dg (permute a.1 x) i) := by
        constructor
        · exact fun h a ha => h a (List.mem_cons_of_mem _ ha)
        · intro h a ha
          rcases List.mem_cons.mp ha with rfl | ha
          · omega
          · exact h a ha
      by_cases hc : ∀ a ∈ L, dg x i ≤ dg (permute a.1 x) i
      · rw [if_pos hc, if_pos (hall.mpr hc)]
        congr 2
        · by_cases e : cutAbove i (permute g.1 x) = cutAbove i x
          · have e' : cut (i + 1) (permute g.1 x) = cut (i + 1) x := e
            rw [if_pos e, List.filter_cons_of_pos (by simpa using e')]; simp
          · have e' : ¬ cut (i + 1) (permute g.1 x) = cut (i + 1) x := e
            rw [if_neg e, List.filter_cons_of_neg (by simpa using e')]
        · by_cases e : permute g.1 x = x
          · rw [if_pos e.symm, List.filter_cons_of_pos (by simpa using e)]; simp
          · rw [if_neg (fun h => e h.symm), List.filter_cons_of_neg (by simpa using e)]
      · rw [if_neg hc, if_neg (fun h => hc (hall.mp h))]

end

/-- stabiliser (as a sublist of the operations) of the digits below level `m` -/
def stabOf (L : List Op) (m : Nat) (x : List Nat) : List Op :=
  L.filter (fun g => (List.range m).all (fun j => dg (permute g.1 x) j = dg x j))

theorem mem_stabOf (L : List Op) (m : Nat) (x : List Nat) (g : Op) :
    g ∈ stabOf L m x ↔ g ∈ L ∧ Agree m (dg (permute g.1 x)) (dg x) := by
  unfold stabOf Agree
  simp

section
variable {concs : List Nat} {L : List Op} (hG : IsPermGroup concs.sum (L.map (·.1)))

theorem mem_sites {g : Op} (h : g ∈ L) : g.1 ∈ L.map (·.1) := List.mem_map_of_mem h

include hG

theorem stabOf_congr {x y : List Nat} (hx : IsLabelling concs x) (hy : IsLabelling concs y) {m : Nat}
    (hm : m ≤ concs.length) (h : Agree m (dg x) (dg y)) : stabOf L m x = stabOf L m y := by
  apply List.filter_congr
  intro g hg
  have := agree_permute hG hx hy hm h (mem_sites hg)
  rw [Bool.eq_iff_iff]
  simp only [List.all_eq_true, List.mem_range, decide_eq_true_eq]
  constructor
  · intro h2 j hj; rw [← this j hj, h2 j hj, h j hj]
  · intro h2 j hj; rw [this j hj, h2 j hj, h j hj]

theorem one_mem_stabOf {x : List Nat} (hx : IsLabelling concs x) (m : Nat) :
    ∃ g ∈ stabOf L m x, permute g.1 x = x := by
  obtain ⟨g, hg, h⟩ := List.mem_map.mp hG.one
  have e : permute g.1 x = x := by rw [h, ← lab_len hx, permute_range]
  exact ⟨g, (mem_stabOf _ _ _ _).mpr ⟨hg, by rw [e]; exact Agree.refl _ _⟩, e⟩

omit hG in
theorem filter_fix_stabOf (x : List Nat) (m : Nat) :
    (stabOf L m x).filter (fun g => permute g.1 x = x) = L.filter (fun g => permute g.1 x = x) := by
  unfold stabOf
  rw [List.filter_filter]
  apply List.filter_congr
  intro g _
  by_cases e : permute g.1 x = x
  · simp [e]
  · simp [e]

theorem stabOf_succ {x : List Nat} (hx : IsLabelling concs x) {m : Nat} (hm : m < concs.length) :
    (stabOf L m x).filter (fun g => cut (m + 1) (permute g.1 x) = cut (m + 1) x) = stabOf L (m + 1) x := by
  unfold stabOf
  rw [List.filter_filter]
  apply List.filter_congr
  intro g hg
  have := cut_iff (lab_permute hG hx (mem_sites hg)) hx m hm
  rw [Bool.eq_iff_iff]
  simp only [Bool.and_eq_true, List.all_eq_true, List.mem_range, decide_eq_true_eq]
  constructor
  · rintro ⟨h1, -⟩; exact this.mp h1
  · intro h; exact ⟨this.mpr h, fun j hj => h j (by omega)⟩

end

/-- Result of `perm` on the first level. -/
theorem perm_zero {concs : List Nat} {L : List Op} (hG : IsPermGroup concs.sum (L.map (·.1)))
    (hpos : ∀ c ∈ concs, 1 ≤ c) {x : List Nat} (hx : IsLabelling concs x) (hk : 0 < concs.length)
    (stab : List Op) (order : List Int) (hmin : PC (L.map (·.1)) 1 x) :
    perm (digits concs.length x) concs concs.sum 0 L stab order =
      .ok ⟨0, stabOf L 1 x, markOrder (dg x 0) x L order, L.filter (fun g => permute g.1 x = x)⟩ := by
  unfold perm
  rw [invhash_digits hx]
  simp only [bind, Except.bind]
  have : pyGet (digits concs.length x) 0 = .ok (dg x 0) := by
    unfold pyGet; rw [digits_getElem? _ _ _ hk]; rfl
  rw [this]
  simp only [if_true]
  rw [perm0Loop_eq hG hpos hx hk L [] [] order (fun g hg => mem_sites hg) ?_]
  · simp only [List.nil_append]
    congr 2
    unfold stabOf
    apply List.filter_congr
    intro g _
    simp [List.range_succ]
  · intro g hg
    by_contra hc
    exact hmin g.1 (mem_sites hg) ⟨0, by omega, fun j hj => by omega, by omega⟩

/-- Result of `perm` on a later level, given the stabiliser of the previous levels. -/
theorem perm_succ {concs : List Nat} {L : List Op} (hG : IsPermGroup concs.sum (L.map (·.1)))
    (hpos : ∀ c ∈ concs, 1 ≤ c) {x : List Nat} (hx : IsLabelling concs x) {i : Nat}
    (hi : i < concs.length) (h0 : i ≠ 0) (order : List Int) (hpc : PC (L.map (·.1)) i x) :
    (PC (L.map (·.1)) (i + 1) x → perm (digits concs.length x) concs concs.sum i L (stabOf L i x) order =
      .ok ⟨0, stabOf L (i + 1) x, order, L.filter (fun g => permute g.1 x = x)⟩) ∧
    (¬ PC (L.map (·.1)) (i + 1) x → perm (digits concs.length x) concs concs.sum i L (stabOf L i x) order =
      .ok ⟨1, [], order, []⟩) := by
  have hget : pyGet (digits concs.length x) i = .ok (dg x i) := by
    unfold pyGet; rw [digits_getElem? _ _ _ hi]; rfl
  have hiff : PC (L.map (·.1)) (i + 1) x ↔ ∀ g ∈ stabOf L i x, dg x i ≤ dg (permute g.1 x) i := by
    rw [PC_succ hpc]
    constructor
    · intro h g hg
      have := (mem_stabOf _ _ _ _).mp hg
      exact h g.1 (mem_sites this.1) this.2
    · intro h σ hσ ha
      obtain ⟨g, hg, rfl⟩ := List.mem_map.mp hσ
      exact h g ((mem_stabOf _ _ _ _).mpr ⟨hg, ha⟩)
  obtain ⟨g1, hg1, hfix⟩ := one_mem_stabOf hG hx i
  have hmain : perm (digits concs.length x) concs concs.sum i L (stabOf L i x) order =
      if (stabOf L i x).length = 1 then .ok ⟨0, stabOf L i x, order, stabOf L i x⟩
      else permLoop i (dg x i) x (stabOf L i x) [] order [] := by
    unfold perm
    rw [invhash_digits hx]
    simp only [bind, Except.bind]
    rw [hget]
    simp only [if_neg h0]
    by_cases hl : (stabOf L i x).length = 1
    · rw [if_pos hl, if_pos hl]
    · have : 0 < (stabOf L i x).length := List.length_pos_of_mem hg1
      rw [if_neg hl, if_neg hl, if_pos (by omega)]
  rw [hmain]
  by_cases hl : (stabOf L i x).length = 1
  · rw [if_pos hl]
    obtain ⟨g, hg⟩ := List.length_eq_one_iff.mp hl
    have hgg : g1 = g := by rw [hg] at hg1; simpa using hg1
    subst hgg
    have hp : PC (L.map (·.1)) (i + 1) x := by
      rw [hiff, hg]; intro g hg'
      rw [List.mem_singleton] at hg'; subst hg'; rw [hfix]
    refine ⟨fun _ => ?_, fun h => absurd hp h⟩
    have e1 : stabOf L (i + 1) x = stabOf L i x := by
      rw [← stabOf_succ hG hx hi, hg]; simp [hfix]
    have e2 : L.filter (fun g => permute g.1 x = x) = stabOf L i x := by
      rw [← filter_fix_stabOf x i, hg]; simp [hfix]
    rw [e1, e2]
  · rw [if_neg hl, permLoop_eq hG hpos hx hi _ _ _ _
      (fun g hg => mem_sites ((mem_stabOf _ _ _ _).mp hg).1)]
    constructor
    · intro hp
      rw [if_pos (hiff.mp hp), stabOf_succ hG hx hi, filter_fix_stabOf]; rfl
    · intro hp
      rw [if_neg (fun h => hp (hiff.mpr h))]

/-- Every non-empty list of digit functions has a lexicographically least element. -/
theorem exists_llt_min (k : Nat) (L : List (List Nat)) (h : L ≠ []) :
    ∃ m ∈ L, ∀ y ∈ L, ¬ llt k (dg y) (dg m) := by
  induction L with
  | nil => exact absurd rfl h
  | cons a L ih =>
    by_cases hL : L = []
    · refine ⟨a, by simp, ?_⟩
      intro y hy
      subst hL
      rw [List.mem_singleton] at hy; subst hy; exact llt.irrefl
    · obtain ⟨m, hm, hmin⟩ := ih hL
      by_cases hc : llt k (dg a) (dg m)
      · refine ⟨a, by simp, ?_⟩
        intro y hy
        rcases List.mem_cons.mp hy with rfl | hy
        · exact llt.irrefl
        · exact fun h' => hmin y hy (h'.trans hc)
      · refine ⟨m, by simp [hm], ?_⟩
        intro y hy
        rcases List.mem_cons.mp hy with rfl | hy
        · exact hc
        · exact hmin y hy

/-- Every labelling is equivalent to a canonical one. -/
theorem exists_canon {concs : List Nat} {G : List (List Nat)} (hG : IsPermGroup concs.sum G) {x : List Nat}
    (hx : IsLabelling concs x) :
    ∃ y, IsLabelling concs y ∧ PC G concs.length y ∧ Equiv G x y := by
  obtain ⟨m, hm, hmin⟩ := exists_llt_min concs.length (G.map (fun σ => permute σ x)) (by
    intro h
    have := hG.one
    rw [List.map_eq_nil_iff] at h
    rw [h] at this; cases this)
  obtain ⟨σ, hσ, rfl⟩ := List.mem_map.mp hm
  refine ⟨_, lab_permute hG hx hσ, ?_, σ, hσ, rfl⟩
  intro τ hτ
  rw [hG.permute_mul hσ hτ x (lab_len hx)]
  exact hmin _ (List.mem_map.mpr ⟨_, hG.mul σ hσ τ hτ, rfl⟩)

end Phenum
