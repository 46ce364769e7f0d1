import Verif.Spec.Arrows
import Verif.Proof.ArrowHash
import Verif.Proof.Decor
/-
`add_arrows` returns one configuration per orbit.
-/
namespace Phenum
open Spec

/-- the arrows of a configuration, in site order -/
def arr (z : Config) : List Nat := z.filterMap (fun s => if s.1 < 0 then none else some s.1.toNat)

/-- erase one site -/
def erase1 (s : Site) : Site := if s.1 < 0 then s else (0, s.2)

theorem erase_eq (z : Config) : erase z = z.map erase1 := rfl

theorem erase1_neg (s : Site) : (erase1 s).1 < 0 ↔ s.1 < 0 := by
  unfold erase1; split
  · next h => simp [h]
  · next h => simp [h]

theorem erase1_snd (s : Site) : (erase1 s).2 = s.2 := by
  unfold erase1; split <;> rfl

theorem turn_erase (τ : List Nat) (s : Site) : erase1 (turn τ s) = erase1 s := by
  unfold turn
  split
  · rfl
  · next h =>
    unfold erase1
    rw [if_neg h, if_neg (by simp)]

theorem arr_length (z : Config) : (arr z).length = nArr z := by
  unfold arr nArr
  induction z with
  | nil => rfl
  | cons s z ih =>
    rw [List.filterMap_cons, List.countP_cons]
    by_cases h : s.1 < 0
    · simp [h, show ¬ 0 ≤ s.1 by omega] at ih ⊢; exact ih
    · simp [h, show 0 ≤ s.1 by omega] at ih ⊢; exact ih

theorem nArr_erase (z : Config) : nArr (erase z) = nArr z := by
  unfold nArr
  rw [erase_eq, List.countP_map]
  apply List.countP_congr
  intro s _
  simp only [Function.comp, ge_iff_le, decide_eq_true_eq]
  have := erase1_neg s
  omega

theorem arr_lt {dim : Nat} {z : Config} (h : ∀ s ∈ z, s.1 < dim) : ∀ v ∈ arr z, v < dim := by
  intro v hv
  unfold arr at hv
  obtain ⟨s, hs, h1⟩ := List.mem_filterMap.mp hv
  split at h1
  · cases h1
  · have := h s hs
    cases h1
    omega

theorem fillArrows_arr {col z : Config} (h : erase z = erase col) : fillArrows col (arr z) = .ok z := by
  induction col generalizing z with
  | nil =>
    rw [erase_eq, erase_eq] at h
    have : z = [] := by simpa using h
    subst this; rfl
  | cons s col ih =>
    cases z with
    | nil => simp [erase_eq] at h
    | cons t z =>
      rw [erase_eq, erase_eq, List.map_cons, List.map_cons, List.cons.injEq] at h
      have ih := ih (z := z) h.2
      have hneg : t.1 < 0 ↔ s.1 < 0 := by rw [← erase1_neg t, h.1, erase1_neg]
      rw [fillArrows.eq_def]
      simp only []
      by_cases hs : s.1 < 0
      · have ht := hneg.mpr hs
        have e : t = s := by
          have := h.1; unfold erase1 at this; rwa [if_pos hs, if_pos ht] at this
        have : arr (t :: z) = arr z := by unfold arr; rw [List.filterMap_cons, if_pos ht]
        rw [if_pos hs, this, ih, e]; rfl
      · have ht : ¬ t.1 < 0 := fun h' => hs (hneg.mp h')
        have : arr (t :: z) = t.1.toNat :: arr z := by unfold arr; rw [List.filterMap_cons, if_neg ht]
        rw [if_neg hs, this]
        simp only []
        rw [ih]
        have e2 : t.2 = s.2 := by rw [← erase1_snd t, h.1, erase1_snd]
        have e1 : ((t.1.toNat : Nat) : Int) = t.1 := by omega
        show Except.ok ((((t.1.toNat : Nat) : Int), s.2) :: z) = _
        rw [e1, ← e2]

theorem exists_fill (dim : Nat) (col : Config) (cfg : List Nat) (hl : cfg.length = nArr col)
    (hc : ∀ v ∈ cfg, v < dim) (hd : 0 < dim) : ∃ z, FillsIn dim col z ∧ arr z = cfg := by
  induction col generalizing cfg with
  | nil =>
    refine ⟨[], ⟨rfl, by simp⟩, ?_⟩
    have : cfg = [] := by simpa [nArr] using hl
    rw [this]; rfl
  | cons s col ih =>
    by_cases hs : s.1 < 0
    · have hn : nArr (s :: col) = nArr col := by
        unfold nArr; rw [List.countP_cons]; simp [show ¬ 0 ≤ s.1 by omega]
      obtain ⟨z, ⟨h1, h2⟩, h3⟩ := ih cfg (by omega) hc
      refine ⟨s :: z, ⟨?_, ?_⟩, ?_⟩
      · rw [erase_eq, erase_eq] at h1 ⊢; rw [List.map_cons, List.map_cons, h1]
      · intro t ht
        rcases List.mem_cons.mp ht with rfl | h
        · omega
        · exact h2 t h
      · unfold arr at h3 ⊢; rw [List.filterMap_cons, if_pos hs]; exact h3
    · have hn : nArr (s :: col) = nArr col + 1 := by
        unfold nArr; rw [List.countP_cons]; simp [show 0 ≤ s.1 by omega]
      cases cfg with
      | nil => simp at hl; omega
      | cons v cfg =>
        obtain ⟨z, ⟨h1, h2⟩, h3⟩ := ih cfg (by simp at hl; omega) (fun w hw => hc w (by simp [hw]))
        have hv := hc v (by simp)
        refine ⟨((v : Int), s.2) :: z, ⟨?_, ?_⟩, ?_⟩
        · rw [erase_eq, erase_eq] at h1 ⊢; rw [List.map_cons, List.map_cons, h1]
          congr 1
          unfold erase1
          rw [if_neg (by simp), if_neg hs]
        · intro t ht
          rcases List.mem_cons.mp ht with rfl | h
          · simpa using hv
          · exact h2 t h
        · unfold arr at h3 ⊢; rw [List.filterMap_cons, if_neg (by simp)]
          simp [h3]

theorem fill_inj {dim : Nat} {col z w : Config} (hz : FillsIn dim col z) (hw : FillsIn dim col w)
    (h : arr z = arr w) : z = w := by
  have h1 := fillArrows_arr hz.1
  rw [h, fillArrows_arr hw.1] at h1
  cases h1; rfl

theorem permuteArrows_eq (τ : List Nat) (z : Config) (h : ∀ s ∈ z, s.1 < τ.length) :
    permuteArrows τ (z.map (·.1)) = .ok (arr (z.map (turn τ))) := by
  induction z with
  | nil => rfl
  | cons s z ih =>
    have ih := ih (fun t ht => h t (by simp [ht]))
    have hs := h s (by simp)
    rw [List.map_cons, permuteArrows, ih]
    by_cases hn : s.1 < 0
    · rw [if_neg (by omega)]
      unfold arr
      have : turn τ s = s := by unfold turn; rw [if_pos hn]
      rw [List.map_cons, List.filterMap_cons, this, if_pos hn]
    · have hlt : s.1.toNat < τ.length := by omega
      rw [if_pos (by omega), pyGet_ok _ _ hlt]
      unfold arr
      have : turn τ s = (((τ[s.1.toNat] : Nat) : Int), s.2) := by
        unfold turn; rw [if_neg hn]; simp [hlt]
      rw [List.map_cons, List.filterMap_cons, this, if_neg (by simp)]
      simp [bind, Except.bind]

theorem gather_range {α : Type} (σ : List Nat) (z : List α) (hl : σ.length = z.length)
    (h : ∀ j ∈ σ, j < z.length) :
    (List.range z.length).mapM (fun j => do
      let c ← pyGet σ j
      pyGet z c) = .ok (permute σ z) := by
  have key : ∀ (pre suf : List Nat), σ = pre ++ suf →
      (List.range' pre.length suf.length).mapM (fun j => do
        let c ← pyGet σ j
        pyGet z c) = .ok (permute suf z) := by
    intro pre suf
    induction suf generalizing pre with
    | nil => intro _; rfl
    | cons c suf ih =>
      intro e
      have hc : c < z.length := h c (by rw [e]; simp)
      have := ih (pre ++ [c]) (by rw [e]; simp)
      rw [List.length_append, List.length_singleton] at this
      rw [List.length_cons, List.range'_succ, List.mapM_cons, this, permute_cons _ _ _ hc]
      have hg : pyGet σ pre.length = .ok c := by
        unfold pyGet; rw [e]; simp
      rw [hg]
      simp only [bind, Except.bind]
      rw [pyGet_ok _ _ hc]
      rfl
  have := key [] σ rfl
  rw [hl] at this
  rw [List.range_eq_range']
  exact this

theorem permHash_eq {z : Config} {g : Op} {dim : Nat} (h1 : g.1.Perm (List.range z.length))
    (h2 : g.2.length = dim) (h3 : ∀ s ∈ z, s.1 < dim) :
    permHash z g dim = .ok (ahash (arr (act g z)) dim) := by
  unfold permHash
  rw [gather_range g.1 z (perm_range_length h1) (perm_range_lt h1)]
  simp only [bind, Except.bind]
  rw [permuteArrows_eq]
  · rfl
  · intro s hs
    rw [h2]
    exact h3 s ((permute_perm _ _ h1).mem_iff.mp hs)

/-- all ops act by permutations -/
def OpsOk (n dim : Nat) (H : List Op) : Prop := ∀ g ∈ H, g.1.Perm (List.range n) ∧ g.2.Perm (List.range dim)

theorem arrowUnique_eq {dim : Nat} {col z : Config} (H : List Op) (hH : OpsOk col.length dim H)
    (hz : FillsIn dim col z) (oh : Nat) :
    arrowUnique col (arr z) oh dim H = .ok (decide (∀ g ∈ H, oh ≤ ahash (arr (act g z)) dim)) := by
  have hlen : z.length = col.length := by
    have := congrArg List.length hz.1
    simpa [erase_eq] using this
  induction H with
  | nil => simp [arrowUnique]
  | cons g H ih =>
    have hg := hH g (by simp)
    rw [arrowUnique, fillArrows_arr hz.1]
    simp only [bind, Except.bind]
    rw [permHash_eq (by rw [hlen]; exact hg.1) (perm_range_length hg.2) hz.2]
    simp only []
    by_cases hlt : ahash (arr (act g z)) dim < oh
    · rw [if_pos hlt]
      congr 1
      symm
      rw [decide_eq_false_iff_not]
      intro hc
      have := hc g (by simp)
      omega
    · rw [if_neg hlt, ih (fun h hh => hH h (by simp [hh]))]
      congr 1
      rw [decide_eq_decide]
      constructor
      · intro h g' hg'
        rcases List.mem_cons.mp hg' with rfl | h'
        · omega
        · exact h g' h'
      · intro h g' hg'
        exact h g' (by simp [hg'])

/-! ### the action -/

theorem act_length {g : Op} {z : Config} (h : g.1.Perm (List.range z.length)) : (act g z).length = z.length := by
  unfold act
  rw [List.length_map, permute_length _ _ (perm_range_lt h), perm_range_length h]

theorem erase_act (g : Op) (z : Config) : erase (act g z) = permute g.1 (erase z) := by
  unfold act
  rw [erase_eq, erase_eq, permute_map, List.map_map]
  apply List.map_congr_left
  intro s _
  exact turn_erase _ _

theorem act_lt {g : Op} {z : Config} {dim : Nat} (h1 : g.1.Perm (List.range z.length))
    (h2 : g.2.Perm (List.range dim)) (h3 : ∀ s ∈ z, s.1 < dim) : ∀ s ∈ act g z, s.1 < dim := by
  intro s hs
  unfold act at hs
  obtain ⟨t, ht, rfl⟩ := List.mem_map.mp hs
  have := h3 t ((permute_perm _ _ h1).mem_iff.mp ht)
  unfold turn
  split
  · exact this
  · have hlt : t.1.toNat < g.2.length := by rw [perm_range_length h2]; omega
    have := perm_range_lt h2 _ (List.getElem_mem hlt)
    simp [hlt]
    omega

theorem act_act {n dim : Nat} {g h : Op} {z : Config} (hn : z.length = n) (hg1 : g.1.Perm (List.range n))
    (hg2 : g.2.Perm (List.range dim)) (hh1 : h.1.Perm (List.range n)) (hh2 : h.2.Perm (List.range dim))
    (hz : ∀ s ∈ z, s.1 < dim) :
    act h (act g z) = act (permute h.1 g.1, permute g.2 h.2) z := by
  unfold act
  rw [permute_map, permute_permute _ _ _ (by rw [hn]; exact perm_range_lt hg1)
    (by rw [perm_range_length hg1]; exact perm_range_lt hh1), List.map_map]
  apply List.map_congr_left
  intro s hs
  have hs' : s ∈ z := by
    unfold permute at hs
    obtain ⟨a, -, ha⟩ := List.mem_filterMap.mp hs
    exact List.mem_of_getElem? ha
  have hlt := hz s hs'
  simp only [Function.comp]
  unfold turn
  by_cases hneg : s.1 < 0
  · simp [hneg]
  · have l1 : s.1.toNat < g.2.length := by rw [perm_range_length hg2]; omega
    have l2 : ∀ j ∈ g.2, j < h.2.length := by rw [perm_range_length hh2]; exact perm_range_lt hg2
    have e := permute_getElem g.2 h.2 l2 s.1.toNat l1
    have l3 : s.1.toNat < (permute g.2 h.2).length := by rw [permute_length _ _ l2]; exact l1
    simp only [if_neg hneg]
    rw [if_neg (by simp)]
    simp only [Int.toNat_natCast]
    congr 2
    simp only [List.getD_eq_getElem?_getD, List.getElem?_eq_getElem l1, List.getElem?_eq_getElem l3,
      Option.getD_some, e, List.getElem?_eq_getElem (l2 _ (List.getElem_mem l1))]

theorem act_one {n dim : Nat} {z : Config} (hn : z.length = n) (hz : ∀ s ∈ z, s.1 < dim) :
    act (List.range n, List.range dim) z = z := by
  unfold act
  simp only []
  rw [← hn, permute_range]
  conv_rhs => rw [← List.map_id z]
  apply List.map_congr_left
  intro s hs
  have := hz s hs
  unfold turn
  split
  · rfl
  · have l : s.1.toNat < dim := by omega
    simp only [List.getD_eq_getElem?_getD, List.getElem?_range l, Option.getD_some, id]
    ext
    · simp only []; omega
    · rfl

section
variable {n dim : Nat} {H : List Op} (hH : IsOpGroup n dim H)
include hH

theorem Spec.IsOpGroup.opsOk : OpsOk n dim H := fun g hg => ⟨hH.sites g hg, hH.arrows g hg⟩

theorem Spec.IsOpGroup.act_mul {g h : Op} (hg : g ∈ H) (hh : h ∈ H) {z : Config} (hn : z.length = n)
    (hz : ∀ s ∈ z, s.1 < dim) : act h (act g z) = act (permute h.1 g.1, permute g.2 h.2) z :=
  act_act hn (hH.sites g hg) (hH.arrows g hg) (hH.sites h hh) (hH.arrows h hh) hz

theorem Spec.IsOpGroup.act_length {g : Op} (hg : g ∈ H) {z : Config} (hn : z.length = n) : (act g z).length = n := by
  rw [Phenum.act_length (by rw [hn]; exact hH.sites g hg), hn]

theorem Spec.IsOpGroup.act_lt {g : Op} (hg : g ∈ H) {z : Config} (hn : z.length = n)
    (hz : ∀ s ∈ z, s.1 < dim) : ∀ s ∈ act g z, s.1 < dim :=
  Phenum.act_lt (by rw [hn]; exact hH.sites g hg) (hH.arrows g hg) hz

theorem Spec.IsOpGroup.opEquiv_symm {w z : Config} (hn : w.length = n) (hw : ∀ s ∈ w, s.1 < dim)
    (h : OpEquiv H w z) : OpEquiv H z w := by
  obtain ⟨g, hg, rfl⟩ := h
  obtain ⟨h, hh, h1, h2⟩ := hH.inv g hg
  refine ⟨h, hh, ?_⟩
  rw [hH.act_mul hg hh hn hw, h1, h2, act_one hn hw]

theorem Spec.IsOpGroup.opEquiv_trans {w z y : Config} (hn : w.length = n) (hw : ∀ s ∈ w, s.1 < dim)
    (h : OpEquiv H w z) (h' : OpEquiv H z y) : OpEquiv H w y := by
  obtain ⟨g, hg, rfl⟩ := h
  obtain ⟨h, hh, rfl⟩ := h'
  exact ⟨_, hH.mul g hg h hh, (hH.act_mul hg hh hn hw).symm⟩

theorem Spec.IsOpGroup.opEquiv_refl {w : Config} (hn : w.length = n) (hw : ∀ s ∈ w, s.1 < dim) : OpEquiv H w w :=
  ⟨_, hH.one, act_one hn hw⟩

theorem Spec.IsOpGroup.permGroup : IsPermGroup n (H.map (·.1)) where
  perm σ hσ := by
    obtain ⟨g, hg, rfl⟩ := List.mem_map.mp hσ
    exact hH.sites g hg
  one := List.mem_map.mpr ⟨_, hH.one, rfl⟩
  mul σ hσ τ hτ := by
    obtain ⟨g, hg, rfl⟩ := List.mem_map.mp hσ
    obtain ⟨h, hh, rfl⟩ := List.mem_map.mp hτ
    exact List.mem_map.mpr ⟨_, hH.mul g hg h hh, rfl⟩
  inv σ hσ := by
    obtain ⟨g, hg, rfl⟩ := List.mem_map.mp hσ
    obtain ⟨h, hh, h1, -⟩ := hH.inv g hg
    exact ⟨h.1, List.mem_map.mpr ⟨h, hh, rfl⟩, h1⟩

end

/-! ### the enumeration loop -/

/-- the configuration `z` is the smallest of its orbit -/
def AMin (dim : Nat) (H : List Op) (z : Config) : Prop :=
  ∀ g ∈ H, ahash (arr z) dim ≤ ahash (arr (act g z)) dim

instance (dim : Nat) (H : List Op) (z : Config) : Decidable (AMin dim H z) := by
  unfold AMin; infer_instance

/-- filling number `m` -/
def fillNo (col : Config) (dim m : Nat) : Config :=
  match fillArrows col (ainvhash m (nArr col) dim) with
  | .ok z => z
  | .error _ => []

theorem fillNo_spec {col : Config} {dim m : Nat} (hd : 0 < dim) (hm : m < dim ^ nArr col) :
    fillArrows col (ainvhash m (nArr col) dim) = .ok (fillNo col dim m) ∧ FillsIn dim col (fillNo col dim m) ∧
    arr (fillNo col dim m) = ainvhash m (nArr col) dim ∧ ahash (arr (fillNo col dim m)) dim = m := by
  obtain ⟨z, h1, h2⟩ := exists_fill dim col (ainvhash m (nArr col) dim)
    (by rw [ainvhash_eq _ _ _ hm, digitsB_length]) (by rw [ainvhash_eq _ _ _ hm]; exact digitsB_lt _ _ _ hd) hd
  have h3 := fillArrows_arr h1.1
  rw [h2] at h3
  have h4 : fillNo col dim m = z := by unfold fillNo; rw [h3]
  rw [h4]
  refine ⟨h3, h1, h2, ?_⟩
  rw [h2, ainvhash_eq _ _ _ hm, ahash_digitsB _ _ _ hm]

theorem fillNo_hash {col z : Config} {dim : Nat} (hd : 0 < dim) (hz : FillsIn dim col z) :
    ahash (arr z) dim < dim ^ nArr col ∧ fillNo col dim (ahash (arr z) dim) = z := by
  have hl : (arr z).length = nArr col := by
    rw [arr_length, ← nArr_erase, hz.1, nArr_erase]
  have h1 : ahash (arr z) dim < dim ^ nArr col := by
    rw [← hl]; exact ahash_lt _ _ (arr_lt hz.2)
  refine ⟨h1, ?_⟩
  have := fillNo_spec hd h1
  apply fill_inj this.2.1 hz
  rw [this.2.2.1, ainvhash_eq _ _ _ h1, ← hl, digitsB_ahash _ _ (arr_lt hz.2)]

/-- the exhaustive loop keeps exactly the minimal configurations -/
theorem addArrowsLoop_eq {dim : Nat} {col : Config} (hd : 0 < dim) (H : List Op) (hH : OpsOk col.length dim H)
    (tr : List Op) (ms : List Nat) (hms : ∀ m ∈ ms, m < dim ^ nArr col) (surv : List Config) :
    addArrowsLoop col H dim tr none none true (nArr col) ms surv =
      .ok (surv ++ (ms.map (fillNo col dim)).filter (fun z => decide (AMin dim H z))) := by
  induction ms generalizing surv with
  | nil => simp [addArrowsLoop]
  | cons m ms ih =>
    have ih := ih (fun m' hm' => hms m' (by simp [hm']))
    obtain ⟨h1, h2, h3, h4⟩ := fillNo_spec hd (hms m (by simp))
    rw [addArrowsLoop, ← h3, arrowUnique_eq H hH h2, fillArrows_arr h2.1]
    simp only [bind, Except.bind]
    have hdec : decide (∀ g ∈ H, m ≤ ahash (arr (act g (fillNo col dim m))) dim)
        = decide (AMin dim H (fillNo col dim m)) := by
      rw [decide_eq_decide]; unfold AMin; rw [h4]
    rw [hdec, List.map_cons, List.filter_cons]
    by_cases hm : AMin dim H (fillNo col dim m)
    · simp only [hm, decide_true, if_true, pure, Except.pure, Bool.and_self]
      rw [if_neg (by simp), ih]
      simp
    · simp only [hm, decide_false, Bool.false_eq_true, if_false]
      rw [ih]

theorem addArrows_eq {dim : Nat} {col : Config} (hd : 0 < dim) (H : List Op) (hH : OpsOk col.length dim H)
    (tr : List Op) :
    addArrows col H dim tr none none true =
      .ok (((List.range (dim ^ nArr col)).map (fillNo col dim)).filter (fun z => decide (AMin dim H z))) := by
  unfold addArrows
  simp only []
  rw [howManyArrows_fst, ahash_max _ _ hd, addArrowsLoop_eq hd H hH tr _ (by simp)]
  rfl

/-- the survivors -/
def arrowReps (col : Config) (dim : Nat) (H : List Op) : List Config :=
  ((List.range (dim ^ nArr col)).map (fillNo col dim)).filter (fun z => decide (AMin dim H z))

theorem mem_arrowReps {col z : Config} {dim : Nat} (hd : 0 < dim) (H : List Op) :
    z ∈ arrowReps col dim H ↔ FillsIn dim col z ∧ AMin dim H z := by
  unfold arrowReps
  rw [List.mem_filter, List.mem_map]
  constructor
  · rintro ⟨⟨m, hm, rfl⟩, h⟩
    rw [List.mem_range] at hm
    exact ⟨(fillNo_spec hd hm).2.1, by simpa using h⟩
  · rintro ⟨h1, h2⟩
    have := fillNo_hash hd h1
    exact ⟨⟨_, by rw [List.mem_range]; exact this.1, this.2⟩, by simpa using h2⟩

theorem nodup_arrowReps {col : Config} {dim : Nat} (hd : 0 < dim) (H : List Op) : (arrowReps col dim H).Nodup := by
  unfold arrowReps
  apply List.Nodup.filter
  apply List.Nodup.map_on _ List.nodup_range
  intro m hm m' hm' h
  rw [List.mem_range] at hm hm'
  rw [← (fillNo_spec hd hm).2.2.2, h, (fillNo_spec hd hm').2.2.2]

theorem exists_min_nat {α : Type} (f : α → Nat) (L : List α) (h : L ≠ []) : ∃ m ∈ L, ∀ x ∈ L, f m ≤ f x := by
  induction L with
  | nil => exact absurd rfl h
  | cons a L ih =>
    by_cases hL : L = []
    · subst hL; exact ⟨a, by simp, by simp⟩
    · obtain ⟨m, hm, hmin⟩ := ih hL
      by_cases hc : f a ≤ f m
      · refine ⟨a, by simp, ?_⟩
        intro x hx
        rcases List.mem_cons.mp hx with rfl | h
        · exact le_refl _
        · exact le_trans hc (hmin x h)
      · refine ⟨m, by simp [hm], ?_⟩
        intro x hx
        rcases List.mem_cons.mp hx with rfl | h
        · omega
        · exact hmin x h

theorem fillsIn_act {n dim : Nat} {H : List Op} (hH : IsOpGroup n dim H) {col z : Config} (hc : col.length = n)
    (hfix : ∀ g ∈ H, permute g.1 (erase col) = erase col) (hz : FillsIn dim col z) {g : Op} (hg : g ∈ H) :
    FillsIn dim col (act g z) := by
  have hlen : z.length = n := by
    have := congrArg List.length hz.1
    rw [← hc]; simpa [erase_eq] using this
  exact ⟨by rw [erase_act, hz.1, hfix g hg], hH.act_lt hg hlen hz.2⟩

theorem arrowReps_orbit {n dim : Nat} (hd : 0 < dim) {H : List Op} (hH : IsOpGroup n dim H) {col : Config}
    (hc : col.length = n) (hfix : ∀ g ∈ H, permute g.1 (erase col) = erase col) {z : Config}
    (hz : FillsIn dim col z) : ∃! w, w ∈ arrowReps col dim H ∧ OpEquiv H w z := by
  have hlen : ∀ {z : Config}, FillsIn dim col z → z.length = n := by
    intro z hz
    have := congrArg List.length hz.1
    rw [← hc]; simpa [erase_eq] using this
  obtain ⟨m, hm, hmin⟩ := exists_min_nat (fun w => ahash (arr w) dim) (H.map (fun g => act g z)) (by
    intro h
    have h1 := hH.one
    rw [List.map_eq_nil_iff] at h
    rw [h] at h1; cases h1)
  obtain ⟨g, hg, rfl⟩ := List.mem_map.mp hm
  have hgz := fillsIn_act hH hc hfix hz hg
  refine ⟨act g z, ⟨(mem_arrowReps hd H).mpr ⟨hgz, ?_⟩,
    hH.opEquiv_symm (hlen hz) hz.2 ⟨g, hg, rfl⟩⟩, ?_⟩
  · intro h hh
    rw [hH.act_mul hg hh (hlen hz) hz.2]
    exact hmin _ (List.mem_map.mpr ⟨_, hH.mul g hg h hh, rfl⟩)
  · rintro w ⟨hw, hwz⟩
    obtain ⟨hw1, hw2⟩ := (mem_arrowReps hd H).mp hw
    have hwg : OpEquiv H w (act g z) := hH.opEquiv_trans (hlen hw1) hw1.2 hwz ⟨g, hg, rfl⟩
    have hgw := hH.opEquiv_symm (hlen hw1) hw1.2 hwg
    obtain ⟨p, hp, ep⟩ := hwg
    obtain ⟨q, hq, eq⟩ := hgw
    have h1 := hw2 p hp
    rw [ep] at h1
    have h2 : ahash (arr (act g z)) dim ≤ ahash (arr w) dim := by
      have := hmin (act q (act g z)) (by
        rw [hH.act_mul hg hq (hlen hz) hz.2]
        exact List.mem_map.mpr ⟨_, hH.mul g hg q hq, rfl⟩)
      simpa only [eq] using this
    have e : ahash (arr w) dim = ahash (arr (act g z)) dim := by omega
    rw [← (fillNo_hash hd hw1).2, e, (fillNo_hash hd hgz).2]

end Phenum
