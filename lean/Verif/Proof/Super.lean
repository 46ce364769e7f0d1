import Verif.Proof.Subset
/-
Superperiodic filtering, and termination for all ways of calling `brancher`.
-/
namespace Phenum
open Spec

/-- some operation `1 <= t < cellsize` of the group that is not the list `0..cellsize-1` fixes `x` -/
def SuperX (a : BArgs) (x : List Nat) : Prop :=
  ∃ t, 1 ≤ t ∧ t < a.cellsize ∧ ∃ g, a.group[t]? = some g ∧ permute g.1 x = x ∧ g.1 ≠ List.range a.cellsize

theorem superLoop_eq {group : List Op} {cs : Nat} {x : List Nat} (hg : ∀ g ∈ group, ∀ j ∈ g.1, j < x.length)
    (ts : List Nat) (hts : ∀ t ∈ ts, t < group.length) :
    ∃ b, superLoop group cs x ts = .ok b ∧
      (b = true ↔ ∃ t ∈ ts, ∃ g, group[t]? = some g ∧ permute g.1 x = x ∧ g.1 ≠ List.range cs) := by
  induction ts with
  | nil => exact ⟨false, rfl, by simp⟩
  | cons t ts ih =>
    obtain ⟨b, h1, h2⟩ := ih (fun t' h => hts t' (by simp [h]))
    have ht := hts t (by simp)
    have hgt : group[t]? = some group[t] := List.getElem?_eq_getElem ht
    rw [superLoop, pyGet_ok _ _ ht]
    simp only [bind, Except.bind]
    rw [pyGather_eq _ _ (hg _ (List.getElem_mem ht))]
    simp only []
    by_cases hc : permute group[t].1 x = x ∧ group[t].1 ≠ List.range cs
    · rw [if_pos hc]
      exact ⟨true, rfl, by simp only [true_iff]; exact ⟨t, by simp, _, hgt, hc⟩⟩
    · rw [if_neg hc]
      refine ⟨b, h1, ?_⟩
      rw [h2]
      constructor
      · rintro ⟨t', ht', h⟩; exact ⟨t', by simp [ht'], h⟩
      · rintro ⟨t', ht', g, hgg, h⟩
        rcases List.mem_cons.mp ht' with rfl | h'
        · rw [hgt] at hgg; cases hgg; exact absurd h hc
        · exact ⟨t', h', g, hgg, h⟩

section
variable {a : BArgs} (hd : a.concs = findConcentrations a.decor) (hG : IsPermGroup a.concs.sum a.G)
  (hcs : a.cellsize ≤ a.group.length)
include hd hG hcs

theorem super_x {x : List Nat} (hx : IsLabelling a.concs x) :
    ∃ b, superLoop a.group a.cellsize x (List.range' 1 (a.cellsize - 1)) = .ok b ∧ (b = true ↔ SuperX a x) := by
  obtain ⟨b, h1, h2⟩ := superLoop_eq (group := a.group) (cs := a.cellsize) (x := x)
    (fun g hg j hj => by
      rw [lab_len hx]; exact hG.lt (List.mem_map.mpr ⟨g, hg, rfl⟩) j hj)
    (List.range' 1 (a.cellsize - 1)) (fun t ht => by
      rw [List.mem_range'_1] at ht; omega)
  refine ⟨b, h1, ?_⟩
  rw [h2]
  unfold SuperX
  constructor
  · rintro ⟨t, ht, h⟩
    rw [List.mem_range'_1] at ht
    exact ⟨t, by omega, by omega, h⟩
  · rintro ⟨t, h1, h2, h⟩
    exact ⟨t, by rw [List.mem_range'_1]; omega, h⟩

/-- the effect of considering a labelling when superperiodic structures are removed, no arrows and no subset -/
theorem recd_super (hs : a.supers = false) (hna : a.narrows = 0) (hsub : useSubset a = false)
    {ems : List Nat → List Config} (he : EmOk a ems) {x : List Nat} (hx : IsLabelling a.concs x)
    (hp : PC a.G a.k x) (E : RState) :
    (SuperX a x → recd a x E = .ok (1, E)) ∧
    (¬ SuperX a x → recd a x E =
      .ok (0, E.1 + (ems x).length, E.2.1, E.2.2 ++ pick (keepCandidate a E.2.1) E.1 (ems x))) := by
  obtain ⟨b, h1, h2⟩ := super_x hd hG hcs hx
  have hinv := invhash_dec hd hx
  constructor
  · intro h
    have hb := h2.mpr h
    subst hb
    unfold recd bRecord superStep
    simp only [hs, hna, hsub, Bool.not_false, Bool.true_and, decide_true, if_true, or_true, and_self]
    rw [hinv]
    simp only [bind, Except.bind]
    rw [h1]
    simp
  · intro h
    have hb : b = false := by
      cases b with
      | false => rfl
      | true => exact absurd (h2.mp rfl) h
    subst hb
    unfold recd bRecord superStep
    simp only [hs, hna, Bool.not_false, Bool.true_and, decide_true, if_true, or_true, and_self]
    rw [hinv]
    simp only [bind, Except.bind]
    rw [h1]
    simp only [Bool.false_eq_true, if_false, or_true, and_self, if_true]
    rw [he x hx hp, appendArrows_eq]

/-- exhaustive run with superperiodic filtering: the considered labellings are the canonical ones that do not lie
below a superperiodic node, and those of them that are not superperiodic are emitted -/
theorem brancher_super (hne : a.concs ≠ []) (hpos : ∀ c ∈ a.concs, 1 ≤ c) (hs : a.supers = false)
    (hna : a.narrows = 0) (hsub : useSubset a = false)
    {ems : List Nat → List Config} (he : EmOk a ems) :
    ∃ X : List (List Nat), X.Pairwise (fun x y => llt a.k (dg x) (dg y)) ∧
      (∀ x, x ∈ X ↔ Good a (SuperX a) x ∧ ¬ SuperX a x) ∧ brancher a = some (.ok (X.flatMap ems)) := by
  classical
  have hrec : RecOk a (SuperX a) (fun E => E.2.1 = a.subset) := by
    constructor
    intro x E hx hp hE
    have := recd_super hd hG hcs hs hna hsub he hx hp E
    by_cases h : SuperX a x
    · exact ⟨1, E, this.1 h, by simp [h], hE⟩
    · exact ⟨0, _, this.2 h, by simp [h], hE⟩
  obtain ⟨s, X, h1, h2, h3, h4, h5, h6, h7, h8⟩ := run_ok hne hpos hG hrec rfl
  have hrun : ∀ (X : List (List Nat)), (∀ x ∈ X, IsLabelling a.concs x ∧ PC a.G a.k x) → ∀ E : RState,
      ∃ c, runAll a X E = .ok (c, E.2.1, E.2.2 ++ (X.filter (fun x => ¬ SuperX a x)).flatMap ems) := by
    intro X
    induction X with
    | nil => intro _ E; exact ⟨E.1, by simp [runAll]⟩
    | cons x X ih =>
      intro hX E
      have hx := hX x (by simp)
      have hX' := fun y hy => hX y (List.mem_cons_of_mem _ hy)
      have := recd_super hd hG hcs hs hna hsub he hx.1 hx.2 E
      by_cases h : SuperX a x
      · obtain ⟨c, hc⟩ := ih hX' E
        refine ⟨c, ?_⟩
        rw [runAll, this.1 h]
        simp only [bind, Except.bind]
        rw [hc, List.filter_cons_of_neg (by simpa using h)]
      · obtain ⟨c, hc⟩ := ih hX' (E.1 + (ems x).length, E.2.1, E.2.2 ++ pick (keepCandidate a E.2.1) E.1 (ems x))
        refine ⟨c, ?_⟩
        rw [runAll, this.2 h]
        simp only [bind, Except.bind]
        have hk : keepCandidate a E.2.1 = fun _ => true := by
          funext c; unfold keepCandidate; rw [hsub]; rfl
        rw [hc, List.filter_cons_of_pos (by simpa using h), List.flatMap_cons, hk, pick_true, List.append_assoc]
  obtain ⟨c, hc⟩ := hrun X (fun x hx => ⟨(h5 x hx).1, (h5 x hx).2.1⟩) (1, a.subset, [])
  rw [hc] at h4
  have hb : fn a.C 0 ≤ fn s.branch 0 := by
    unfold bCond at h2
    rw [hsub] at h2
    simpa [fn] using h2
  refine ⟨X.filter (fun x => ¬ SuperX a x), h3.filter _, ?_, ?_⟩
  · intro x
    rw [List.mem_filter]
    constructor
    · rintro ⟨hx, h⟩; exact ⟨h5 x hx, by simpa using h⟩
    · rintro ⟨hx, h⟩; exact ⟨h7 hb x hx, by simpa using h⟩
  · unfold brancher
    rw [if_neg hne, h1]
    have := Except.ok.inj h4
    simp only [Prod.mk.injEq, List.nil_append] at this
    simp only []
    rw [← this.2.2]

omit hd hG hcs in
/-- with at most three species no node is skipped -/
theorem not_skip_three (hpos : ∀ c ∈ a.concs, 1 ≤ c) (hk : a.k ≤ 3) {sk : List Nat → Prop} {x : List Nat}
    (hx : IsLabelling a.concs x) : ¬ Skip a sk x := by
  rintro ⟨i, z, h1, h2, -, h4, h5, h6, -, h8⟩
  apply h8
  apply dg_ext h4 hx
  exact agree_full hpos h4 hx (by omega) h5

end

/-! ### `add_arrows` never fails -/

theorem arrowNotSuper_ok {n dim : Nat} (T : List Op) (hT : OpsOk n dim T) {z : Config} (hz : z.length = n)
    (hlt : ∀ s ∈ z, s.1 < dim) (cfg : List Nat) : ∃ b, arrowNotSuper z cfg T = .ok b := by
  induction T with
  | nil => exact ⟨true, rfl⟩
  | cons t T ih =>
    have ht := hT t (by simp)
    obtain ⟨b, hb⟩ := ih (fun g hg => hT g (by simp [hg]))
    rw [arrowNotSuper]
    by_cases hc : t.1 ≠ List.range t.1.length ∨ t.2 ≠ List.range t.2.length
    · simp only [if_pos hc, bind, Except.bind]
      rw [pyGather_eq t.1 (z.map (·.2)) (by rw [List.length_map, hz]; exact perm_range_lt ht.1),
        pyGather_eq t.1 (z.map (·.1)) (by rw [List.length_map, hz]; exact perm_range_lt ht.1)]
      simp only []
      rw [permute_map t.1 z (·.1), permuteArrows_eq t.2 (permute t.1 z) (by
        intro s hs
        rw [perm_range_length ht.2]
        exact hlt s ((permute_perm t.1 z (by rw [hz]; exact ht.1)).mem_iff.mp hs))]
      simp only []
      split
      · exact ⟨false, rfl⟩
      · exact ⟨b, hb⟩
    · simp only [if_neg hc, bind, Except.bind]
      exact ⟨b, hb⟩

theorem addArrowsLoop_ok {dim : Nat} {col : Config} (hd : 0 < dim) (H T : List Op) (hH : OpsOk col.length dim H)
    (hT : OpsOk col.length dim T) (acc : Option (Nat → Bool)) (nw : Option Nat) (sup : Bool) (ms : List Nat)
    (hms : ∀ m ∈ ms, m < dim ^ nArr col) (surv : List Config) :
    ∃ L, addArrowsLoop col H dim T acc nw sup (nArr col) ms surv = .ok L := by
  induction ms generalizing surv with
  | nil => exact ⟨surv, rfl⟩
  | cons m ms ih =>
    have ih := ih (fun m' hm' => hms m' (by simp [hm']))
    obtain ⟨h1, h2, h3, h4⟩ := fillNo_spec hd (hms m (by simp))
    have hlen : (fillNo col dim m).length = col.length := by
      have := congrArg List.length h2.1; simpa [erase_eq] using this
    obtain ⟨b, hb⟩ := arrowNotSuper_ok T hT hlen h2.2 (arr (fillNo col dim m))
    rw [addArrowsLoop.eq_def]
    simp only []
    rw [← h3, arrowUnique_eq H hH h2, fillArrows_arr h2.1]
    simp only [bind, Except.bind]
    split
    · cases sup
      · simp only [Bool.false_eq_true, if_false]
        rw [hb]
        simp only []
        repeat' (first | exact ih _ | exact ⟨_, rfl⟩ | split)
      · simp only [if_true, pure, Except.pure]
        repeat' (first | exact ih _ | exact ⟨_, rfl⟩ | split)
    · exact ih _

theorem addArrows_ok {dim : Nat} {col : Config} (hd : 0 < dim) (H T : List Op) (hH : OpsOk col.length dim H)
    (hT : OpsOk col.length dim T) (acc : Option (Nat → Bool)) (nw : Option Nat) (sup : Bool) :
    ∃ L, addArrows col H dim T acc nw sup = .ok L := by
  unfold addArrows
  simp only []
  rw [howManyArrows_fst, ahash_max _ _ hd]
  exact addArrowsLoop_ok hd H T hH hT acc nw sup _ (by simp) _

/-! ### termination -/

section
variable {a : BArgs} (hd : a.concs = findConcentrations a.decor) (hG : IsPermGroup a.concs.sum a.G)
include hd hG

theorem emit_ok (hna : (∀ s ∈ a.decor, s.1 = -1) ∨ (0 < a.dim ∧ ∀ g ∈ a.group, g.2.Perm (List.range a.dim)))
    {x : List Nat} (hx : IsLabelling a.concs x) (subset : Subset) (count : Nat) (surv : List Config) :
    ∃ r, emit a (digits a.k x) (a.group.filter (fun g => permute g.1 x = x)) subset count surv = .ok r := by
  have hx' := labx hd hx
  by_cases hn : a.narrows > 0
  · unfold emit
    rw [if_pos hn, invhash_dec hd hx]
    simp only [bind, Except.bind]
    unfold BArgs.colors
    rw [decorate_eq hx']
    simp only []
    rcases hna with h | ⟨h1, h2⟩
    · unfold BArgs.narrows at hn
      rw [howManyArrows_fst, nArr_zero h] at hn; omega
    · have hops : OpsOk (paint a.decor x).length a.dim a.group := by
        intro g hg
        rw [paint_length hx', ← findConcentrations_sum, ← hd]
        exact ⟨hG.perm _ (List.mem_map.mpr ⟨g, hg, rfl⟩), h2 g hg⟩
      obtain ⟨L, hL⟩ := addArrows_ok (col := paint a.decor x) h1
        (a.group.filter (fun g => permute g.1 x = x)) (a.group.take a.cellsize)
        (fun g hg => hops g (List.mem_of_mem_filter hg)) (fun g hg => hops g (List.mem_of_mem_take hg))
        (if a.accept then some (a.acceptArrow (digits a.k x)) else none) none a.supers
      rw [hL]
      exact ⟨_, rfl⟩
  · unfold emit
    rw [if_neg hn]
    split
    · rw [invhash_dec hd hx]
      simp only [bind, Except.bind]
      unfold BArgs.colors plain
      rw [mapM_colors a.decor (fun c => ((-1 : Int), c.2)) x (lab_range hx')]
      exact ⟨_, rfl⟩
    · exact ⟨_, rfl⟩

theorem recd_total (hna : (∀ s ∈ a.decor, s.1 = -1) ∨ (0 < a.dim ∧ ∀ g ∈ a.group, g.2.Perm (List.range a.dim)))
    (hcs : a.supers = false → a.cellsize ≤ a.group.length)
    {x : List Nat} (hx : IsLabelling a.concs x) (E : RState) (hE : useSubset a = true → ∃ l, E.2.1 = .list l) :
    ∃ u E', recd a x E = .ok (u, E') ∧
      (u = 0 ↔ ¬ (a.supers = false ∧ a.narrows = 0 ∧ SuperX a x)) ∧ (useSubset a = true → ∃ l, E'.2.1 = .list l) := by
  unfold recd bRecord
  have key : ∃ u sub c, superStep a { branch := digits a.concs.length x, i := 0, b0 := 0, order := [], stab := [], count := E.1, subset := E.2.1, survivors := E.2.2 } 0 = .ok (u, sub, c) ∧ (u = 0 ↔ ¬ (a.supers = false ∧ a.narrows = 0 ∧ SuperX a x)) ∧
      (useSubset a = true → ∃ l, sub = .list l) := by
    unfold superStep
    by_cases hc : (!a.supers && decide (a.narrows = 0)) = true
    · have hs : a.supers = false ∧ a.narrows = 0 := by simpa using hc
      rw [if_pos hc]
      obtain ⟨b, h1, h2⟩ := super_x hd hG (hcs hs.1) hx
      simp only [or_true, and_self, if_true]
      rw [invhash_dec hd hx]
      simp only [bind, Except.bind]
      rw [h1]
      simp only []
      cases b with
      | false =>
        refine ⟨0, E.2.1, E.1, rfl, ?_, hE⟩
        have : ¬ SuperX a x := fun h => by simpa using h2.mpr h
        simp [this]
      | true =>
        have hsx : SuperX a x := h2.mp rfl
        simp only [if_true]
        by_cases hu : useSubset a = true
        · obtain ⟨l, hl⟩ := hE hu
          rw [if_pos hu, hl]
          simp only []
          split
          · exact ⟨1, _, _, rfl, by simp [hs, hsx], fun _ => ⟨_, rfl⟩⟩
          · exact ⟨1, _, _, rfl, by simp [hs, hsx], fun _ => ⟨_, rfl⟩⟩
        · rw [if_neg hu]
          exact ⟨1, _, _, rfl, by simp [hs, hsx], fun h => absurd h hu⟩
    · rw [if_neg hc]
      refine ⟨0, E.2.1, E.1, rfl, ?_, hE⟩
      simp only [true_iff]
      rintro ⟨h1, h2, -⟩
      apply hc
      simp [h1, h2]
  obtain ⟨u, sub, c, h1, h2, h3⟩ := key
  rw [h1]
  simp only [bind, Except.bind]
  by_cases hu : u = 0
  · subst hu
    simp only [or_true, and_self, if_true]
    obtain ⟨r, hr⟩ := emit_ok hd hG hna hx sub c E.2.2
    rw [hr]
    exact ⟨0, _, rfl, h2, h3⟩
  · rw [if_neg (by simp [hu])]
    exact ⟨u, _, rfl, h2, h3⟩

end

end Phenum
