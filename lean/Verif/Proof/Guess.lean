import Verif.Proof.Sample
import Verif.Proof.Arrows
/-
`guess_and_check_brancher` and `add_arrows` with `small=True`.
-/
namespace Phenum
open Spec

/-- the labelling with number `d` -/
def labelNo (concs d : List ℕ) : List ℕ :=
  match invhash d concs concs.sum with
  | .ok x => x
  | .error _ => []

theorem labelNo_spec {concs d : List ℕ} (hd : IsRadixVec (coefficients concs (concs.sum : ℕ)) d) :
    invhash d concs concs.sum = .ok (labelNo concs d) ∧ IsLabelling concs (labelNo concs d) ∧ digits concs.length (labelNo concs d) = d := by
  obtain ⟨x, hx, hdig⟩ := exists_labelling hd
  have h := invhash_digits hx
  rw [hdig] at h
  have : labelNo concs d = x := by unfold labelNo; rw [h]
  rw [this]
  exact ⟨h, hx, hdig⟩

theorem guessUnique_true {config candidate : List ℕ} {visited : List (List ℕ)} {n : ℕ} (hn : config.length = n) (h1 : 1 ∈ config)
    (group : List Op) (hG : ∀ g ∈ group, g.1.Perm (List.range n)) : guessUnique config candidate visited group = .ok true := by
  induction group with
  | nil => rfl
  | cons g group ih =>
    have hg := hG g (by simp)
    have hp := permute_perm g.1 config (by rw [hn]; exact hg)
    rw [guessUnique, pyGather_eq _ _ (fun j hj => by
      have := hg.mem_iff.mp hj
      rw [List.mem_range] at this
      omega)]
    simp only [bind, Except.bind]
    rw [hash_eq_rank _ (hp.mem_iff.mpr h1)]
    simp only []
    rw [if_neg (by simp)]
    exact ih (fun g' h' => hG g' (by simp [h']))

/-- the superperiodic test of the code -/
def SuperG (a : GArgs) (x : List ℕ) : Prop :=
  ∃ t, 1 ≤ t ∧ t < a.cellsize ∧ ∃ g, a.group[t]? = some g ∧ permute g.1 x = x ∧ g.1 ≠ List.range a.cellsize

/-- what one draw contributes when there are no arrows -/
noncomputable def guessKeep (a : GArgs) (d : List ℕ) : List Config :=
  open Classical in
  if a.supers = false ∧ SuperG a (labelNo a.concs d) then [] else [(labelNo a.concs d).map (fun leaf => ((-1 : ℤ), leaf))]

/-- the conditions under which `enum_sys` calls the function -/
structure GuessCall (a : GArgs) : Prop where
  ne : a.concs ≠ []
  pos : ∀ c ∈ a.concs, 1 ≤ c
  grp : ∀ g ∈ a.group, g.1.Perm (List.range a.concs.sum)
  enough : a.supers = false → a.cellsize ≤ a.group.length
  draws : ∀ t, IsRadixVec (coefficients a.concs (a.concs.sum : ℕ)) (a.draw t)

theorem GuessCall.one_mem {a : GArgs} (h : GuessCall a) {x : List ℕ} (hx : IsLabelling a.concs x) : 1 ∈ x := by
  have hl : 0 < a.concs.length := List.length_pos_iff.mpr h.ne
  have := hx.2 0 hl
  have h2 := h.pos a.concs[0] (List.getElem_mem hl)
  exact List.count_pos_iff.mp (by simp at this; omega)

theorem guessBody_plain {a : GArgs} (h : GuessCall a) (hna : ∀ s ∈ a.decor, s.1 = -1) (t : ℕ) (v : List (List ℕ)) :
    guessBody a t (a.draw t) v = some (.ok (guessKeep a (a.draw t))) := by
  obtain ⟨h1, h2, -⟩ := labelNo_spec (h.draws t)
  have hn : (howManyArrows a.decor).1 = 0 := by rw [howManyArrows_fst, nArr_zero hna]
  unfold guessBody
  simp only [hn, h1, bind, Except.bind]
  rw [guessUnique_true (lab_len h2) (h.one_mem h2) _ h.grp]
  unfold guessKeep
  cases hs : a.supers with
  | true => simp
  | false =>
    obtain ⟨b, hb1, hb2⟩ := superLoop_eq (group := a.group) (cs := a.cellsize) (x := labelNo a.concs (a.draw t))
      (fun g hg j hj => by
        have := (h.grp g hg).mem_iff.mp hj
        rw [lab_len h2]; simpa using this)
      (List.range' 1 (a.cellsize - 1)) (fun t ht => by
        have := h.enough hs
        rw [List.mem_range'_1] at ht; omega)
    have hb3 : b = true ↔ SuperG a (labelNo a.concs (a.draw t)) := by
      rw [hb2]
      unfold SuperG
      constructor
      · rintro ⟨t, ht, h⟩
        rw [List.mem_range'_1] at ht
        exact ⟨t, by omega, by omega, h⟩
      · rintro ⟨t, h1, h2, h⟩
        exact ⟨t, by rw [List.mem_range'_1]; omega, h⟩
    simp only [Bool.not_false, decide_true, Bool.and_self, if_true, hb1]
    by_cases hsup : SuperG a (labelNo a.concs (a.draw t))
    · rw [hb3.mpr hsup]
      simp [hsup]
    · have : b = false := by
        cases b with
        | false => rfl
        | true => exact absurd (hb3.mp rfl) hsup
      rw [this]
      simp [hsup]

/-! ### arrows -/

theorem arrowFresh_eq {dim : ℕ} {col z : Config} (H : List Op) (hH : OpsOk col.length dim H)
    (hz : FillsIn dim col z) (oh : ℕ) (v : List ℕ) :
    arrowFresh col (arr z) oh dim v H = .ok (decide (∀ g ∈ H, ahash (arr (act g z)) dim ∈ v → ahash (arr (act g z)) dim = oh)) := by
  have hlen : z.length = col.length := by
    have := congrArg List.length hz.1
    simpa [erase_eq] using this
  induction H with
  | nil => simp [arrowFresh]
  | cons g H ih =>
    have hg := hH g (by simp)
    rw [arrowFresh, fillArrows_arr hz.1]
    simp only [bind, Except.bind]
    rw [permHash_eq (by rw [hlen]; exact hg.1) (perm_range_length hg.2) hz.2]
    simp only []
    by_cases hlt : ahash (arr (act g z)) dim ∈ v ∧ ahash (arr (act g z)) dim ≠ oh
    · rw [if_pos hlt]
      congr 1
      symm
      rw [decide_eq_false_iff_not]
      intro hc
      exact hlt.2 (hc g (by simp) hlt.1)
    · rw [if_neg hlt, ih (fun h hh => hH h (by simp [hh]))]
      congr 1
      rw [decide_eq_decide]
      constructor
      · intro h g' hg'
        rcases List.mem_cons.mp hg' with rfl | h'
        · intro hv
          by_contra hc
          exact hlt ⟨hv, hc⟩
        · exact h g' h'
      · intro h g' hg'
        exact h g' (by simp [hg'])

theorem permuteArrows_ok (τ : List ℕ) (l : List ℕ) (h : ∀ v ∈ l, v < τ.length) :
    ∃ r, permuteArrows τ (l.map (fun a : ℕ => (a : ℤ))) = .ok r := by
  induction l with
  | nil => exact ⟨[], rfl⟩
  | cons v l ih =>
    obtain ⟨r, hr⟩ := ih (fun w hw => h w (by simp [hw]))
    rw [List.map_cons, permuteArrows, if_pos (by omega)]
    rw [show ((v : ℤ)).toNat = v from Int.toNat_natCast v, pyGet_ok _ _ (h v (by simp))]
    simp only [bind, Except.bind, hr]
    exact ⟨_, rfl⟩

theorem smallSuper_ok {dim : ℕ} {z : Config} {cfg : List ℕ} (hc : ∀ v ∈ cfg, v < dim) (T : List Op)
    (hT : OpsOk z.length dim T) : smallSuper z cfg T = .ok () := by
  induction T with
  | nil => rfl
  | cons g T ih =>
    have hg := hT g (by simp)
    obtain ⟨r, hr⟩ := permuteArrows_ok g.2 cfg (fun v hv => by rw [perm_range_length hg.2]; exact hc v hv)
    rw [smallSuper, pyGather_eq _ _ (fun j hj => by
      have := hg.1.mem_iff.mp hj
      simpa using this)]
    simp only [bind, Except.bind, hr]
    exact ih (fun h hh => hT h (by simp [hh]))

/-- what one draw contributes in `add_arrows` with `small=True` -/
theorem smallBody_eq {dim : ℕ} (hd : 0 < dim) {col : Config} {H T : List Op} (hH : OpsOk col.length dim H) (hT : OpsOk col.length dim T)
    (supers : Bool) {m : ℕ} (hm : m < dim ^ nArr col) (v : List ℕ) :
    smallBody col H dim T supers (nArr col) m v = .ok (if (∀ g ∈ H, ahash (arr (act g (fillNo col dim m))) dim ∈ v →
      ahash (arr (act g (fillNo col dim m))) dim = m) then [fillNo col dim m] else []) := by
  obtain ⟨h1, h2, h3, h4⟩ := fillNo_spec hd hm
  have hlen : (fillNo col dim m).length = col.length := by
    have := congrArg List.length h2.1
    simpa [erase_eq] using this
  have hfr := arrowFresh_eq H hH h2 m v
  rw [h3] at hfr
  unfold smallBody
  simp only [hfr, bind, Except.bind, decide_eq_true_eq]
  split
  · rename_i hc
    rw [h1]
    simp only []
    cases supers with
    | true => rfl
    | false =>
      simp only [Bool.false_eq_true, if_false]
      rw [smallSuper_ok (dim := dim) (by rw [← h3]; exact arr_lt h2.2) T (by rw [hlen]; exact hT)]
  · rfl

/-- the state of the loop of `add_arrows` with `small=True` -/
structure SmallInv (col : Config) (dim : ℕ) (H : List Op) (max wanted : ℕ) (s : SampleState ℕ) : Prop where
  le : s.surv.length ≤ wanted
  from_visited : ∀ z ∈ s.surv, ∃ m ∈ s.visited, m < max ∧ z = fillNo col dim m
  apart : s.surv.Pairwise (fun z w => ∀ g ∈ H, act g w ≠ z)

theorem addArrowsSmall_spec {dim : ℕ} (hd : 0 < dim) {col : Config} {H T : List Op} (hH : OpsOk col.length dim H) (hT : OpsOk col.length dim T)
    (supers : Bool) (wanted : ℕ) {draw : ℕ → ℕ} (hdr : ∀ t, draw t < dim ^ nArr col - 1) {r : Py (List Config)}
    (hr : addArrowsSmall col H dim T supers wanted draw = some r) : ∃ L, r = .ok L ∧ L.length = wanted ∧
      (∀ z ∈ L, ∃ m, m < dim ^ nArr col - 1 ∧ z = fillNo col dim m) ∧ L.Pairwise (fun z w => ∀ g ∈ H, act g w ≠ z) := by
  have hmax : ahash (List.replicate (nArr col) (dim - 1)) dim = dim ^ nArr col - 1 := by
    have := ahash_max dim (nArr col) hd
    omega
  unfold addArrowsSmall at hr
  simp only [howManyArrows_fst, hmax] at hr
  rw [if_neg (by have := hdr 0; omega)] at hr
  have hlt : ∀ t, draw t < dim ^ nArr col := fun t => by have := hdr t; omega
  cases hl : sampleLoop draw (fun _ d visited => some (smallBody col H dim T supers (nArr col) d visited)) wanted with
  | none => rw [hl] at hr; simp at hr
  | some q =>
    obtain ⟨s, rfl, hinv, hc⟩ := pyWhileO_inv (Inv := SmallInv col dim H (dim ^ nArr col - 1) wanted) (by
      intro s s' hi hc hs'
      have hc' : s.surv.length < wanted := by simpa using hc
      unfold sampleStep at hs'
      split at hs'
      · have := Except.ok.inj (Option.some.inj hs')
        rw [← this]
        exact ⟨hi.le, hi.from_visited, hi.apart⟩
      · rename_i hnv
        simp only [smallBody_eq hd hH hT supers (hlt s.t)] at hs'
        have := Except.ok.inj (Option.some.inj hs')
        rw [← this]
        split
        · rename_i hfresh
          refine ⟨by simp; omega, ?_, ?_⟩
          · intro z hz
            rcases List.mem_append.mp hz with hz | hz
            · obtain ⟨m, h1, h2, h3⟩ := hi.from_visited z hz
              exact ⟨m, by simp [h1], h2, h3⟩
            · rw [List.mem_singleton] at hz
              exact ⟨draw s.t, by simp, hdr _, hz⟩
          · show List.Pairwise _ (s.surv ++ _)
            rw [List.pairwise_append]
            refine ⟨hi.apart, by simp, ?_⟩
            intro z hz w hw
            rw [List.mem_singleton] at hw
            subst hw
            intro g hg he
            obtain ⟨m, h1, h2, h3⟩ := hi.from_visited z hz
            have h4 := (fillNo_spec (col := col) hd (show m < dim ^ nArr col by omega)).2.2.2
            have h5 := hfresh g hg (by rw [he, h3, h4]; simp [h1])
            rw [he, h3, h4] at h5
            rw [h5] at h1
            exact hnv h1
        · refine ⟨by simpa using hi.le, ?_, by simpa using hi.apart⟩
          intro z hz
          obtain ⟨m, h1, h2, h3⟩ := hi.from_visited z (by simpa using hz)
          exact ⟨m, by simp [h1], h2, h3⟩) (by
      intro s e hi hc he
      unfold sampleStep at he
      split at he
      · simp at he
      · simp only [smallBody_eq hd hH hT supers (hlt s.t)] at he
        simp at he) ⟨by simp, by simp, List.Pairwise.nil⟩ hl
    rw [hl] at hr
    have := Option.some.inj hr
    refine ⟨s.surv, this.symm, ?_, ?_, hinv.apart⟩
    · have h1 := hinv.le
      have h2 : ¬ s.surv.length < wanted := by simpa using hc
      omega
    · intro z hz
      obtain ⟨m, -, h2, h3⟩ := hinv.from_visited z hz
      exact ⟨m, h2, h3⟩

end Phenum
