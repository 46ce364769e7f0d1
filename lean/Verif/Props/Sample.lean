import Verif.Proof.Guess
import Verif.Props.Super
import Mathlib.Tactic.IntervalCases
/-
C35: random sampling of structures (`guess_and_check_brancher`).
-/
namespace Phenum
open Spec

/-- The first `cellsize` operations are distinct translations, the identity first. -/
structure TranslationsFirst (n : ℕ) (group : List Op) (cellsize : ℕ) : Prop where
  first : (group[0]?).map (·.1) = some (List.range n)
  distinct : ((group.take cellsize).map (·.1)).Nodup

theorem superG_iff {a : GArgs} (h : GuessCall a) (ht : TranslationsFirst a.concs.sum a.group a.cellsize) {x : List ℕ}
    (hx : x.length = a.concs.sum) :
    SuperG a x ↔ ∃ τ ∈ (a.group.take a.cellsize).map (·.1), τ ≠ List.range x.length ∧ permute τ x = x := by
  unfold SuperG
  rw [hx]
  constructor
  · rintro ⟨t, h1, h2, g, hg, h3, h4⟩
    have hgt : (a.group.take a.cellsize)[t]? = some g := by rw [List.getElem?_take, if_pos h2, hg]
    refine ⟨g.1, List.mem_map.mpr ⟨g, List.mem_of_getElem? hgt, rfl⟩, ?_, h3⟩
    intro e
    have h0 := ht.first
    cases hg0 : a.group[0]? with
    | none => rw [hg0] at h0; simp at h0
    | some g0 =>
      rw [hg0] at h0
      simp only [Option.map_some, Option.some.injEq] at h0
      have hdis := ht.distinct
      rw [List.nodup_iff_getElem?_ne_getElem?] at hdis
      apply hdis 0 t (by omega) (by
        have := (List.getElem?_eq_some_iff.mp hgt).1
        simpa using this)
      rw [List.getElem?_map, List.getElem?_map, hgt, List.getElem?_take, if_pos (by omega), hg0]
      simp [h0, e]
  · rintro ⟨τ, hτ, h1, h2⟩
    obtain ⟨g, hg, rfl⟩ := List.mem_map.mp hτ
    obtain ⟨t, ht', hgt⟩ := List.mem_iff_getElem.mp hg
    have hgt' : (a.group.take a.cellsize)[t]? = some g := by rw [List.getElem?_eq_getElem ht', hgt]
    have htc : t < a.cellsize := by
      rw [List.length_take] at ht'; omega
    rw [List.getElem?_take, if_pos htc] at hgt'
    refine ⟨t, ?_, htc, g, hgt', h2, ?_⟩
    · by_contra hc
      have : t = 0 := by omega
      subst this
      have h0 := ht.first
      rw [hgt'] at h0
      exact h1 (by simpa using h0)
    · intro e
      have hl := perm_range_length (h.grp _ (List.mem_of_mem_take hg))
      rw [e, List.length_range] at hl
      rw [hl] at e
      exact h1 e

/-- A labelling as a configuration without arrows. -/
def noArrows (x : List ℕ) : Config := x.map (fun leaf => ((-1 : ℤ), leaf))

theorem noArrows_inj {x y : List ℕ} (h : noArrows x = noArrows y) : x = y :=
  List.map_injective_iff.mpr (fun a b e => by simpa using e) h

theorem guessKeep_le (a : GArgs) (d : List ℕ) : (guessKeep a d).length ≤ 1 := by
  unfold guessKeep
  split <;> simp

theorem guess_run {a : GArgs} (h : GuessCall a) (hna : ∀ s ∈ a.decor, s.1 = -1) :
    (∀ T, a.wanted ≤ ((distinctDraws a.draw T).flatMap (guessKeep a)).length →
      guessAndCheck a = some (.ok (((distinctDraws a.draw T).flatMap (guessKeep a)).take a.wanted))) ∧
    ((∀ T, ((distinctDraws a.draw T).flatMap (guessKeep a)).length < a.wanted) → guessAndCheck a = none) := by
  obtain ⟨h1, h2⟩ := sampleLoop_eq (draw := a.draw) (body := guessBody a) (B := guessKeep a) a.wanted
    (fun t v => guessBody_plain h hna t v) (fun t => guessKeep_le a _)
  constructor
  · intro T hT
    obtain ⟨s, hs, e⟩ := h1 T hT
    unfold guessAndCheck
    rw [hs]
    exact congrArg (fun l => some (Except.ok l)) e
  · intro hT
    unfold guessAndCheck
    rw [h2 hT]

theorem guess_cases {a : GArgs} (h : GuessCall a) (hna : ∀ s ∈ a.decor, s.1 = -1) {r : Py (List Config)} (hr : guessAndCheck a = some r) :
    ∃ T, a.wanted ≤ ((distinctDraws a.draw T).flatMap (guessKeep a)).length ∧
      r = .ok (((distinctDraws a.draw T).flatMap (guessKeep a)).take a.wanted) := by
  obtain ⟨h1, h2⟩ := guess_run h hna
  by_cases hT : ∃ T, a.wanted ≤ ((distinctDraws a.draw T).flatMap (guessKeep a)).length
  · obtain ⟨T, hT⟩ := hT
    rw [h1 T hT] at hr
    exact ⟨T, hT, (Option.some.inj hr).symm⟩
  · have := h2 (fun T => by
      by_contra hc
      exact hT ⟨T, by omega⟩)
    rw [this] at hr
    simp at hr

theorem keep_nodup {a : GArgs} (h : GuessCall a) (T : ℕ) : ((distinctDraws a.draw T).flatMap (guessKeep a)).Nodup := by
  rw [List.nodup_flatMap]
  constructor
  · intro d _
    unfold guessKeep
    split <;> simp
  · apply List.Pairwise.imp_of_mem _ (distinctDraws_nodup a.draw T)
    intro d e hd he hne z hz hz'
    obtain ⟨t, -, rfl⟩ := mem_distinctDraws.mp hd
    obtain ⟨t', -, rfl⟩ := mem_distinctDraws.mp he
    unfold guessKeep at hz hz'
    split at hz
    · simp at hz
    · split at hz'
      · simp at hz'
      · rw [List.mem_singleton] at hz hz'
        have h1 := labelNo_spec (h.draws t)
        have h2 := labelNo_spec (h.draws t')
        have := noArrows_inj (hz.symm.trans hz')
        apply hne
        rw [← h1.2.2, this, h2.2.2]

/-- C35. Without arrows, whatever the random numbers: if the function returns, it returns as many structures as were
asked for, all different, each with the composition asked for and, unless they are to be kept, none of them
superperiodic. It never raises an exception. -/
theorem C35_returned_structures (a : GArgs) (h : GuessCall a) (hna : ∀ s ∈ a.decor, s.1 = -1)
    (ht : TranslationsFirst a.concs.sum a.group a.cellsize) (r : Py (List Config)) (hr : guessAndCheck a = some r) :
    ∃ L, r = .ok L ∧ L.length = a.wanted ∧ L.Nodup ∧
      ∀ z ∈ L, (∀ s ∈ z, s.1 = -1) ∧ IsLabelling a.concs (z.map (·.2)) ∧
        (a.supers = false → ¬ Superperiodic ((a.group.take a.cellsize).map (·.1)) z) := by
  obtain ⟨T, hT, rfl⟩ := guess_cases h hna hr
  refine ⟨_, rfl, by simpa using hT, (keep_nodup h T).sublist (List.take_sublist _ _), ?_⟩
  intro z hz
  obtain ⟨d, hd, hz⟩ := List.mem_flatMap.mp (List.mem_of_mem_take hz)
  obtain ⟨t, -, rfl⟩ := mem_distinctDraws.mp hd
  have h1 := labelNo_spec (h.draws t)
  unfold guessKeep at hz
  split at hz
  · simp at hz
  · rename_i hsup
    rw [List.mem_singleton] at hz
    subst hz
    refine ⟨by simp, by simpa [List.map_map, Function.comp_def] using h1.2.1, ?_⟩
    intro hs hsp
    apply hsup
    refine ⟨hs, (superG_iff h ht (lab_len h1.2.1)).mpr ?_⟩
    obtain ⟨τ, hτ, h2, h3⟩ := hsp
    refine ⟨τ, hτ, by simpa using h2, ?_⟩
    rw [permute_map] at h3
    exact noArrows_inj h3

/-- C35. It returns as soon as the draws contain as many different labellings (not superperiodic ones, unless these are
kept) as were asked for; if they never do - for instance because more structures are asked for than there are
labellings - it does not return. -/
theorem C35_terminates_iff (a : GArgs) (h : GuessCall a) (hna : ∀ s ∈ a.decor, s.1 = -1)
    (ht : TranslationsFirst a.concs.sum a.group a.cellsize) :
    (∃ L, guessAndCheck a = some (.ok L)) ↔ ∃ X : List (List ℕ), X.length = a.wanted ∧ X.Nodup ∧
      ∀ x ∈ X, (∃ t, invhash (a.draw t) a.concs a.concs.sum = .ok x) ∧
        (a.supers = false → ¬ Superperiodic ((a.group.take a.cellsize).map (·.1)) (noArrows x)) := by
  constructor
  · rintro ⟨L, hL⟩
    obtain ⟨T, hT, e⟩ := guess_cases h hna hL
    have e := Except.ok.inj e
    obtain ⟨L', e1, e2, e3, e4⟩ := C35_returned_structures a h hna ht _ hL
    have e1 := Except.ok.inj e1
    subst e1
    refine ⟨L.map (fun z => z.map (·.2)), by simpa using e2, ?_, ?_⟩
    · apply List.Nodup.map_on _ e3
      intro z hz w hw hzw
      have h1 := (e4 z hz).1
      have h2 := (e4 w hw).1
      have hz' : z = noArrows (z.map (·.2)) := by
        unfold noArrows
        rw [List.map_map]
        conv_lhs => rw [← List.map_id z]
        apply List.map_congr_left
        intro s hs
        exact Prod.ext (h1 s hs) rfl
      have hw' : w = noArrows (w.map (·.2)) := by
        unfold noArrows
        rw [List.map_map]
        conv_lhs => rw [← List.map_id w]
        apply List.map_congr_left
        intro s hs
        exact Prod.ext (h2 s hs) rfl
      rw [hz', hw', hzw]
    · intro x hx
      obtain ⟨z, hz, rfl⟩ := List.mem_map.mp hx
      have hz0 := hz
      rw [e] at hz
      obtain ⟨d, hd, hz⟩ := List.mem_flatMap.mp (List.mem_of_mem_take hz)
      obtain ⟨t, -, rfl⟩ := mem_distinctDraws.mp hd
      have h1 := labelNo_spec (h.draws t)
      unfold guessKeep at hz
      split at hz
      · simp at hz
      · rw [List.mem_singleton] at hz
        refine ⟨⟨t, ?_⟩, ?_⟩
        · rw [h1.1, hz]; simp [List.map_map, Function.comp_def]
        · intro hs
          have := (e4 z hz0).2.2 hs
          rw [hz] at this ⊢
          simpa [noArrows, List.map_map, Function.comp_def] using this
  · rintro ⟨X, hX1, hX2, hX3⟩
    have hex : ∃ T, ∀ x ∈ X, ∃ t < T, invhash (a.draw t) a.concs a.concs.sum = .ok x := by
      clear hX1 hX2
      induction X with
      | nil => exact ⟨0, by simp⟩
      | cons x X ih =>
        obtain ⟨T, hT⟩ := ih (fun y hy => hX3 y (by simp [hy]))
        obtain ⟨t, ht⟩ := (hX3 x (by simp)).1
        refine ⟨max T (t + 1), ?_⟩
        intro y hy
        rcases List.mem_cons.mp hy with rfl | hy
        · exact ⟨t, by omega, ht⟩
        · obtain ⟨t', h1, h2⟩ := hT y hy
          exact ⟨t', by omega, h2⟩
    obtain ⟨T, hT⟩ := hex
    refine ⟨_, (guess_run h hna).1 T ?_⟩
    rw [← hX1, ← List.length_map (f := noArrows)]
    apply List.Subperm.length_le
    apply List.subperm_of_subset (hX2.map (fun x y e => noArrows_inj e))
    intro z hz
    obtain ⟨x, hx, rfl⟩ := List.mem_map.mp hz
    obtain ⟨t, h1, h2⟩ := hT x hx
    have h3 := labelNo_spec (h.draws t)
    have h4 : labelNo a.concs (a.draw t) = x := by
      rw [h3.1] at h2
      exact Except.ok.inj h2
    rw [List.mem_flatMap]
    refine ⟨a.draw t, mem_distinctDraws.mpr ⟨t, h1, rfl⟩, ?_⟩
    unfold guessKeep
    rw [h4] at h3 ⊢
    rw [if_neg]
    · simp [noArrows]
    · rintro ⟨hs, hsup⟩
      apply (hX3 x hx).2 hs
      obtain ⟨τ, hτ, e1, e2⟩ := (superG_iff h ht (lab_len h3.2.1)).mp hsup
      refine ⟨τ, hτ, by simpa [noArrows] using e1, ?_⟩
      unfold noArrows
      rw [permute_map, e2]

/-- C35. Asking for more structures than there are labellings, it runs for ever. -/
theorem C35_runs_forever (a : GArgs) (h : GuessCall a) (hna : ∀ s ∈ a.decor, s.1 = -1)
    (ht : TranslationsFirst a.concs.sum a.group a.cellsize) (X : List (List ℕ)) (hX : ∀ x, IsLabelling a.concs x → x ∈ X)
    (hw : X.length < a.wanted) : guessAndCheck a = none := by
  cases hr : guessAndCheck a with
  | none => rfl
  | some r =>
    obtain ⟨L, rfl, -⟩ := C35_returned_structures a h hna ht r hr
    obtain ⟨Y, h1, h2, h3⟩ := (C35_terminates_iff a h hna ht).mp ⟨L, hr⟩
    have : Y.length ≤ X.length := by
      apply List.Subperm.length_le
      apply List.subperm_of_subset h2
      intro x hx
      obtain ⟨t, ht⟩ := (h3 x hx).1
      have h4 := labelNo_spec (h.draws t)
      rw [h4.1] at ht
      rw [← Except.ok.inj ht]
      exact hX _ h4.2.1
    omega

/-- C35 fails: nothing is done about equivalent structures. Whatever the group, if superperiodic structures are kept and
the first draws are different, the structures returned are those drawn, in the same order. -/
theorem C35_no_check (a : GArgs) (h : GuessCall a) (hna : ∀ s ∈ a.decor, s.1 = -1) (hs : a.supers = true)
    (hdist : ((List.range a.wanted).map a.draw).Nodup) (X : List (List ℕ)) (hl : X.length = a.wanted)
    (hX : ∀ (t : ℕ) (ht : t < X.length), invhash (a.draw t) a.concs a.concs.sum = .ok X[t]) :
    guessAndCheck a = some (.ok (X.map noArrows)) := by
  have hB : ∀ d, guessKeep a d = [noArrows (labelNo a.concs d)] := by
    intro d
    unfold guessKeep
    rw [if_neg (by simp [hs])]
    rfl
  have hdd : distinctDraws a.draw a.wanted = (List.range a.wanted).map a.draw := by
    have key : ∀ T, ((List.range T).map a.draw).Nodup → distinctDraws a.draw T = (List.range T).map a.draw := by
      intro T
      induction T with
      | zero => intro; rfl
      | succ T ih =>
        intro hn
        rw [List.range_succ, List.map_append] at hn ⊢
        rw [List.nodup_append] at hn
        rw [distinctDraws_succ, ih hn.1, if_neg]
        · rfl
        · intro hc
          exact hn.2.2 _ hc (a.draw T) (by simp) rfl
    exact key _ hdist
  have hL : (distinctDraws a.draw a.wanted).flatMap (guessKeep a) = X.map noArrows := by
    rw [hdd]
    have e1 : ((List.range a.wanted).map a.draw).flatMap (guessKeep a) = ((List.range a.wanted).map a.draw).map (fun d => noArrows (labelNo a.concs d)) := by
      rw [List.flatMap_congr (fun d _ => hB d)]
      exact List.map_eq_flatMap.symm
    rw [e1]
    apply List.ext_getElem
    · simp [hl]
    · intro i h1 h2
      simp only [List.getElem_map, List.getElem_range]
      have := hX i (by simpa using h2)
      unfold labelNo
      rw [this]
  rw [(guess_run h hna).1 a.wanted (by rw [hL]; simp [hl]), hL, List.take_of_length_le (by simp [hl])]

/-! ### with arrows -/

theorem guessBody_arrows {a : GArgs} (h : GuessCall a) (hc : a.concs = findConcentrations a.decor) (hna : nArr a.decor ≠ 0) (t : ℕ)
    (v : List (List ℕ)) : guessBody a t (a.draw t) v =
      addArrowsSmall (paint a.decor (labelNo a.concs (a.draw t))) a.group a.dim (a.group.take a.cellsize) a.supers a.wanted (a.adraw t) := by
  obtain ⟨h1, h2, -⟩ := labelNo_spec (h.draws t)
  unfold guessBody
  simp only [howManyArrows_fst, h1, bind, Except.bind]
  rw [guessUnique_true (lab_len h2) (h.one_mem h2) _ h.grp]
  rw [hc] at h2
  have := decorate_eq h2
  rw [← hc] at this
  simp [hna, Nat.pos_of_ne_zero hna, this]

/-- C35 with arrows. Whatever the random numbers: if the function returns, it returns as many configurations as were
asked for, pairwise inequivalent, with the species and the number of arrows asked for - but all of them are
arrangements of arrows on one and the same labelling, the first one drawn. -/
theorem C35_arrows_one_labelling (a : GArgs) (h : GuessCall a) (hc : a.concs = (howManyArrows a.decor).2.2) (hna : ∃ s ∈ a.decor, 0 ≤ s.1)
    (hd : 1 ≤ a.dim) (hG : IsOpGroup a.decor.length a.dim a.group)
    (hdr : ∀ t i, a.adraw t i < a.dim ^ (howManyArrows a.decor).1 - 1) (r : Py (List Config)) (hr : guessAndCheck a = some r) :
    ∃ L, r = .ok L ∧ L.length = a.wanted ∧ L.Pairwise (fun z w => ¬ OpEquiv a.group z w) ∧
      ∃ col : Config, col.Perm a.decor ∧ ∀ z ∈ L, FillsIn a.dim col z := by
  have hc' : a.concs = findConcentrations a.decor := hc
  have hn0 : nArr a.decor ≠ 0 := by
    obtain ⟨s, hs, h0⟩ := hna
    have : 0 < nArr a.decor := List.countP_pos_iff.mpr ⟨s, hs, by simpa using h0⟩
    omega
  rw [howManyArrows_fst] at hdr
  have hcol : ∀ t, (paint a.decor (labelNo a.concs (a.draw t))).Perm a.decor := fun t => paint_perm (by
    rw [← hc']; exact (labelNo_spec (h.draws t)).2.1)
  have hsm : ∀ t r, addArrowsSmall (paint a.decor (labelNo a.concs (a.draw t))) a.group a.dim (a.group.take a.cellsize) a.supers a.wanted (a.adraw t) = some r →
      ∃ L, r = .ok L ∧ L.length = a.wanted ∧ L.Pairwise (fun z w => ¬ OpEquiv a.group z w) ∧
        ∃ col : Config, col.Perm a.decor ∧ ∀ z ∈ L, FillsIn a.dim col z := by
    intro t r hr
    have hp := hcol t
    have hlen := hp.length_eq
    obtain ⟨L, e1, e2, e3, e4⟩ := addArrowsSmall_spec hd (H := a.group) (T := a.group.take a.cellsize) (by rw [hlen]; exact hG.opsOk)
      (by rw [hlen]; exact fun g hg => hG.opsOk g (List.mem_of_mem_take hg)) a.supers a.wanted
      (fun i => by rw [nArr_perm hp]; exact hdr t i) hr
    have hfill : ∀ z ∈ L, FillsIn a.dim (paint a.decor (labelNo a.concs (a.draw t))) z := by
      intro z hz
      obtain ⟨m, hm, rfl⟩ := e3 z hz
      exact (fillNo_spec hd (by omega)).2.1
    have hzl : ∀ z ∈ L, z.length = a.decor.length := by
      intro z hz
      have := congrArg List.length (hfill z hz).1
      rw [erase_eq, erase_eq, List.length_map, List.length_map, hlen] at this
      exact this
    refine ⟨L, e1, e2, ?_, _, hp, hfill⟩
    apply List.Pairwise.imp_of_mem _ e4
    intro z w hz hw hzw he
    obtain ⟨g, hg, e⟩ := hG.opEquiv_symm (hzl z hz) (hfill z hz).2 he
    exact hzw g hg e
  unfold guessAndCheck at hr
  cases hl : sampleLoop a.draw (guessBody a) a.wanted with
  | none => rw [hl] at hr; simp at hr
  | some q =>
    obtain ⟨s, rfl, hinv, hcond⟩ := pyWhileO_inv (Inv := fun s : SampleState (List ℕ) => s.surv = [] ∨ (s.surv.length = a.wanted ∧
        s.surv.Pairwise (fun z w => ¬ OpEquiv a.group z w) ∧ ∃ col : Config, col.Perm a.decor ∧ ∀ z ∈ s.surv, FillsIn a.dim col z)) (by
      intro s s' hi hc hs'
      have hc' : s.surv.length < a.wanted := by simpa using hc
      have hi : s.surv = [] := by
        rcases hi with hi | hi
        · exact hi
        · omega
      unfold sampleStep at hs'
      split at hs'
      · rw [← Except.ok.inj (Option.some.inj hs')]
        exact Or.inl hi
      · rw [guessBody_arrows h (by assumption) hn0] at hs'
        cases hq : addArrowsSmall (paint a.decor (labelNo a.concs (a.draw s.t))) a.group a.dim (a.group.take a.cellsize) a.supers a.wanted (a.adraw s.t) with
        | none => rw [hq] at hs'; simp at hs'
        | some q =>
          obtain ⟨L, rfl, e⟩ := hsm _ _ hq
          rw [hq] at hs'
          have := Except.ok.inj (Option.some.inj hs')
          rw [← this]
          right
          simpa [hi] using e) (by
      intro s e hi hc he
      unfold sampleStep at he
      split at he
      · simp at he
      · rw [guessBody_arrows h (by assumption) hn0] at he
        cases hq : addArrowsSmall (paint a.decor (labelNo a.concs (a.draw s.t))) a.group a.dim (a.group.take a.cellsize) a.supers a.wanted (a.adraw s.t) with
        | none => rw [hq] at he; simp at he
        | some q =>
          obtain ⟨L, rfl, -⟩ := hsm _ _ hq
          rw [hq] at he
          simp at he) (Or.inl rfl) hl
    rw [hl] at hr
    refine ⟨s.surv, (Option.some.inj hr).symm, ?_⟩
    have hcond' : ¬ s.surv.length < a.wanted := by simpa using hcond
    rcases hinv with hi | hi
    · rw [hi] at hcond' ⊢
      refine ⟨by simp at hcond'; simp [hcond'], List.Pairwise.nil, a.decor, List.Perm.refl _, by simp⟩
    · exact hi

/-- C35 with arrows. The number of the last arrangement, all arrows in the last direction, is never drawn
(`randrange(maxpossible)` excludes its argument), so that it is never sampled by `add_arrows`. -/
theorem C35_last_arrows_never (dim : ℕ) (hd : 1 ≤ dim) (col : Config) (H T : List Op) (hH : IsOpGroup col.length dim H)
    (hT : ∀ g ∈ T, g ∈ H) (supers : Bool) (wanted : ℕ) (draw : ℕ → ℕ) (hdr : ∀ t, draw t < dim ^ (howManyArrows col).1 - 1) (L : List Config)
    (hL : addArrowsSmall col H dim T supers wanted draw = some (.ok L)) :
    ∀ z ∈ L, ∃ s ∈ z, 0 ≤ s.1 ∧ s.1 ≠ dim - 1 := by
  rw [howManyArrows_fst] at hdr
  obtain ⟨L', e1, -, e3, -⟩ := addArrowsSmall_spec hd (H := H) (T := T) hH.opsOk (fun g hg => hH.opsOk g (hT g hg)) supers wanted hdr hL
  have e1 := Except.ok.inj e1
  subst e1
  intro z hz
  obtain ⟨m, hm, rfl⟩ := e3 z hz
  have hf := fillNo_spec (col := col) hd (show m < dim ^ nArr col by omega)
  by_contra hc
  push Not at hc
  have harr : arr (fillNo col dim m) = List.replicate (nArr col) (dim - 1) := by
    rw [List.eq_replicate_iff]
    constructor
    · rw [arr_length, ← nArr_erase, hf.2.1.1, nArr_erase]
    · intro v hv
      unfold arr at hv
      obtain ⟨s, hs, e⟩ := List.mem_filterMap.mp hv
      have := hc s hs
      split at e
      · simp at e
      · rename_i hneg
        have h2 := this (by omega)
        have h3 := Option.some.inj e
        omega
  have := hf.2.2.2
  rw [harr] at this
  have := ahash_max dim (nArr col) hd
  omega

/-! ### the failing case -/

/-- two sites of the first species and one of the second on the three-site chain; the draws are `[0,0]`, `[1,0]`, ... -/
def exGuess : GArgs := ⟨[2, 1], exGroup, [(-1, 1), (-1, 1), (-1, 2)], 2, true, 3, 2, fun t => [t % 3, 0], fun _ _ => 0⟩

theorem exGuess_ok : GuessCall exGuess where
  ne := by decide
  pos := by decide
  grp := exGroup_ok.sites
  enough := by decide
  draws := by
    intro t
    have : coefficients exGuess.concs (exGuess.concs.sum : ℕ) = [3, 1] := by decide +kernel
    rw [this]
    exact List.Forall₂.cons (by omega) (List.Forall₂.cons (by omega) List.Forall₂.nil)

/-- C35 fails: for the three-site chain with its translations, two sites of one species and one of the other, all
labellings are equivalent, and two of them are returned. -/
theorem C35_counterexample : ∃ z w : Config, guessAndCheck exGuess = some (.ok [z, w]) ∧ Equiv (exGuess.group.map (·.1)) z w ∧
    IsPermGroup 3 (exGuess.group.map (·.1)) := by
  have h := C35_no_check exGuess exGuess_ok (by decide) rfl (by decide) [[1, 1, 2], [1, 2, 1]] rfl (by
    intro t ht
    have ht' : t < 2 := ht
    interval_cases t <;> rfl)
  exact ⟨_, _, h, ⟨[1, 2, 0], by decide, by decide⟩, exGroup_ok.permGroup⟩

/-- the hypotheses of `C35_returned_structures` and `C35_terminates_iff` hold in the example -/
example : GuessCall exGuess ∧ (∀ s ∈ exGuess.decor, s.1 = -1) ∧ TranslationsFirst exGuess.concs.sum exGuess.group exGuess.cellsize ∧
    ∃ L, guessAndCheck exGuess = some (.ok L) :=
  ⟨exGuess_ok, by decide, ⟨rfl, by decide⟩, by obtain ⟨z, w, h, -⟩ := C35_counterexample; exact ⟨_, h⟩⟩

/-- the three-site chain, two sites of species 1, one of them with an arrow, and one of species 2 -/
def exGuessArrows : GArgs := ⟨[1, 1, 1], exGroup, [(-1, 2), (-1, 1), (1, 1)], 2, true, 3, 1, fun _ => [2, 1, 0], fun _ _ => 0⟩

theorem exGuessArrows_ok : GuessCall exGuessArrows where
  ne := by decide
  pos := by decide
  grp := exGroup_ok.sites
  enough := by decide
  draws := by
    intro t
    have : coefficients exGuessArrows.concs (exGuessArrows.concs.sum : ℕ) = [3, 2, 1] := by decide +kernel
    rw [this]
    exact List.Forall₂.cons (by omega) (List.Forall₂.cons (by omega) (List.Forall₂.cons (by omega) List.Forall₂.nil))

theorem exSmall : addArrowsSmall [(1, 1), (-1, 1), (-1, 2)] exGroup 2 exGroup true 1 (fun _ => 0) = some (.ok [[(0, 1), (-1, 1), (-1, 2)]]) := by
  unfold addArrowsSmall sampleLoop
  rw [if_neg (by decide), pyWhileO_unfold, if_pos (by decide)]
  have : sampleStep (fun _ => 0) (fun _ d visited => some (smallBody [(1, 1), (-1, 1), (-1, 2)] exGroup 2 exGroup true
      (howManyArrows [(1, 1), (-1, 1), (-1, 2)]).1 d visited)) ⟨0, [], []⟩ = some (.ok ⟨1, [0], [[(0, 1), (-1, 1), (-1, 2)]]⟩) := by rfl
  rw [this]
  simp only []
  rw [pyWhileO_unfold, if_neg (by decide)]

/-- the hypotheses of `C35_arrows_one_labelling` hold in the example, and the function returns -/
example : GuessCall exGuessArrows ∧ exGuessArrows.concs = (howManyArrows exGuessArrows.decor).2.2 ∧ (∃ s ∈ exGuessArrows.decor, 0 ≤ s.1) ∧
    IsOpGroup exGuessArrows.decor.length exGuessArrows.dim exGuessArrows.group ∧
    (∀ t i, exGuessArrows.adraw t i < exGuessArrows.dim ^ (howManyArrows exGuessArrows.decor).1 - 1) ∧
    guessAndCheck exGuessArrows = some (.ok [[(0, 1), (-1, 1), (-1, 2)]]) := by
  have hc : exGuessArrows.concs = findConcentrations exGuessArrows.decor := by decide +kernel
  refine ⟨exGuessArrows_ok, hc, by decide, exGroup_ok, fun _ _ => by show 0 < _; decide, ?_⟩
  have hb := guessBody_arrows exGuessArrows_ok hc (by decide) 0 [[2, 1, 0]]
  have hl : paint exGuessArrows.decor (labelNo exGuessArrows.concs (exGuessArrows.draw 0)) = [(1, 1), (-1, 1), (-1, 2)] := by decide +kernel
  rw [hl] at hb
  have hb := hb.trans exSmall
  unfold guessAndCheck sampleLoop
  rw [pyWhileO_unfold, if_pos (by decide)]
  have : sampleStep exGuessArrows.draw (guessBody exGuessArrows) ⟨0, [], []⟩ = some (.ok ⟨1, [[2, 1, 0]], [[(0, 1), (-1, 1), (-1, 2)]]⟩) := by
    unfold sampleStep
    rw [if_neg (by decide)]
    have h2 : ([] : List (List ℕ)) ++ [exGuessArrows.draw 0] = [[2, 1, 0]] := rfl
    simp only [h2, hb]
    rfl
  rw [this]
  simp only []
  rw [pyWhileO_unfold, if_neg (by decide)]

end Phenum
