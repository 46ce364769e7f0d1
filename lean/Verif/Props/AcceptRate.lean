import Verif.Props.EnumSuper
import Verif.Props.PolyaFloat
import Verif.Props.Enumeration
import Verif.Props.EnumSingle
/-
C101: what an acceptance rate (`enum_sys(..., accept=...)`, `-acceptrate`) does to a request.
-/
namespace Phenum
open Spec

/-- Two loops whose conditions and bodies agree where an invariant of the first holds. -/
theorem pyWhile_congr {S : Type} {cond cond' : S → Bool} {step step' : S → Py S} {Inv : S → Prop}
    (hc : ∀ s, Inv s → cond s = cond' s) (hs : ∀ s, Inv s → step s = step' s)
    (hinv : ∀ s s', Inv s → step s = .ok s' → Inv s') (s : S) (h : Inv s) :
    pyWhile cond step s = pyWhile cond' step' s := by
  have key : ∀ (c c' : S → Bool) (st st' : S → Py S), (∀ s, Inv s → c s = c' s) → (∀ s, Inv s → st s = st' s) →
      (∀ s s', Inv s → st s = .ok s' → Inv s') → ∀ s r, pyWhile c st s = some r → Inv s → pyWhile c' st' s = some r := by
    intro c c' st st' hc hs hinv
    apply pyWhile.partial_correctness c st (fun s r => Inv s → pyWhile c' st' s = some r)
    intro loop ih s r hr h
    rw [pyWhile_unfold, ← hc s h, ← hs s h]
    by_cases hb : c s = true
    · rw [if_pos hb] at hr ⊢
      cases hst : st s with
      | error e => rw [hst] at hr; exact hr
      | ok t => rw [hst] at hr; exact ih t r hr (hinv s t h hst)
    · rw [if_neg hb] at hr ⊢
      exact hr
  cases h1 : pyWhile cond step s with
  | some r => exact (key cond cond' step step' hc hs hinv s r h1 h).symm
  | none =>
    cases h2 : pyWhile cond' step' s with
    | none => rfl
    | some r =>
      have := key cond' cond step' step (fun s h => (hc s h).symm) (fun s h => (hs s h).symm)
        (fun s s' h e => hinv s s' h (by rw [hs s h]; exact e)) s r h2 h
      rw [h1] at this
      cases this

/-- `brancher` with a list of ordinals and no arrows takes no notice of the acceptance rate. -/
theorem brancher_accept_irrelevant (a : BArgs) (l : List ℕ) (hl : a.subset = .list l) (hna : a.narrows = 0) :
    brancher { a with accept := true } = brancher { a with accept := false } := by
  unfold brancher
  have hu : ∀ b, useSubset { a with accept := b } = !l.isEmpty := by
    intro b; unfold useSubset; simp only [hl]
  have hstepSub : ∀ (b : Bool) (s : BState) (u : ℕ) r, (∃ l', s.subset = .list l') → superStep { a with accept := b } s u = .ok r → ∃ l', r.2.1 = .list l' := by
    rintro b s u r ⟨l', h'⟩ hr
    unfold superStep at hr
    have hsame : ∀ (x : ℕ) (y : ℕ), (Except.ok (x, s.subset, y) : Py (ℕ × Subset × ℕ)) = .ok r → ∃ l', r.2.1 = .list l' := by
      intro x y e; cases e; exact ⟨l', h'⟩
    split at hr
    · split at hr
      · cases hb : invhash s.branch a.concs a.decor.length with
        | error e => simp only [hb] at hr; cases hr
        | ok br =>
          simp only [hb] at hr
          change (superLoop a.group a.cellsize br (List.range' 1 (a.cellsize - 1)) >>= _) = _ at hr
          cases hsl : superLoop a.group a.cellsize br (List.range' 1 (a.cellsize - 1)) with
          | error e => rw [hsl] at hr; cases hr
          | ok sp =>
            rw [hsl] at hr
            change (if sp = true then _ else _) = _ at hr
            split at hr
            · split at hr
              · simp only [h'] at hr
                split at hr
                · cases hr; exact ⟨_, rfl⟩
                · cases hr; exact ⟨_, rfl⟩
              · exact hsame _ _ hr
            · exact hsame _ _ hr
      · exact hsame _ _ hr
    · exact hsame _ _ hr
  have hsuper : ∀ (s : BState) (u : ℕ), superStep { a with accept := true } s u = superStep { a with accept := false } s u := by
    intro s u
    unfold superStep
    simp only [hu]
    rfl
  have hemit : ∀ (br : List ℕ) (ast : List Op) (l' : List ℕ) (c : ℕ) (sv : List Config),
      emit { a with accept := true } br ast (.list l') c sv = emit { a with accept := false } br ast (.list l') c sv := by
    intro br ast l' c sv
    unfold emit
    have hk : ∀ b, keepCandidate { a with accept := b } (.list l') c = (if l.isEmpty then true else decide (c ∈ l')) := by
      intro b
      unfold keepCandidate
      rw [hu]
      cases l.isEmpty <;> rfl
    have hna' : ∀ b, ¬ (BArgs.narrows { a with accept := b } > 0) := by
      intro b; have : BArgs.narrows { a with accept := b } = a.narrows := rfl
      omega
    rw [if_neg (hna' true), if_neg (hna' false), hk, hk]
    rfl
  have hrec : ∀ (s : BState) (u : ℕ) (ast : List Op), (∃ l', s.subset = .list l') →
      bRecord { a with accept := true } s u ast = bRecord { a with accept := false } s u ast := by
    intro s u ast hs
    unfold bRecord
    rw [hsuper]
    cases hr : superStep { a with accept := false } s u with
    | error e => rfl
    | ok r =>
      obtain ⟨l', h'⟩ := hstepSub false s u r hs hr
      change (if _ then _ else _) = (if _ then _ else _)
      rw [h']
      simp only [hemit]
  have hw := pyWhile_congr (cond := bCond { a with accept := true }) (cond' := bCond { a with accept := false })
    (step := bStep { a with accept := true }) (step' := bStep { a with accept := false })
    (Inv := fun s => ∃ l', s.subset = .list l') ?_ ?_ ?_ (bInit { a with accept := true }) ⟨l, hl⟩
  · have e : bInit { a with accept := true } = bInit { a with accept := false } := rfl
    rw [hw, e]
  · rintro s ⟨l', h'⟩
    unfold bCond
    rw [hu, hu, h']
    rfl
  · rintro s hs
    unfold bStep
    simp only [hrec s _ _ hs]
    rfl
  · rintro s s' hs hst
    unfold bStep at hst
    cases h1 : pyGet s.stab s.i with
    | error e => rw [h1] at hst; cases hst
    | ok stabi =>
      rw [h1] at hst
      change (perm s.branch a.concs a.concs.sum s.i a.group stabi s.order >>= _) = _ at hst
      cases h2 : perm s.branch a.concs a.concs.sum s.i a.group stabi s.order with
      | error e => rw [h2] at hst; cases hst
      | ok out =>
        rw [h2] at hst
        change (pySet s.stab (s.i + 1) out.st >>= _) = _ at hst
        cases h3 : pySet s.stab (s.i + 1) out.st with
        | error e => rw [h3] at hst; cases hst
        | ok stab =>
          rw [h3] at hst
          change (bRecord { a with accept := true } s out.unique out.ast >>= _) = _ at hst
          cases h4 : bRecord { a with accept := true } s out.unique out.ast with
          | error e => rw [h4] at hst; cases hst
          | ok r =>
            rw [h4] at hst
            change (bNav _ r.1 s.i s.b0 s.branch out.order >>= _) = _ at hst
            cases h5 : bNav (BArgs.C { a with accept := true }) r.1 s.i s.b0 s.branch out.order with
            | error e => rw [h5] at hst; cases hst
            | ok nav =>
              rw [h5] at hst
              cases hst
              unfold bRecord at h4
              cases h6 : superStep { a with accept := true } s out.unique with
              | error e => rw [h6] at h4; cases h4
              | ok q =>
                obtain ⟨l', h'⟩ := hstepSub true s _ q hs h6
                rw [h6] at h4
                change (if _ then _ else _) = _ at h4
                split at h4
                · cases h7 : emit { a with accept := true } s.branch out.ast q.2.1 q.2.2 s.survivors with
                  | error e => rw [h7] at h4; cases h4
                  | ok e => rw [h7] at h4; cases h4; exact ⟨l', h'⟩
                · cases h4; exact ⟨l', h'⟩

/-- `brancher` asked for a number of structures at a given acceptance rate finds none. -/
theorem brancher_number_accept (a : BArgs) (hne : a.concs ≠ []) (k : ℕ) (hk : 1 ≤ k) (hs : a.subset = .num k) (ha : a.accept = true) :
    brancher a = some (.ok []) := by
  unfold brancher
  rw [if_neg hne, pyWhile_unfold]
  have : bCond a (bInit a) = false := by
    unfold bCond bInit useSubset
    simp only [hs, ha, List.length_nil, Bool.not_true, Bool.or_false, Bool.false_or, Bool.true_and, Bool.and_eq_false_iff]
    right
    simp
    omega
  rw [this]
  rfl

/-- C101. Without displaced atoms and with at least two species, an acceptance rate has no effect whatever on a request
if fewer than a million structures exist or no proper part of them is wanted: same structures, same errors, for
every group and all random numbers. -/
theorem C101_no_effect (agroup : List Op) (concs : List ℕ) (aconcs : List ℚ) (wanted nB : ℕ) (supers : Bool) (rnd : EnumRandom)
    (h2 : 2 ≤ concs.length) (hlen : concs.length ≤ aconcs.length)
    (hna : ∀ i, i < concs.length → arrowCount (concs.getD i 0) (aconcs.getD i 0) = 0)
    (hfew : ∀ total, polya concs agroup .none = some (.ok total) → total < 1000000 ∨ total ≤ wanted) :
    enumSys agroup concs aconcs wanted nB supers true rnd = enumSys agroup concs aconcs wanted nB supers false rnd := by
  obtain ⟨d, hd, -, -, hdl, -⟩ := C40_arrow_concs concs aconcs hlen
  have hnad : ∀ s ∈ d, s.1 = -1 := (C40_decoration_usable concs aconcs d hd hlen).2.2.2.mpr hna
  have hty := howMany_types_zero hnad
  have hnarr : (howManyArrows d).1 = 0 := by
    rw [howManyArrows_fst]
    unfold nArr
    rw [List.countP_eq_zero]
    intro s hs
    have := hnad s hs
    simp; omega
  obtain ⟨v, hv⟩ := multinomial_some (ns := concs) (by intro e; rw [e] at h2; simp at h2)
  unfold enumSys
  rw [hd]
  simp only [hv]
  cases ht : enumTotal agroup concs (howManyArrows d).2.2 (howManyArrows d).2.1 (largeSystem v (howManyArrows d).2.1 concs.sum wanted) wanted rnd with
  | none => rfl
  | some r =>
    cases r with
    | error e => rfl
    | ok p =>
      obtain ⟨total, subset⟩ := p
      have hcore : enumCore agroup concs d (howManyArrows d).2.2 (concs.sum / nB) (largeSystem v (howManyArrows d).2.1 concs.sum wanted) total subset wanted supers true rnd =
          enumCore agroup concs d (howManyArrows d).2.2 (concs.sum / nB) (largeSystem v (howManyArrows d).2.1 concs.sum wanted) total subset wanted supers false rnd := by
        have hne1 : ¬ concs.length = 1 := by omega
        unfold enumCore
        simp only [if_neg hne1]
        unfold enumTotal at ht
        by_cases hl : largeSystem v (howManyArrows d).2.1 concs.sum wanted = true
        · rw [if_pos hl] at ht
          cases ht
          rfl
        · rw [if_neg hl, hty] at ht
          simp only [ne_eq, not_true_eq_false, if_false] at ht
          cases hp : polya concs agroup .none with
          | none => rw [hp] at ht; cases ht
          | some q =>
            cases q with
            | error e => rw [hp] at ht; cases ht
            | ok t =>
              rw [hp] at ht
              cases ht
              have hsub : ∃ l, chooseSubset rnd.shuffle wanted total = .list l := by
                unfold chooseSubset
                by_cases h1 : (wanted : ℤ) < total
                · rw [if_pos h1, if_pos (by rcases hfew _ hp with h | h <;> omega)]
                  exact ⟨_, rfl⟩
                · rw [if_neg h1]
                  exact ⟨_, rfl⟩
              obtain ⟨l, hl'⟩ := hsub
              simp only [hl']
              have := brancher_accept_irrelevant ⟨(howManyArrows d).2.2, agroup, d, 6, supers, concs.sum / nB, .list l, true, rnd.acceptDraw, rnd.acceptArrow⟩ l rfl hnarr
              rw [this]
      simp only [hcore]

theorem enumSys_number {agroup : List Op} {concs : List ℕ} {aconcs : List ℚ} {wanted nB : ℕ} {supers : Bool} {rnd : EnumRandom} {d : Config}
    (h2 : 2 ≤ concs.length) (hd : arrowConcs concs aconcs = .ok d) (hsum : 1 ≤ d.length) (hw : 1 ≤ wanted) {v : ℤ}
    (hv : multinomial (concs.map (fun c : ℕ => (c : ℤ))) = .ok v) (hlarge : largeSystem v (howManyArrows d).2.1 concs.sum wanted = false) {total : ℤ}
    (htot : (if (howManyArrows d).2.1 ≠ 0 then polya (howManyArrows d).2.2 agroup (.num (howManyArrows d).2.1) else polya concs agroup .none) = some (.ok total))
    (hbig : 1000000 ≤ total) (hlt : (wanted : ℤ) < total) :
    enumSys agroup concs aconcs wanted nB supers true rnd = some (.ok []) := by
  have hne : (howManyArrows d).2.2 ≠ [] := by
    intro e
    have : d ≠ [] := by intro e; rw [e] at hsum; simp at hsum
    obtain ⟨s, hs⟩ := List.exists_mem_of_ne_nil d this
    have hsm := findConcentrations_sum d
    have : (howManyArrows d).2.2 = findConcentrations d := rfl
    rw [← this, e] at hsm
    simp at hsm
    omega
  unfold enumSys
  rw [hd]
  simp only [hv, hlarge]
  unfold enumTotal
  simp only [Bool.false_eq_true, if_false, htot]
  unfold enumCore
  rw [if_neg (by omega)]
  have hc : chooseSubset rnd.shuffle wanted total = .num wanted := by
    unfold chooseSubset
    rw [if_pos hlt, if_neg (by omega)]
  simp only [Bool.false_and, Bool.false_eq_true, if_false, hc]
  rw [brancher_number_accept _ hne wanted hw rfl rfl]
  simp [builtinSuper]

/-- C101 fails, no displaced atoms: an acceptance rate is meant for large enumerations, but when a million or more
inequivalent structures exist and a proper part of them is wanted, a request with an acceptance rate returns no structure
at all, without any error, whatever the rate and the random numbers. Without a rate it returns structures
(`C43_request`). -/
theorem C101_nothing (agroup : List Op) (concs : List ℕ) (aconcs : List ℚ) (wanted nB : ℕ) (supers : Bool) (rnd : EnumRandom)
    (h2 : 2 ≤ concs.length) (hlen : concs.length ≤ aconcs.length) (hn : 1 ≤ concs.sum)
    (hna : ∀ i, i < concs.length → arrowCount (concs.getD i 0) (aconcs.getD i 0) = 0)
    (hG : IsPermGroup concs.sum (agroup.map (·.1))) (hb : Balanced (agroup.map (·.1))) (hp2 : ∀ g ∈ agroup, ∃ d, g.2.Perm (List.range d))
    (hmod : Modest concs wanted) (full : List (List ℕ)) (hfull : IsTransversal (IsLabelling concs) (Equiv (agroup.map (·.1))) full)
    (hbig : 1000000 ≤ full.length) (hw : 1 ≤ wanted) (hlt : wanted < full.length) :
    enumSys agroup concs aconcs wanted nB supers true rnd = some (.ok []) := by
  obtain ⟨d, hd, -, -, hdl, -⟩ := C40_arrow_concs concs aconcs hlen
  have hnad : ∀ s ∈ d, s.1 = -1 := (C40_decoration_usable concs aconcs d hd hlen).2.2.2.mpr hna
  obtain ⟨v, hv, hv2⟩ := multinomial_of_modest (by intro e; rw [e] at h2; simp at h2) hmod
  have hlarge : largeSystem v (howManyArrows d).2.1 concs.sum wanted = false := by
    rw [howMany_types_zero hnad]
    unfold largeSystem
    rw [hv2]
    rfl
  refine enumSys_number (total := (full.length : ℤ)) h2 hd (by omega) hw hv hlarge ?_ (by omega) (by omega)
  rw [howMany_types_zero hnad, if_neg (by simp)]
  exact (C13_polya_counts_orbits concs agroup hn hG hb hp2).2 full hfull

/-- C101 fails with displaced atoms in the same way. -/
theorem C101_nothing_arrows (agroup : List Op) (concs : List ℕ) (aconcs : List ℚ) (wanted nB : ℕ) (supers : Bool) (rnd : EnumRandom)
    (h2 : 2 ≤ concs.length) (hlen : concs.length ≤ aconcs.length)
    (har : ∃ i, i < concs.length ∧ 0 < arrowCount (concs.getD i 0) (aconcs.getD i 0))
    (hG : IsOpGroup concs.sum 6 agroup) (hb : Balanced agroup)
    (hmod : Modest concs wanted) (hmod2 : concs.sum < 12 ∨ 100 < wanted)
    (full : List Config) (hfull : IsTransversal (Composed concs aconcs 6) (OpEquiv agroup) full)
    (hbig : 1000000 ≤ full.length) (hw : 1 ≤ wanted) (hlt : wanted < full.length) :
    enumSys agroup concs aconcs wanted nB supers true rnd = some (.ok []) := by
  obtain ⟨d, hd, -, -, hdl, -⟩ := C40_arrow_concs concs aconcs hlen
  obtain ⟨huni, hlast, har', -⟩ := C40_decoration_usable concs aconcs d hd hlen
  have hard := har'.mpr har
  have hiff := composed_iff hlen hd 6 (by decide)
  have hGd : IsOpGroup d.length 6 agroup := by rw [hdl]; exact hG
  have hty := howMany_types_pos hard
  obtain ⟨v, hv, hv2⟩ := multinomial_of_modest (by intro e; rw [e] at h2; simp at h2) hmod
  have hlarge : largeSystem v (howManyArrows d).2.1 concs.sum wanted = false := by
    unfold largeSystem
    have e2 : (decide (((howManyArrows d).2.1 : ℤ) ≠ 0) && decide ((concs.sum : ℤ) ≥ 12) && decide ((wanted : ℤ) ≤ 100)) = false := by
      rcases hmod2 with h | h
      · rw [decide_eq_false (show ¬ ((concs.sum : ℤ) ≥ 12) by omega), Bool.and_false, Bool.false_and]
      · rw [decide_eq_false (show ¬ ((wanted : ℤ) ≤ 100) by omega), Bool.and_false]
    rw [hv2, e2]; rfl
  let a : BArgs := ⟨(howManyArrows d).2.2, agroup, d, 6, true, concs.sum / nB, .none, false, rnd.acceptDraw, rnd.acceptArrow⟩
  have hne : d ≠ [] := by
    obtain ⟨s, hs, -⟩ := hard
    exact List.ne_nil_of_mem hs
  have hstd : StdCall a := ⟨hne, rfl, rfl, rfl⟩
  obtain ⟨L0, hL0, hp0⟩ := C15_count_arrows a hstd rfl (show 1 ≤ 6 by decide) hGd hb hard huni hlast
  obtain ⟨L', hL', hM1, hM2, hM3⟩ := C12_one_per_orbit a hstd rfl (show 1 ≤ 6 by decide) hGd hard huni
  have e := Except.ok.inj (Option.some.inj (hL0.symm.trans hL'))
  subst e
  have htr : IsTransversal (Composed concs aconcs 6) (OpEquiv agroup) L0 := by
    refine ⟨hM1, fun z hz => (hiff z).mp (hM2 z hz), ?_⟩
    intro z hz
    have := (hiff z).mpr hz
    exact hM3 z this.1 this.2
  have hprop : ∀ z, Composed concs aconcs 6 z → z.length = d.length ∧ ∀ s ∈ z, s.1 < ((6 : ℕ) : ℤ) := by
    intro z hz
    have h := (hiff z).mpr hz
    have := h.1.length_eq
    rw [erase_eq, erase_eq, List.length_map, List.length_map] at this
    exact ⟨this, h.2⟩
  have hsymm : ∀ x y, Composed concs aconcs 6 x → Composed concs aconcs 6 y → OpEquiv agroup x y → OpEquiv agroup y x :=
    fun x y hx _ h => hGd.opEquiv_symm (hprop x hx).1 (hprop x hx).2 h
  have htrans : ∀ x y z, Composed concs aconcs 6 x → Composed concs aconcs 6 y → Composed concs aconcs 6 z →
      OpEquiv agroup x y → OpEquiv agroup y z → OpEquiv agroup x z :=
    fun x y z hx _ _ h h' => hGd.opEquiv_trans (hprop x hx).1 (hprop x hx).2 h h'
  have hfl : full.length = L0.length := le_antisymm (transversal_length hsymm htrans hfull htr) (transversal_length hsymm htrans htr hfull)
  refine enumSys_number (total := (full.length : ℤ)) h2 hd (by have := List.length_pos_iff.mpr hne; omega) hw hv hlarge ?_ (by omega) (by omega)
  rw [if_pos hty, hfl]
  exact hp0

theorem addArrowsLoop_accept {dim : ℕ} {col : Config} (hd : 0 < dim) (H : List Op) (hH : OpsOk col.length dim H) (tr : List Op) (k : ℕ)
    (f : ℕ → Bool) (ms : List ℕ) (hms : ∀ m ∈ ms, m < dim ^ nArr col) (surv : List Config) (hk : surv.length < k) :
    addArrowsLoop col H dim tr (some f) (some k) true (nArr col) ms surv =
      .ok ((surv ++ ((ms.filter f).map (fillNo col dim)).filter (fun z => decide (AMin dim H z))).take k) := by
  induction ms generalizing surv with
  | nil => simp [addArrowsLoop, List.take_of_length_le (le_of_lt hk)]
  | cons m ms ih =>
    have ih := ih (fun m' hm' => hms m' (by simp [hm']))
    obtain ⟨h1, h2, h3, h4⟩ := fillNo_spec hd (hms m (by simp))
    rw [addArrowsLoop, ← h3, arrowUnique_eq H hH h2, fillArrows_arr h2.1]
    simp only [bind, Except.bind]
    have hdec : decide (∀ g ∈ H, m ≤ ahash (arr (act g (fillNo col dim m))) dim)
        = decide (AMin dim H (fillNo col dim m)) := by
      rw [decide_eq_decide]; unfold AMin; rw [h4]
    rw [hdec, List.filter_cons]
    by_cases hf : f m = true
    · rw [if_pos hf, List.map_cons, List.filter_cons]
      by_cases hm : AMin dim H (fillNo col dim m)
      · simp only [hm, decide_true, if_true, pure, Except.pure, Bool.and_true, hf]
        by_cases he : k = (surv ++ [fillNo col dim m]).length
        · rw [if_pos (by rw [he])]
          congr 1
          rw [List.append_cons surv (fillNo col dim m) (List.filter _ _), List.take_left' he.symm]
        · rw [if_neg (by simpa using he), ih _ (by simp at he ⊢; omega)]
          simp
      · simp only [hm, decide_false, Bool.false_eq_true, if_false]
        rw [ih _ hk]
    · rw [if_neg hf]
      have hf : f m = false := by simpa using hf
      by_cases hm : AMin dim H (fillNo col dim m)
      · simp only [hm, decide_true, if_true, pure, Except.pure, Bool.and_true, hf, Bool.false_eq_true, if_false]
        rw [ih _ hk]
      · simp only [hm, decide_false, Bool.false_eq_true, if_false]
        rw [ih _ hk]

/-- C101 for one species with every atom displaced: the structures of which the draw is accepted are kept, of these the
first `wanted`. They are inequivalent structures of the request; there may be fewer than wanted, even none, without any
error. -/
theorem C101_displaced (agroup : List Op) (n : ℕ) (x : ℚ) (aconcs : List ℚ) (wanted nB : ℕ)
    (hn : 1 ≤ n) (hx : arrowCount n x = n) (hG : IsOpGroup n 6 agroup) (hb : Balanced agroup) (hmod : n < 12 ∨ 100 < wanted) (hw : 1 ≤ wanted) :
    ∃ full, IsTransversal (Composed [n] (x :: aconcs) 6) (OpEquiv agroup) full ∧ ∀ rnd : EnumRandom, ∃ kept, kept.Sublist full ∧
      enumSys agroup [n] (x :: aconcs) wanted nB true true rnd = some (.ok (kept.take wanted)) ∧
      ((∀ t, rnd.acceptArrows t = true) → kept = full) ∧ ((∀ t, rnd.acceptArrows t = false) → kept = []) := by
  refine ⟨_, single_reps hx hG, ?_⟩
  intro rnd
  have hpos : 0 < (arrowReps (List.replicate n (1, 1)) 6 agroup).length := by
    have hz : Composed [n] (x :: aconcs) 6 (List.replicate n (0, 1)) := by
      rw [← single_composed hx]
      exact ⟨by simp [erase], by intro s hs; rw [List.eq_of_mem_replicate hs]; decide⟩
    obtain ⟨w, ⟨hw, -⟩, -⟩ := (single_reps (aconcs := aconcs) hx hG).unique _ hz
    exact List.length_pos_of_mem hw
  have htot := single_total (aconcs := aconcs) hn hx hG hb (single_reps hx hG)
  have hlarge : largeSystem 1 (1 : ℕ) (n : ℕ) wanted = false := by
    unfold largeSystem
    rw [decide_eq_false (show ¬ ((1 : ℤ) > 100000) by decide)]
    rcases hmod with h | h
    · rw [decide_eq_false (show ¬ ((n : ℤ) ≥ 12) by omega)]; simp
    · rw [decide_eq_false (show ¬ ((wanted : ℤ) ≤ 100) by omega)]; simp
  have hl : (List.replicate n ((1 : ℤ), 1)).length = n := by simp
  have hG' : IsOpGroup (List.replicate n ((1 : ℤ), 1)).length 6 agroup := by rw [hl]; exact hG
  refine ⟨(((List.range (6 ^ nArr (List.replicate n ((1 : ℤ), 1)))).filter rnd.acceptArrows).map (fillNo (List.replicate n (1, 1)) 6)).filter
    (fun z => decide (AMin 6 agroup z)), ?_, ?_, ?_, ?_⟩
  · unfold arrowReps
    exact ((List.filter_sublist).map _).filter _
  · have hadd : addArrows (List.replicate n (1, 1)) agroup 6 (agroup.take (n / nB)) (some rnd.acceptArrows) (some wanted) true =
        .ok (((((List.range (6 ^ nArr (List.replicate n ((1 : ℤ), 1)))).filter rnd.acceptArrows).map (fillNo (List.replicate n (1, 1)) 6)).filter
          (fun z => decide (AMin 6 agroup z))).take wanted) := by
      unfold addArrows
      simp only []
      rw [howManyArrows_fst, ahash_max _ _ (by decide : 0 < 6),
        addArrowsLoop_accept (by decide : 0 < 6) agroup hG'.opsOk (agroup.take (n / nB)) wanted rnd.acceptArrows _ (by simp) [] hw]
      rfl
    unfold enumSys
    rw [single_decor hx]
    simp only [single_howMany hn, multinomial_single, List.sum_cons, List.sum_nil, Nat.add_zero, hlarge]
    unfold enumTotal
    simp only [Bool.false_eq_true, if_false, ne_eq, one_ne_zero, not_false_eq_true, if_true, htot]
    unfold enumCore
    simp only [List.length_singleton, if_true]
    rw [if_neg (by omega), if_neg (fun h => by cases h.2)]
    simp only [hadd, filterSingle_some]
    simp [builtinSuper]
  · intro h
    unfold arrowReps
    congr 2
    exact List.filter_eq_self.mpr (fun a _ => h a)
  · intro h
    have : (List.range (6 ^ nArr (List.replicate n ((1 : ℤ), 1)))).filter rnd.acceptArrows = [] :=
      List.filter_eq_nil_iff.mpr (fun a _ => by rw [h a]; simp)
    rw [this]
    rfl

/-! examples -/

theorem one55_group : IsPermGroup ([27, 28] : List ℕ).sum (([(List.range 55, [0])] : List Op).map (·.1)) := by
  have hone : permute (List.range 55) (List.range 55) = List.range 55 := by decide +kernel
  exact ⟨by simp, by simp, by simpa using hone, by simpa using hone⟩

theorem one55_arrowless : ∀ i, i < ([27, 28] : List ℕ).length → arrowCount (([27, 28] : List ℕ).getD i 0) (([0, 0] : List ℚ).getD i 0) = 0 := by
  intro i hi
  have : i = 0 ∨ i = 1 := by simp at hi; omega
  rcases this with rfl | rfl <;> (unfold arrowCount; decide +kernel)

/-- 27 and 28 atoms on 55 sites without symmetry, 200 of the 3824345300380220 structures wanted, with an acceptance rate -/
example (supers : Bool) (rnd : EnumRandom) : enumSys [(List.range 55, [0])] [27, 28] [0, 0] 200 1 supers true rnd = some (.ok []) := by
  have hp : ∀ g ∈ ([(List.range 55, [0])] : List Op), ∃ d, g.2.Perm (List.range d) := by
    intro g hg
    rw [List.mem_singleton] at hg
    subst hg
    exact ⟨1, by decide⟩
  obtain ⟨full, hfull⟩ := (C13_polya_counts_orbits [27, 28] [(List.range 55, [0])] (by decide) one55_group ⟨1, by simp⟩ hp).1
  have hl := C68_limit.2 full hfull
  exact C101_nothing _ _ _ _ _ _ _ (by decide) (by decide) (by decide) one55_arrowless one55_group ⟨1, by simp⟩ hp (Or.inr (by decide)) full hfull
    (by omega) (by omega) (by omega)

/-- two atoms of either kind on the chain of four sites: a rate changes nothing -/
example (supers : Bool) (rnd : EnumRandom) : enumSys chain4 [2, 2] [0, 0] 2 1 supers true rnd = enumSys chain4 [2, 2] [0, 0] 2 1 supers false rnd :=
  C101_no_effect chain4 [2, 2] [0, 0] 2 1 supers rnd (by decide) (by decide)
    (by intro i hi; have : i = 0 ∨ i = 1 := by simp at hi; omega
        rcases this with rfl | rfl <;> (unfold arrowCount; decide +kernel))
    (by intro total h; rw [chain4_two] at h; cases h; right; decide)

/-- ten sites without symmetry, one atom of a first kind and nine displaced ones of a second kind, 200 structures wanted -/
example (supers : Bool) (rnd : EnumRandom) :
    enumSys [(List.range 10, List.range 6)] [1, 9] [0, 1] 200 1 supers true rnd = some (.ok []) := by
  have hG : IsOpGroup 10 6 [(List.range 10, List.range 6)] := ⟨by decide, by decide, by decide, by decide, by decide⟩
  have har : ∃ i, i < ([1, 9] : List ℕ).length ∧ 0 < arrowCount (([1, 9] : List ℕ).getD i 0) (([0, 1] : List ℚ).getD i 0) :=
    ⟨1, by decide, by simp only [List.getD_cons_succ, List.getD_cons_zero, arrowCount_one]; decide⟩
  obtain ⟨-, full, -, -, -, hfull, -⟩ := C43_request_arrows [(List.range 10, List.range 6)] [1, 9] [0, 1] 200 1 exRandom (by decide) (by decide)
    har hG ⟨1, by simp⟩ (fun l => List.reverse_perm l) (Or.inr (by decide)) (Or.inl (by decide))
  obtain ⟨d, hd, -, hcnt, hdl, -⟩ := C40_arrow_concs [1, 9] [0, 1] (by decide)
  have hdl : d.length = 10 := hdl
  have h9 : 9 ≤ nArr d := by
    have h := (hcnt 1 (by decide)).1
    simp only [List.getD_cons_succ, List.getD_cons_zero, arrowCount_one] at h
    unfold nArr
    rw [← h, List.count_eq_countP]
    apply List.countP_mono_left
    intro s _ hs
    have : s = (1, 1 + 1) := by simpa using hs
    rw [this]
    decide
  have hlen : 6 ^ 9 ≤ (arrowReps d 6 []).length := by
    unfold arrowReps
    rw [List.filter_eq_self.mpr, List.length_map, List.length_range]
    · exact Nat.pow_le_pow_right (by decide) h9
    · intro z _
      simp [AMin]
  have hsub : arrowReps d 6 [] ⊆ full := by
    intro z hz
    obtain ⟨⟨h1, h2⟩, -⟩ := (mem_arrowReps (by decide) _).mp hz
    have hz6 : ∀ s ∈ z, s.1 < ((6 : ℕ) : ℤ) := h2
    have hzc := (composed_iff (by decide) hd 6 (by decide) z).mp ⟨by rw [h1], hz6⟩
    obtain ⟨w, ⟨hw, hwz⟩, -⟩ := hfull.unique z hzc
    have hwc := (composed_iff (by decide) hd 6 (by decide) w).mpr (hfull.mem w hw)
    have hwl : w.length = 10 := by
      have := hwc.1.length_eq
      rw [erase_eq, erase_eq, List.length_map, List.length_map, hdl] at this
      exact this
    obtain ⟨g, hg, e⟩ := hwz
    rw [List.mem_singleton] at hg
    subst hg
    have := act_one hwl hwc.2
    rw [this] at e
    rw [← e]
    exact hw
  have hle : 6 ^ 9 ≤ full.length := by
    exact hlen.trans (List.subperm_of_subset (nodup_arrowReps (by decide) _) hsub).length_le
  exact C101_nothing_arrows _ _ _ _ _ _ _ (by decide) (by decide) har hG ⟨1, by simp⟩ (Or.inr (by decide)) (Or.inl (by decide)) full hfull
    (by omega) (by omega) (by omega)

/-- four displaced atoms on the chain of four sites, ten structures wanted; every draw refused -/
example (rnd : EnumRandom) (h : ∀ t, rnd.acceptArrows t = false) : enumSys chain4 [4] [1] 10 1 true true rnd = some (.ok []) := by
  obtain ⟨full, -, h1⟩ := C101_displaced chain4 4 1 [] 10 1 (by decide) (arrowCount_one 4) chain4_ok chain4_balanced (Or.inl (by decide)) (by decide)
  obtain ⟨kept, -, h2, -, h3⟩ := h1 rnd
  rw [h2, h3 h]
  rfl

end Phenum
