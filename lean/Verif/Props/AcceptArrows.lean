import Verif.Props.AcceptRate
/-
C101: an acceptance rate for two or more species with displaced atoms.
-/
namespace Phenum
open Spec

/-- A loop that stops not later than another one it is in step with. -/
theorem pyWhile_sim {S T : Type} {cond : S → Bool} {step : S → Py S} {cond' : T → Bool} {step' : T → Py T} {R Q : S → T → Prop}
    (hc : ∀ s t, R s t → cond s = true → cond' t = true)
    (hs : ∀ s t t', R s t → cond s = true → step' t = .ok t' → ∃ s', step s = .ok s' ∧ R s' t')
    (hRQ : ∀ s t, R s t → Q s t) (hQ : ∀ s t t', Q s t → step' t = .ok t' → Q s t') :
    ∀ t r, pyWhile cond' step' t = some r → ∀ s, R s t → ∀ t', r = .ok t' → ∃ s', pyWhile cond step s = some (.ok s') ∧ Q s' t' := by
  have hmono : ∀ t r, pyWhile cond' step' t = some r → ∀ s, Q s t → ∀ t', r = .ok t' → Q s t' := by
    apply pyWhile.partial_correctness cond' step' (fun t r => ∀ s, Q s t → ∀ t', r = .ok t' → Q s t')
    intro loop ih t r hr s hq t' ht'
    by_cases hb : cond' t = true
    · rw [if_pos hb] at hr
      cases hst : step' t with
      | error e => rw [hst] at hr; cases hr; cases ht'
      | ok t1 => rw [hst] at hr; exact ih t1 r hr s (hQ s t t1 hq hst) t' ht'
    · rw [if_neg hb] at hr
      cases hr
      cases ht'
      exact hq
  have key : ∀ t r, pyWhile cond' step' t = some r → pyWhile cond' step' t = some r → ∀ s, R s t → ∀ t', r = .ok t' → ∃ s', pyWhile cond step s = some (.ok s') ∧ Q s' t' := by
    apply pyWhile.partial_correctness cond' step' (fun t r => pyWhile cond' step' t = some r → ∀ s, R s t → ∀ t', r = .ok t' → ∃ s', pyWhile cond step s = some (.ok s') ∧ Q s' t')
    intro loop ih t r hr hw s hR t' ht'
    by_cases hb : cond s = true
    · have hb' := hc s t hR hb
      rw [if_pos hb'] at hr
      cases hst : step' t with
      | error e => rw [hst] at hr; cases hr; cases ht'
      | ok t1 =>
        rw [hst] at hr
        obtain ⟨s1, h1, h2⟩ := hs s t t1 hR hb hst
        obtain ⟨s', h3, h4⟩ := ih t1 r hr (by rw [pyWhile_unfold, if_pos hb', hst] at hw; exact hw) s1 h2 t' ht'
        refine ⟨s', ?_, h4⟩
        rw [pyWhile_unfold, if_pos hb, h1]
        exact h3
    · refine ⟨s, by rw [pyWhile_unfold, if_neg hb], ?_⟩
      exact hmono t r hw s (hRQ s t hR) t' ht'
  exact fun t r hr => key t r hr hr

/-- `add_arrows` with an acceptance rate returns some of the structures it returns without. -/
theorem addArrowsLoop_some {dim narrows : ℕ} {col : Config} {H tr : List Op} {supers : Bool} (acc : Option (ℕ → Bool)) :
    ∀ (ms : List ℕ) (sv sv' L : List Config), sv'.Sublist sv → addArrowsLoop col H dim tr none none supers narrows ms sv = .ok L →
      ∃ L', addArrowsLoop col H dim tr acc none supers narrows ms sv' = .ok L' ∧ L'.Sublist L
  | [], sv, sv', L, h, hL => by
    cases hL
    exact ⟨sv', rfl, h⟩
  | m :: ms, sv, sv', L, h, hL => by
    simp only [addArrowsLoop, bind, Except.bind] at hL ⊢
    cases hu : arrowUnique col (ainvhash m narrows dim) m dim H with
    | error e => rw [hu] at hL; cases hL
    | ok u =>
      rw [hu] at hL
      simp only at hL ⊢
      by_cases hu1 : u = true
      · rw [if_pos hu1] at hL ⊢
        cases hf : fillArrows col (ainvhash m narrows dim) with
        | error e => rw [hf] at hL; cases hL
        | ok z =>
          rw [hf] at hL
          simp only at hL ⊢
          have hnone : ∀ x : List Config, ¬ ((none : Option ℕ) = some x.length) := fun x => by simp
          have post : ∀ (b q : Bool), (if (true && q) = true then if none = some (sv ++ [z]).length then (.ok (sv ++ [z]) : Py (List Config))
              else addArrowsLoop col H dim tr none none supers narrows ms (sv ++ [z]) else addArrowsLoop col H dim tr none none supers narrows ms sv) = .ok L →
              ∃ L', (if (b && q) = true then if none = some (sv' ++ [z]).length then (.ok (sv' ++ [z]) : Py (List Config))
                else addArrowsLoop col H dim tr acc none supers narrows ms (sv' ++ [z]) else addArrowsLoop col H dim tr acc none supers narrows ms sv') = .ok L' ∧ L'.Sublist L := by
            intro b q hL
            simp only [if_neg (hnone _), Bool.true_and] at hL ⊢
            by_cases hq1 : q = true
            · rw [if_pos hq1] at hL
              split
              · exact addArrowsLoop_some acc ms _ _ L (h.append (List.Sublist.refl _)) hL
              · exact addArrowsLoop_some acc ms _ _ L (h.trans (List.sublist_append_left _ _)) hL
            · rw [if_neg hq1] at hL
              rw [if_neg (by simp [hq1])]
              exact addArrowsLoop_some acc ms _ _ L h hL
          by_cases hsup : supers = true
          · rw [if_pos hsup] at hL ⊢
            exact post _ _ hL
          · rw [if_neg hsup] at hL ⊢
            cases hq : arrowNotSuper z (ainvhash m narrows dim) tr with
            | error e => rw [hq] at hL; cases hL
            | ok q =>
              rw [hq] at hL
              exact post _ _ hL
      · rw [if_neg hu1] at hL ⊢
        exact addArrowsLoop_some acc ms _ _ L h hL

theorem addArrows_some {dim : ℕ} {col : Config} {H tr : List Op} {supers : Bool} (acc : Option (ℕ → Bool)) {L : List Config}
    (hL : addArrows col H dim tr none none supers = .ok L) : ∃ L', addArrows col H dim tr acc none supers = .ok L' ∧ L'.Sublist L := by
  unfold addArrows at hL ⊢
  exact addArrowsLoop_some acc _ [] [] L (List.Sublist.refl _) hL

theorem appendArrows_some (a : BArgs) (l : List ℕ) : ∀ (ar ar' : List Config) (c c' : ℕ) (sv sv' : List Config) (b : BArgs) (sub : Subset), ar'.Sublist ar → sv'.Sublist sv →
    (∀ c, keepCandidate b sub c = true) →
    (appendArrows a (.list l) ar' c' sv').2.Sublist (appendArrows b sub ar c sv).2
  | ar, [], c, c', sv, sv', b, sub, _, h, hk => by
    have : ∀ (ar : List Config) (c : ℕ) (sv : List Config), sv'.Sublist sv → sv'.Sublist (appendArrows b sub ar c sv).2 := by
      intro ar
      induction ar with
      | nil => intro c sv h; exact h
      | cons z ar ih =>
        intro c sv h
        rw [appendArrows]
        apply ih
        split
        · exact h.trans (List.sublist_append_left _ _)
        · exact h
    exact this ar c sv h
  | [], z :: ar', c, c', sv, sv', b, sub, ha, h, hk => by cases ha
  | y :: ar, z :: ar', c, c', sv, sv', b, sub, ha, h, hk => by
    have hb : (appendArrows b sub (y :: ar) c sv) = appendArrows b sub ar (c + 1) (sv ++ [y]) := by
      rw [appendArrows, if_pos (hk c)]
    rw [hb]
    cases ha with
    | cons _ ha => exact appendArrows_some a l ar (z :: ar') (c + 1) c' _ sv' b sub ha (h.trans (List.sublist_append_left _ _)) hk
    | cons_cons _ ha =>
      rw [appendArrows]
      refine appendArrows_some a l ar ar' (c + 1) (c' + 1) _ _ b sub ha ?_ hk
      split
      · exact h.append (List.Sublist.refl _)
      · exact h.trans (List.sublist_append_left _ _)

/-- the ordinals below a number -/
def below (l : List ℕ) (c : ℕ) : ℕ := (l.filter (fun x => decide (x < c))).length

theorem below_succ {l : List ℕ} (hl : l.Nodup) (c : ℕ) : below l (c + 1) = below l c + if c ∈ l then 1 else 0 := by
  unfold below
  induction l with
  | nil => simp
  | cons x l ih =>
    obtain ⟨h1, h2⟩ := List.nodup_cons.mp hl
    have ih := ih h2
    rw [List.filter_cons, List.filter_cons]
    rcases lt_trichotomy x c with h | h | h
    · have : ¬ c = x := by omega
      rw [if_pos (by simpa using by omega), if_pos (by simpa using h), List.length_cons, List.length_cons, ih]
      simp only [List.mem_cons, this, false_or]
      omega
    · subst h
      rw [if_pos (by simp), if_neg (by simp), List.length_cons, ih, if_neg h1]
      simp
    · have : ¬ c = x := by omega
      rw [if_neg (by simpa using by omega), if_neg (by simpa using by omega), ih]
      simp only [List.mem_cons, this, false_or]

theorem appendArrows_below (a : BArgs) {l : List ℕ} (hl : l.Nodup) (hne : l ≠ []) (ha : a.subset = .list l) : ∀ (ar : List Config) (c : ℕ) (sv : List Config),
    sv.length ≤ below l c → (appendArrows a (.list l) ar c sv).2.length ≤ below l (appendArrows a (.list l) ar c sv).1
  | [], c, sv, h => h
  | z :: ar, c, sv, h => by
    rw [appendArrows]
    apply appendArrows_below a hl hne ha ar
    have hk : keepCandidate a (.list l) c = decide (c ∈ l) := by
      unfold keepCandidate useSubset
      rw [ha]
      simp only
      rw [if_neg]
      simpa using hne
    rw [below_succ hl, hk]
    split
    · next hm => rw [if_pos (by simpa using hm), List.length_append, List.length_singleton]; omega
    · next hm => rw [if_neg (by simpa using hm)]; exact h

/-- the same request without a rate, for all structures -/
def allOf (a : BArgs) : BArgs := { a with accept := false, subset := .none }

theorem allOf_fields (a : BArgs) : (allOf a).concs = a.concs ∧ (allOf a).decor = a.decor ∧ (allOf a).colors = a.colors ∧ (allOf a).dim = a.dim ∧
    (allOf a).cellsize = a.cellsize ∧ (allOf a).group = a.group ∧ (allOf a).supers = a.supers ∧ (allOf a).C = a.C ∧ (allOf a).accept = false :=
  ⟨rfl, rfl, rfl, rfl, rfl, rfl, rfl, rfl, rfl⟩

theorem superStep_arrows {a : BArgs} (h : 0 < a.narrows) (s : BState) (u : ℕ) : superStep a s u = .ok (u, s.subset, s.count) := by
  unfold superStep
  rw [if_neg]
  simp only [Bool.and_eq_true, decide_eq_true_eq, not_and]
  intro _
  omega

theorem keep_all (a : BArgs) (sub : Subset) (c : ℕ) : keepCandidate (allOf a) sub c = true := by
  unfold keepCandidate useSubset allOf
  rfl

theorem appendArrows_grows (b : BArgs) (sub : Subset) : ∀ (ar : List Config) (c : ℕ) (sv : List Config), sv.Sublist (appendArrows b sub ar c sv).2
  | [], _, sv => List.Sublist.refl _
  | z :: ar, c, sv => by
    rw [appendArrows]
    refine List.Sublist.trans ?_ (appendArrows_grows b sub ar _ _)
    split
    · exact List.sublist_append_left _ _
    · exact List.Sublist.refl _

theorem emit_arrows {a : BArgs} (h : 0 < a.narrows) (br : List ℕ) (ast : List Op) (sub : Subset) (c : ℕ) (sv : List Config) :
    emit a br ast sub c sv = (do
      let brancht ← invhash br a.concs a.decor.length
      let dec ← decorate a.colors brancht
      let ar ← addArrows dec ast a.dim (a.group.take a.cellsize) (if a.accept then some (a.acceptArrow br) else none) none a.supers
      .ok (appendArrows a sub ar c sv)) := by
  unfold emit
  rw [if_pos h]

theorem emit_some {a : BArgs} (h : 0 < a.narrows) {l : List ℕ} (hl : l.Nodup) (ha : a.subset = .list l) (br : List ℕ) (ast : List Op) (c c' : ℕ) (sv sv' : List Config)
    (hsv : sv'.Sublist sv) (hlen : l ≠ [] → sv'.length ≤ below l c') {r : ℕ × List Config} (hr : emit (allOf a) br ast .none c sv = .ok r) :
    ∃ r', emit a br ast (.list l) c' sv' = .ok r' ∧ r'.2.Sublist r.2 ∧ (l ≠ [] → r'.2.length ≤ below l r'.1) := by
  obtain ⟨f1, f2, f3, f4, f5, f6, f7, f8, f9⟩ := allOf_fields a
  rw [emit_arrows (a := allOf a) h] at hr
  rw [emit_arrows h]
  simp only [f1, f2, f3, f4, f5, f6, f7, f9, Bool.false_eq_true, if_false, bind, Except.bind] at hr ⊢
  cases h1 : invhash br a.concs a.decor.length with
  | error e => rw [h1] at hr; cases hr
  | ok brt =>
    rw [h1] at hr
    simp only at hr ⊢
    cases h2 : decorate a.colors brt with
    | error e => rw [h2] at hr; cases hr
    | ok dec =>
      rw [h2] at hr
      simp only at hr ⊢
      cases h3 : addArrows dec ast a.dim (a.group.take a.cellsize) none none a.supers with
      | error e => rw [h3] at hr; cases hr
      | ok ar =>
        rw [h3] at hr
        obtain ⟨ar', h4, h5⟩ := addArrows_some (if a.accept then some (a.acceptArrow br) else none) h3
        rw [h4]
        refine ⟨_, rfl, ?_, fun hne => appendArrows_below a hl hne ha ar' c' sv' (hlen hne)⟩
        have := Except.ok.inj hr
        rw [← this]
        exact appendArrows_some a l ar ar' c c' sv sv' (allOf a) .none h5 hsv (keep_all a .none)

theorem record_some {a : BArgs} (h : 0 < a.narrows) {l : List ℕ} (hl : l.Nodup) (ha : a.subset = .list l) (s t : BState) (hsub : s.subset = .list l) (htsub : t.subset = .none)
    (hb : s.branch = t.branch) (hi : s.i = t.i) (hb0 : s.b0 = t.b0)
    (hsv : s.survivors.Sublist t.survivors) (hlen : l ≠ [] → s.survivors.length ≤ below l s.count) (u : ℕ) (ast : List Op) {r : ℕ × ℕ × Subset × List Config}
    (hr : bRecord (allOf a) t u ast = .ok r) :
    ∃ r', bRecord a s u ast = .ok r' ∧ r'.1 = r.1 ∧ r'.2.2.1 = .list l ∧ r.2.2.1 = .none ∧ r'.2.2.2.Sublist r.2.2.2 ∧ (l ≠ [] → r'.2.2.2.length ≤ below l r'.2.1) := by
  unfold bRecord at hr ⊢
  rw [superStep_arrows (a := allOf a) h, htsub] at hr
  rw [superStep_arrows h, hsub, hb, hi, hb0]
  simp only [bind, Except.bind] at hr ⊢
  by_cases hc : u = 0 ∧ (t.b0 = 1 ∨ t.i = 0)
  · rw [if_pos hc] at hr ⊢
    cases h1 : emit (allOf a) t.branch ast .none t.count t.survivors with
    | error e => rw [h1] at hr; cases hr
    | ok e =>
      rw [h1] at hr
      obtain ⟨e', h2, h3, h4⟩ := emit_some h hl ha t.branch ast t.count s.count t.survivors s.survivors hsv hlen h1
      rw [h2]
      have := Except.ok.inj hr
      subst this
      exact ⟨_, rfl, rfl, rfl, rfl, h3, h4⟩
  · rw [if_neg hc] at hr ⊢
    have := Except.ok.inj hr
    subst this
    exact ⟨_, rfl, rfl, rfl, rfl, hsv, hlen⟩

/-- the two runs in step -/
structure InStep (l : List ℕ) (s t : BState) : Prop where
  branch : s.branch = t.branch
  i : s.i = t.i
  b0 : s.b0 = t.b0
  order : s.order = t.order
  stab : s.stab = t.stab
  sub : s.subset = .list l
  tsub : t.subset = .none
  surv : s.survivors.Sublist t.survivors
  len : l ≠ [] → s.survivors.length ≤ below l s.count

theorem step_some {a : BArgs} (h : 0 < a.narrows) {l : List ℕ} (hl : l.Nodup) (ha : a.subset = .list l) (s t t' : BState) (hR : InStep l s t)
    (ht : bStep (allOf a) t = .ok t') : ∃ s', bStep a s = .ok s' ∧ InStep l s' t' := by
  obtain ⟨f1, f2, f3, f4, f5, f6, f7, f8, f9⟩ := allOf_fields a
  unfold bStep at ht ⊢
  simp only [f1, f6, f8, bind, Except.bind] at ht ⊢
  rw [hR.stab, hR.i, hR.branch, hR.order, hR.b0]
  cases h1 : pyGet t.stab t.i with
  | error e => rw [h1] at ht; cases ht
  | ok stabi =>
    rw [h1] at ht
    simp only at ht ⊢
    cases h2 : perm t.branch a.concs a.concs.sum t.i a.group stabi t.order with
    | error e => rw [h2] at ht; cases ht
    | ok out =>
      rw [h2] at ht
      simp only at ht ⊢
      cases h3 : pySet t.stab (t.i + 1) out.st with
      | error e => rw [h3] at ht; cases ht
      | ok stab =>
        rw [h3] at ht
        simp only at ht ⊢
        cases h4 : bRecord (allOf a) t out.unique out.ast with
        | error e => rw [h4] at ht; cases ht
        | ok r =>
          rw [h4] at ht
          obtain ⟨r', h5, h6, h7, h8, h9, h10⟩ := record_some h hl ha s t hR.sub hR.tsub hR.branch hR.i hR.b0 hR.surv hR.len out.unique out.ast h4
          rw [h5]
          simp only [h6] at ht ⊢
          cases h11 : bNav a.C r.1 t.i t.b0 t.branch out.order with
          | error e => rw [h11] at ht; cases ht
          | ok nav =>
            rw [h11] at ht
            have := Except.ok.inj ht
            subst this
            exact ⟨_, rfl, ⟨rfl, rfl, rfl, rfl, rfl, h7, h8, h9, h10⟩⟩

theorem emit_grows {a : BArgs} (h : 0 < a.narrows) (br : List ℕ) (ast : List Op) (sub : Subset) (c : ℕ) (sv : List Config) {r : ℕ × List Config}
    (hr : emit a br ast sub c sv = .ok r) : sv.Sublist r.2 := by
  rw [emit_arrows h] at hr
  simp only [bind, Except.bind] at hr
  cases h1 : invhash br a.concs a.decor.length with
  | error e => rw [h1] at hr; cases hr
  | ok brt =>
    rw [h1] at hr
    simp only at hr
    cases h2 : decorate a.colors brt with
    | error e => rw [h2] at hr; cases hr
    | ok dec =>
      rw [h2] at hr
      simp only at hr
      cases h3 : addArrows dec ast a.dim (a.group.take a.cellsize) (if a.accept then some (a.acceptArrow br) else none) none a.supers with
      | error e => rw [h3] at hr; cases hr
      | ok ar =>
        rw [h3] at hr
        rw [← Except.ok.inj hr]
        exact appendArrows_grows a sub ar c sv

theorem step_grows {a : BArgs} (h : 0 < a.narrows) (t t' : BState) (ht : bStep a t = .ok t') : t.survivors.Sublist t'.survivors := by
  unfold bStep at ht
  simp only [bind, Except.bind] at ht
  cases h1 : pyGet t.stab t.i with
  | error e => rw [h1] at ht; cases ht
  | ok stabi =>
    rw [h1] at ht
    simp only at ht
    cases h2 : perm t.branch a.concs a.concs.sum t.i a.group stabi t.order with
    | error e => rw [h2] at ht; cases ht
    | ok out =>
      rw [h2] at ht
      simp only at ht
      cases h3 : pySet t.stab (t.i + 1) out.st with
      | error e => rw [h3] at ht; cases ht
      | ok stab =>
        rw [h3] at ht
        simp only at ht
        cases h4 : bRecord a t out.unique out.ast with
        | error e => rw [h4] at ht; cases ht
        | ok r =>
          rw [h4] at ht
          simp only at ht
          have hg : t.survivors.Sublist r.2.2.2 := by
            unfold bRecord at h4
            rw [superStep_arrows h] at h4
            simp only [bind, Except.bind] at h4
            by_cases hc : out.unique = 0 ∧ (t.b0 = 1 ∨ t.i = 0)
            · rw [if_pos hc] at h4
              cases h5 : emit a t.branch out.ast t.subset t.count t.survivors with
              | error e => rw [h5] at h4; cases h4
              | ok e =>
                rw [h5] at h4
                rw [← Except.ok.inj h4]
                exact emit_grows h _ _ _ _ _ h5
            · rw [if_neg hc] at h4
              rw [← Except.ok.inj h4]
          cases h11 : bNav a.C r.1 t.i t.b0 t.branch out.order with
          | error e => rw [h11] at ht; cases ht
          | ok nav =>
            rw [h11] at ht
            rw [← Except.ok.inj ht]
            exact hg

/-- `brancher` with displaced atoms, a list of ordinals and any rate: some of the structures that it lists without them, at most as many as there are ordinals. -/
theorem brancher_some {a : BArgs} (h : 0 < a.narrows) {l : List ℕ} (hl : l.Nodup) (ha : a.subset = .list l) {full : List Config}
    (hf : brancher (allOf a) = some (.ok full)) :
    ∃ L, brancher a = some (.ok L) ∧ L.Sublist full ∧ (l ≠ [] → L.length ≤ l.length) := by
  unfold brancher at hf ⊢
  change (if a.concs = [] then _ else _) = _ at hf
  by_cases hc : a.concs = []
  · rw [if_pos hc] at hf; cases hf
  rw [if_neg hc] at hf ⊢
  cases hw : pyWhile (bCond (allOf a)) (bStep (allOf a)) (bInit (allOf a)) with
  | none => rw [hw] at hf; cases hf
  | some r =>
    rw [hw] at hf
    cases r with
    | error e => cases hf
    | ok t' =>
      simp only at hf
      have hf := Except.ok.inj (Option.some.inj hf)
      obtain ⟨s', h1, h2, h3⟩ := pyWhile_sim (cond := bCond a) (step := bStep a) (cond' := bCond (allOf a)) (step' := bStep (allOf a)) (R := InStep l)
        (Q := fun s t => s.survivors.Sublist t.survivors ∧ (l ≠ [] → s.survivors.length ≤ below l s.count))
        (fun s t hR hs => by
          unfold bCond at hs ⊢
          rw [Bool.and_eq_true] at hs
          have hu : useSubset (allOf a) = false := rfl
          rw [hu, ← hR.branch]
          have : (allOf a).C = a.C := rfl
          rw [this, hs.1]
          simp)
        (fun s t t' hR _ ht => step_some h hl ha s t t' hR ht) (fun s t hR => ⟨hR.surv, hR.len⟩)
        (fun s t t' hq ht => ⟨hq.1.trans (step_grows (a := allOf a) h t t' ht), hq.2⟩) _ _ hw (bInit a)
        ⟨rfl, rfl, rfl, rfl, rfl, ha, rfl, List.Sublist.refl _, fun _ => Nat.zero_le _⟩ t' rfl
      rw [h1]
      refine ⟨_, rfl, by rw [← hf]; exact h2, fun hne => (h3 hne).trans ?_⟩
      exact List.length_filter_le _ _

theorem addArrowsLoop_rejected {dim narrows : ℕ} {col : Config} {H tr : List Op} {supers : Bool} {f : ℕ → Bool} (hf : ∀ t, f t = false) :
    ∀ (ms : List ℕ) (sv L : List Config), addArrowsLoop col H dim tr (some f) none supers narrows ms sv = .ok L → L = sv
  | [], sv, L, h => by cases h; rfl
  | m :: ms, sv, L, h => by
    simp only [addArrowsLoop, bind, Except.bind, hf, Bool.false_and, Bool.false_eq_true, if_false] at h
    cases hu : arrowUnique col (ainvhash m narrows dim) m dim H with
    | error e => rw [hu] at h; cases h
    | ok u =>
      rw [hu] at h
      simp only at h
      by_cases hu1 : u = true
      · rw [if_pos hu1] at h
        cases hz : fillArrows col (ainvhash m narrows dim) with
        | error e => rw [hz] at h; cases h
        | ok z =>
          rw [hz] at h
          simp only at h
          by_cases hsup : supers = true
          · rw [if_pos hsup] at h
            exact addArrowsLoop_rejected hf ms sv L h
          · rw [if_neg hsup] at h
            cases hq : arrowNotSuper z (ainvhash m narrows dim) tr with
            | error e => rw [hq] at h; cases h
            | ok q => rw [hq] at h; exact addArrowsLoop_rejected hf ms sv L h
      · rw [if_neg hu1] at h
        exact addArrowsLoop_rejected hf ms sv L h

theorem step_rejected {a : BArgs} (h : 0 < a.narrows) (hacc : a.accept = true) (hrej : ∀ br t, a.acceptArrow br t = false) (t t' : BState) (ht : bStep a t = .ok t')
    (h0 : t.survivors = []) : t'.survivors = [] := by
  unfold bStep at ht
  simp only [bind, Except.bind] at ht
  cases h1 : pyGet t.stab t.i with
  | error e => rw [h1] at ht; cases ht
  | ok stabi =>
    rw [h1] at ht
    simp only at ht
    cases h2 : perm t.branch a.concs a.concs.sum t.i a.group stabi t.order with
    | error e => rw [h2] at ht; cases ht
    | ok out =>
      rw [h2] at ht
      simp only at ht
      cases h3 : pySet t.stab (t.i + 1) out.st with
      | error e => rw [h3] at ht; cases ht
      | ok stab =>
        rw [h3] at ht
        simp only at ht
        cases h4 : bRecord a t out.unique out.ast with
        | error e => rw [h4] at ht; cases ht
        | ok r =>
          rw [h4] at ht
          simp only at ht
          have hg : r.2.2.2 = [] := by
            unfold bRecord at h4
            rw [superStep_arrows h] at h4
            simp only [bind, Except.bind] at h4
            by_cases hc : out.unique = 0 ∧ (t.b0 = 1 ∨ t.i = 0)
            · rw [if_pos hc, emit_arrows h, h0] at h4
              simp only [bind, Except.bind, hacc, if_true] at h4
              cases e1 : invhash t.branch a.concs a.decor.length with
              | error e => rw [e1] at h4; cases h4
              | ok brt =>
                rw [e1] at h4
                simp only at h4
                cases e2 : decorate a.colors brt with
                | error e => rw [e2] at h4; cases h4
                | ok dec =>
                  rw [e2] at h4
                  simp only at h4
                  cases e3 : addArrows dec out.ast a.dim (a.group.take a.cellsize) (some (a.acceptArrow t.branch)) none a.supers with
                  | error e => rw [e3] at h4; cases h4
                  | ok ar =>
                    rw [e3] at h4
                    have : ar = [] := by
                      unfold addArrows at e3
                      exact addArrowsLoop_rejected (hrej t.branch) _ _ _ e3
                    subst this
                    rw [← Except.ok.inj h4]
                    rfl
            · rw [if_neg hc] at h4
              rw [← Except.ok.inj h4]
              exact h0
          cases h11 : bNav a.C r.1 t.i t.b0 t.branch out.order with
          | error e => rw [h11] at ht; cases ht
          | ok nav =>
            rw [h11] at ht
            rw [← Except.ok.inj ht]
            exact hg

theorem brancher_rejected {a : BArgs} (h : 0 < a.narrows) (hacc : a.accept = true) (hrej : ∀ br t, a.acceptArrow br t = false) {L : List Config}
    (hL : brancher a = some (.ok L)) : L = [] := by
  unfold brancher at hL
  by_cases hc : a.concs = []
  · rw [if_pos hc] at hL; cases hL
  rw [if_neg hc] at hL
  cases hw : pyWhile (bCond a) (bStep a) (bInit a) with
  | none => rw [hw] at hL; cases hL
  | some r =>
    rw [hw] at hL
    cases r with
    | error e => cases hL
    | ok t =>
      have hL := Except.ok.inj (Option.some.inj hL)
      rw [← hL]
      have key : ∀ s r, pyWhile (bCond a) (bStep a) s = some r → s.survivors = [] → ∀ t, r = .ok t → t.survivors = [] := by
        apply pyWhile.partial_correctness (bCond a) (bStep a) (fun s r => s.survivors = [] → ∀ t, r = .ok t → t.survivors = [])
        intro loop ih s r hr h0 t ht
        by_cases hb : bCond a s = true
        · rw [if_pos hb] at hr
          cases hst : bStep a s with
          | error e => rw [hst] at hr; cases hr; cases ht
          | ok s1 => rw [hst] at hr; exact ih s1 r hr (step_rejected h hacc hrej s s1 hst h0) t ht
        · rw [if_neg hb] at hr
          cases hr
          cases ht
          exact h0
      exact key _ _ hw rfl t rfl

/-- C101 for two or more species with displaced atoms, if fewer than a million structures exist or all are wanted: a request with an acceptance rate returns, without an
error, some of the inequivalent structures, in the order of the full list, at most as many as wanted; if no draw is accepted, none. -/
theorem C101_some (agroup : List Op) (concs : List ℕ) (aconcs : List ℚ) (wanted nB : ℕ)
    (h2 : 2 ≤ concs.length) (hlen : concs.length ≤ aconcs.length)
    (har : ∃ i, i < concs.length ∧ 0 < arrowCount (concs.getD i 0) (aconcs.getD i 0))
    (hG : IsOpGroup concs.sum 6 agroup) (hb : Balanced agroup)
    (hmod : Modest concs wanted) (hmod2 : concs.sum < 12 ∨ 100 < wanted) (hw : 1 ≤ wanted) :
    ∃ full, IsTransversal (Composed concs aconcs 6) (OpEquiv agroup) full ∧ ((full.length < 1000000 ∨ full.length ≤ wanted) →
      ∀ rnd : EnumRandom, (∀ l, (rnd.shuffle l).Perm l) → ∃ L, enumSys agroup concs aconcs wanted nB true true rnd = some (.ok L) ∧ L.Sublist full ∧ L.length ≤ wanted ∧
        ((∀ br t, rnd.acceptArrow br t = false) → L = [])) := by
  obtain ⟨d, hd, -, -, hdl, -⟩ := C40_arrow_concs concs aconcs hlen
  obtain ⟨huni, hlast, har', -⟩ := C40_decoration_usable concs aconcs d hd hlen
  have hard := har'.mpr har
  have hiff := composed_iff hlen hd 6 (by decide)
  have hGd : IsOpGroup d.length 6 agroup := by rw [hdl]; exact hG
  have hty := howMany_types_pos hard
  obtain ⟨v, hv, hv2⟩ := multinomial_of_modest (by intro e; rw [e] at h2; simp at h2) hmod
  have hlarge : largeSystem v (howManyArrows d).2.1 concs.sum wanted = false := by
    unfold largeSystem
    have e2 : (decide (((howManyArrows d).2.1 : ℤ) ≠ 0) && decide ((concs.sum : ℤ) ≥ 12) && decide ((wanted : ℤ) ≤ 100)) = false := by
      rcases hmod2 with h | h
      · rw [decide_eq_false (show ¬ ((concs.sum : ℤ) ≥ 12) by omega), Bool.and_false, Bool.false_and]
      · rw [decide_eq_false (show ¬ ((wanted : ℤ) ≤ 100) by omega), Bool.and_false]
    rw [hv2, e2]; rfl
  let a : BArgs := ⟨(howManyArrows d).2.2, agroup, d, 6, true, concs.sum / nB, .none, false, fun _ => false, fun _ _ => false⟩
  have hne : d ≠ [] := by
    obtain ⟨s, hs, -⟩ := hard
    exact List.ne_nil_of_mem hs
  have hstd : StdCall a := ⟨hne, rfl, rfl, rfl⟩
  obtain ⟨L0, hL0, hp0⟩ := C15_count_arrows a hstd rfl (show 1 ≤ 6 by decide) hGd hb hard huni hlast
  obtain ⟨L', hL', hM1, hM2, hM3⟩ := C12_one_per_orbit a hstd rfl (show 1 ≤ 6 by decide) hGd hard huni
  have e := Except.ok.inj (Option.some.inj (hL0.symm.trans hL'))
  subst e
  refine ⟨L0, ⟨hM1, fun z hz => (hiff z).mp (hM2 z hz), fun z hz => by
    have := (hiff z).mpr hz
    exact hM3 z this.1 this.2⟩, ?_⟩
  intro hfew rnd hsh
  have hna : 0 < (howManyArrows d).1 := by
    rw [howManyArrows_fst]
    obtain ⟨s, hs, h0⟩ := hard
    exact List.countP_pos_iff.mpr ⟨s, hs, by simpa using h0⟩
  obtain ⟨l, hl, hln, hlw⟩ : ∃ l, chooseSubset rnd.shuffle wanted (L0.length : ℤ) = .list l ∧ l.Nodup ∧ ((l = [] ∧ L0.length ≤ wanted) ∨ (l ≠ [] ∧ l.length ≤ wanted)) := by
    unfold chooseSubset
    by_cases h3 : (wanted : ℤ) < L0.length
    · rw [if_pos h3, if_pos (by omega)]
      refine ⟨_, rfl, ?_, Or.inr ⟨?_, ?_⟩⟩
      · exact ((hsh _).nodup_iff.mpr List.nodup_range').sublist (List.take_sublist _ _)
      · intro he
        have := congrArg List.length he
        rw [List.length_take, (hsh _).length_eq, List.length_range'] at this
        simp only [Int.toNat_natCast, List.length_nil] at this
        omega
      · rw [List.length_take]; omega
    · rw [if_neg h3]
      exact ⟨[], rfl, List.nodup_nil, Or.inl ⟨rfl, by omega⟩⟩
  let b : BArgs := ⟨(howManyArrows d).2.2, agroup, d, 6, true, concs.sum / nB, .list l, true, rnd.acceptDraw, rnd.acceptArrow⟩
  obtain ⟨L, hL, hsub, hle⟩ := brancher_some (a := b) hna hln rfl (full := L0) (by
    have e3 : brancher (allOf b) = brancher a := by
      have hu : ∀ sub c, keepCandidate (allOf b) sub c = keepCandidate a sub c := fun _ _ => rfl
      have happ : ∀ (ar : List Config) (sub : Subset) (c : ℕ) (sv : List Config), appendArrows (allOf b) sub ar c sv = appendArrows a sub ar c sv := by
        intro ar
        induction ar with
        | nil => intro sub c sv; rfl
        | cons z ar ih => intro sub c sv; rw [appendArrows, appendArrows, hu, ih]
      have hem : ∀ br ast sub c sv, emit (allOf b) br ast sub c sv = emit a br ast sub c sv := by
        intro br ast sub c sv
        rw [emit_arrows (a := allOf b) hna, emit_arrows (a := a) hna]
        simp only [happ]
        rfl
      have hst : bStep (allOf b) = bStep a := by
        funext s
        have hr : ∀ u ast, bRecord (allOf b) s u ast = bRecord a s u ast := by
          intro u ast
          unfold bRecord
          rw [superStep_arrows (a := allOf b) hna, superStep_arrows (a := a) hna]
          simp only [hem]
        unfold bStep
        simp only [hr]
        rfl
      unfold brancher
      rw [hst]
      rfl
    rw [e3]
    exact hL0)
  refine ⟨L, ?_, hsub, ?_, fun hrej => brancher_rejected (a := b) hna rfl hrej hL⟩
  · unfold enumSys
    rw [hd]
    simp only [hv, hlarge]
    unfold enumTotal
    simp only [Bool.false_eq_true, if_false, ne_eq, hty, not_false_eq_true, if_true]
    rw [show polya (howManyArrows d).2.2 agroup (.num (howManyArrows d).2.1) = some (.ok (L0.length : ℤ)) from hp0]
    simp only
    unfold enumCore
    rw [if_neg (by omega), hl]
    simp only [Bool.false_and, Bool.false_eq_true, if_false]
    rw [hL]
    simp [builtinSuper]
  · rcases hlw with ⟨h3, h4⟩ | ⟨h3, h4⟩
    · exact hsub.length_le.trans h4
    · exact (hle h3).trans h4

/-! example -/

theorem pair_few {z : Config} (h : Composed [1, 1] [0, 1] 6 z) :
    z ∈ (List.range 6).flatMap (fun k : ℕ => [[(-1, 1), ((k : ℤ), 2)], [((k : ℤ), 2), (-1, 1)]]) := by
  have h1 := h.counts 0 (by decide)
  have h2 := h.counts 1 (by decide)
  simp only [List.getD_cons_zero, List.getD_cons_succ, show arrowCount 1 0 = 0 by unfold arrowCount; simp, arrowCount_one] at h1 h2
  have hl : z.length = 2 := by
    have e := h1.1
    have e2 := h2.1
    have : ∀ w : Config, (∀ s ∈ w, 1 ≤ s.2 ∧ s.2 ≤ 2) → w.length = w.countP (fun s => decide (s.2 = 0 + 1)) + w.countP (fun s => decide (s.2 = 1 + 1)) := by
      intro w
      induction w with
      | nil => intro _; rfl
      | cons s w ih =>
        intro hw
        have hs := hw s (by simp)
        rw [List.length_cons, ih (fun t ht => hw t (by simp [ht])), List.countP_cons, List.countP_cons]
        have : s.2 = 1 ∨ s.2 = 2 := by omega
        rcases this with hh | hh <;> simp [hh] <;> omega
    rw [this z h.species, e, e2]
  obtain ⟨s, t, rfl⟩ : ∃ s t, z = [s, t] := by
    match z, hl with
    | [s, t], _ => exact ⟨s, t, rfl⟩
  obtain ⟨x, i⟩ := s
  obtain ⟨y, j⟩ := t
  have hx := h.arrow (x, i) (by simp)
  have hy := h.arrow (y, j) (by simp)
  have hi := h.species (x, i) (by simp)
  have hj := h.species (y, j) (by simp)
  simp only [List.length_cons, List.length_nil] at hx hy hi hj
  have hi' : i = 1 ∨ i = 2 := by omega
  have hj' : j = 1 ∨ j = 2 := by omega
  simp only [List.mem_flatMap, List.mem_range]
  rcases hi' with rfl | rfl <;> rcases hj' with rfl | rfl <;> simp [List.countP_cons] at h1 h2
  · have hx1 : x = -1 := by rcases hx with hx | hx <;> omega
    refine ⟨y.toNat, by omega, ?_⟩
    simp [hx1, Int.toNat_of_nonneg h2]
  · have hy1 : y = -1 := by rcases hy with hy | hy <;> omega
    refine ⟨x.toNat, by omega, ?_⟩
    simp [hy1, Int.toNat_of_nonneg h2]

/-- one atom and one displaced one on two sites without symmetry, three of the twelve structures wanted, with an acceptance rate -/
example (rnd : EnumRandom) (h : ∀ l, (rnd.shuffle l).Perm l) :
    ∃ full L, IsTransversal (Composed [1, 1] [0, 1] 6) (OpEquiv [(List.range 2, List.range 6)]) full ∧
      enumSys [(List.range 2, List.range 6)] [1, 1] [0, 1] 3 1 true true rnd = some (.ok L) ∧ L.Sublist full ∧ L.length ≤ 3 := by
  obtain ⟨full, hf, hall⟩ := C101_some [(List.range 2, List.range 6)] [1, 1] [0, 1] 3 1 (by decide) (by decide)
    ⟨1, by decide, by simp only [List.getD_cons_succ, List.getD_cons_zero, arrowCount_one]; decide⟩
    ⟨by decide, by decide, by decide, by decide, by decide⟩ ⟨1, by simp⟩ (Or.inl (by decide)) (Or.inl (by decide)) (by decide)
  have hlen : full.length ≤ 12 := (hf.nodup.subperm (fun w hw => pair_few (hf.mem w hw))).length_le
  obtain ⟨L, h1, h2, h3, -⟩ := hall (Or.inl (by omega)) rnd h
  exact ⟨full, L, hf, h1, h2, h3⟩

end Phenum
