import Verif.Model.Warnings
import Verif.Props.Messages
import Verif.Props.EnumSuper
import Verif.Props.Distribution
import Verif.Props.Enumeration
import Verif.Props.EnumSingle
import Verif.Props.SymGroup
/-
C102: the warnings.
-/
namespace Phenum
open Spec

/-- The settings with -verbose; quiet has not been switched on. -/
def Spec.VerboseMessages (st : MsgState) : Prop := st.verbosity = .flag true ∧ st.quiet ≠ some true

/-- The line on the screen for a warning. -/
def Spec.warningLine (m : Str) : Str := "WARNING: ".toList ++ m ++ ['\n']

theorem warningLine_ne (m : Str) : warningLine m ≠ [] := by unfold warningLine; simp

theorem msgWarn_default {st : MsgState} (h : DefaultMessages st) (m : Str) : msgWarn st m = [] := (C81_default h m).2.2.2.2.2.1

theorem msgWarn_verbose {st : MsgState} (h : VerboseMessages st) (m : Str) : screenText (msgWarn st m) = warningLine m := (C81_verbose h.1 h.2 m 0).1

theorem requestWarning_verbose {st : MsgState} (h : VerboseMessages st) (wanted total : ℕ) :
    screenText (requestWarning st wanted total) = if total < wanted then warningLine requestText else [] := by
  unfold requestWarning
  by_cases h1 : wanted < total
  · rw [if_pos (by exact_mod_cast h1), if_neg (by omega)]; rfl
  · rw [if_neg (by exact_mod_cast h1)]
    by_cases h2 : wanted = total
    · rw [if_pos (by exact_mod_cast h2), if_neg (by omega)]; rfl
    · rw [if_neg (by exact_mod_cast h2), if_pos (by omega)]
      exact msgWarn_verbose h _

/-! ## the warnings change nothing -/

/-- the result of `enumSysShown` without what it shows -/
theorem enumSysShown_fst (st : MsgState) (agroup : List Op) (concs : List ℕ) (aconcs : List ℚ) (wanted nB : ℕ) (supers accept : Bool) (rnd : EnumRandom) :
    (enumSysShown st agroup concs aconcs wanted nB supers accept rnd).map (fun r => r.map (·.1)) = enumSys agroup concs aconcs wanted nB supers accept rnd := by
  unfold enumSysShown enumSys
  cases arrowConcs concs aconcs with
  | error e => rfl
  | ok d =>
    dsimp only
    cases multinomial (concs.map (fun c : ℕ => (c : ℤ))) with
    | error e => rfl
    | ok v =>
      dsimp only
      rcases enumTotal agroup concs (howManyArrows d).2.2 (howManyArrows d).2.1 (largeSystem v (howManyArrows d).2.1 concs.sum wanted) wanted rnd with _ | _ | ⟨t, s⟩
      · rfl
      · rfl
      · dsimp only
        rcases enumCore agroup concs d (howManyArrows d).2.2 (concs.sum / nB) (largeSystem v (howManyArrows d).2.1 concs.sum wanted) t s wanted supers accept rnd with _ | _ | L
        · rfl
        · rfl
        · dsimp only
          split <;> rfl

theorem recountCount_fst (n g : ℕ) (rel : List (DKey × ℕ)) : ∀ (k c : ℕ) (draws : ℕ → ℚ) (st : ℕ × List (DKey × ℕ)),
    (recountCount n g rel k c draws st).1 = recountLoop n g rel k draws st
  | 0, _, _, _ => rfl
  | k + 1, c, draws, st => by
    rw [recountCount, recountLoop]
    split
    · exact recountCount_fst n g rel k (c + 1) _ _
    · rfl

theorem recountCount_snd (n g : ℕ) (rel : List (DKey × ℕ)) : ∀ (k c : ℕ) (draws : ℕ → ℚ) (st : ℕ × List (DKey × ℕ)),
    (recountCount n g rel k c draws st).1.1 < n → (recountCount n g rel k c draws st).2 = c + k
  | 0, _, _, _, _ => rfl
  | k + 1, c, draws, st, h => by
    rw [recountCount] at h ⊢
    split
    · next hlt =>
      rw [if_pos hlt] at h
      rw [recountCount_snd n g rel k (c + 1) _ _ h]
      omega
    · next hlt =>
      rw [if_neg hlt] at h
      exact absurd h hlt

/-- the third warning of `_distribute` is dead code -/
theorem no_limit (n g : ℕ) (rel : List (DKey × ℕ)) (draws : ℕ → ℚ) (s : ℕ × List (DKey × ℕ)) :
    ¬ ((recountCount n g rel 4 0 draws s).2 = 3 ∧ (recountCount n g rel 4 0 draws s).1.1 < n) := by
  rintro ⟨h1, h2⟩
  rw [recountCount_snd _ _ _ _ _ _ _ h2] at h1
  omega

theorem distributeShown_fst (st : MsgState) (tables : List PolyaTable) (res : Restrict) (ft : Ftype) (n : Option ℕ) (draws : ℕ → ℚ) :
    (distributeShown st tables res ft n draws).1 = distribute tables res ft n draws := by
  unfold distributeShown distribute
  rcases n with _ | k
  · simp
  · by_cases hk : k > (distSummary tables res).2
    · simp [hk]
    · simp only [if_neg hk]
      by_cases h2 : k = (distSummary tables res).2
      · simp [h2]
      · simp only [if_neg h2, recountCount_fst]

theorem mapM_run_map {α β γ : Type} (f : α → Run β) (g : α → β → γ) : ∀ (l : List α),
    l.mapM (fun a => do let c ← f a; pure (g a c)) = do
      let r ← l.mapM f
      pure (List.zipWith g l r)
  | [] => by simp
  | a :: l => by
    simp only [List.mapM_cons, mapM_run_map f g l, bind_assoc, pure_bind, List.zipWith_cons_cons]

open Classical in
theorem bringBasisShown_eq (st : MsgState) (asArray : Bool) (text : V3 → V3 → Str) (P : Matrix (Fin 3) (Fin 3) ℝ) (bas : List V3) (eps : ℝ) :
    bringBasisShown st asArray text P bas eps = bringBasis P bas eps >>= fun r => (pure (r, (List.zipWith (fun b c =>
      if ∀ i, |(if asArray then c else b) i - b i| ≤ eps then ([] : List Piece) else msgWarn st (text b (if asArray then c else b))) bas r).flatten) : Run _) := by
  unfold bringBasisShown bringBasis
  induction bas with
  | nil => rfl
  | cons b bas ih =>
    simp only [List.mapM_cons, bind_assoc, pure_bind] at ih ⊢
    congr 1
    funext c
    have e := congrArg (fun (x : Run (List V3 × List Piece)) => x >>= fun p => (pure (c :: p.1,
      (if ∀ i, |(if asArray then c else b) i - b i| ≤ eps then ([] : List Piece) else msgWarn st (text b (if asArray then c else b))) ++ p.2) : Run _)) ih
    simp only [bind_assoc, pure_bind] at e
    simpa using e

/-! ## the sum of a distribution -/

theorem vinsert_sum {k : DKey} {v n : ℕ} {s s' : ℕ × List (DKey × ℕ)} (h : vinsert k v n s = some s') (hs : s.1 = (s.2.map (·.2)).sum) :
    s'.1 = (s'.2.map (·.2)).sum := by
  unfold vinsert at h
  split at h
  · split at h
    · cases h; simp only [dictBump_sum, hs]
    · cases h; exact hs
  · cases h

theorem assignAll_sum {n : ℕ} : ∀ (rel : List (DKey × ℕ)) (s : ℕ × List (DKey × ℕ)), s.1 = (s.2.map (·.2)).sum →
    (assignAll n rel s).1 = ((assignAll n rel s).2.map (·.2)).sum
  | [], s, h => h
  | (k, l) :: rest, s, h => by
    rw [assignAll]
    apply assignAll_sum rest
    cases hv : vinsert k l n s with
    | none => exact h
    | some s' => exact vinsert_sum hv h

theorem passLoop_sum {m n g : ℕ} : ∀ (rel : List (DKey × ℕ)) (draws : ℕ → ℚ) (s : ℕ × List (DKey × ℕ)), s.1 = (s.2.map (·.2)).sum →
    (passLoop m n g rel draws s).1.1 = ((passLoop m n g rel draws s).1.2.map (·.2)).sum
  | [], _, s, h => h
  | (k, l) :: rest, draws, s, h => by
    rw [passLoop]
    split
    · exact h
    · next s' he => exact passLoop_sum rest _ s' (vinsert_sum he h)

theorem recountLoop_sum {n g : ℕ} {rel : List (DKey × ℕ)} : ∀ (k : ℕ) (draws : ℕ → ℚ) (s : ℕ × List (DKey × ℕ)), s.1 = (s.2.map (·.2)).sum →
    (recountLoop n g rel k draws s).1 = ((recountLoop n g rel k draws s).2.map (·.2)).sum
  | 0, _, s, h => h
  | k + 1, draws, s, h => by
    rw [recountLoop]
    split
    · exact recountLoop_sum k _ _ (passLoop_sum rel draws s h)
    · exact h

/-- what `_distribute` shows with -verbose, before the tables are looked at -/
theorem distributeShown_snd {st : MsgState} (h : VerboseMessages st) (tables : List PolyaTable) (res : Restrict) (ft : Ftype) (n : ℕ) (draws : ℕ → ℚ) :
    screenText (distributeShown st tables res ft (some n) draws).2 =
      (if (distSummary tables res).2 < n then warningLine (manyText n (distSummary tables res).2) else []) ++
      if min n (distSummary tables res).2 < ((distribute tables res ft (some n) draws).map (·.2)).sum then warningLine moreText else [] := by
  have hif : ∀ (c : Prop) [Decidable c] (m : Str), screenText (if c then msgWarn st m else []) = if c then warningLine m else [] := by
    intro c _ m
    split
    · exact msgWarn_verbose h m
    · rfl
  rw [← distributeShown_fst st]
  unfold distributeShown
  simp only
  by_cases hk : n > (distSummary tables res).2
  · simp only [if_pos hk, if_true, List.append_nil, screenText_append, hif, msgWarn_verbose h]
    rw [Nat.min_eq_right (le_of_lt hk), ← assignAll_sum _ _ rfl]
  · simp only [if_neg hk]
    rw [Nat.min_eq_left (by omega)]
    by_cases h2 : n = (distSummary tables res).2
    · simp only [if_pos h2, List.append_nil, List.nil_append, hif]
      rw [← assignAll_sum _ _ rfl]
    · have hno := no_limit n (distSummary tables res).2 (sortShares n (distSummary tables res).2 (relKeys (distSummary tables res).1 ft)) draws (0, [])
      rw [recountCount_fst] at hno
      simp only [if_neg h2, recountCount_fst, if_neg hno, List.nil_append, hif]
      rw [← recountLoop_sum _ _ _ rfl]

/-! ## requests -/

/-- what a request that is not a small sample of a large system shows -/
theorem enumSysShown_of (st : MsgState) {agroup : List Op} {concs : List ℕ} {aconcs : List ℚ} {wanted nB : ℕ} {supers accept : Bool} {rnd : EnumRandom} {d : Config}
    {v total : ℤ} {s : Option Subset} {L : List Config} (hd : arrowConcs concs aconcs = .ok d) (hv : multinomial (concs.map (fun c : ℕ => (c : ℤ))) = .ok v)
    (hlarge : largeSystem v (howManyArrows d).2.1 concs.sum wanted = false)
    (ht : enumTotal agroup concs (howManyArrows d).2.2 (howManyArrows d).2.1 false wanted rnd = some (.ok (total, s)))
    (hL : enumSys agroup concs aconcs wanted nB supers accept rnd = some (.ok L)) :
    enumSysShown st agroup concs aconcs wanted nB supers accept rnd = some (.ok (L, requestWarning st wanted total)) := by
  unfold enumSys at hL
  unfold enumSysShown
  rw [hd] at hL ⊢
  simp only [hv, hlarge, ht] at hL ⊢
  cases hc : enumCore agroup concs d (howManyArrows d).2.2 (concs.sum / nB) false total s wanted supers accept rnd with
  | none => rw [hc] at hL; cases hL
  | some r =>
    cases r with
    | error e => rw [hc] at hL; cases hL
    | ok L' =>
      rw [hc] at hL
      simp only at hL ⊢
      by_cases h : L'.length ≠ wanted ∧ (!builtinSuper) = true
      · rw [if_pos h] at hL; cases hL
      · rw [if_neg h] at hL ⊢; cases hL; rfl

theorem largeSystem_plain {concs : List ℕ} {wanted : ℕ} {d : Config} (h2 : concs ≠ []) (hnad : ∀ s ∈ d, s.1 = -1) (hmod : Modest concs wanted) :
    ∃ v, multinomial (concs.map (fun c : ℕ => (c : ℤ))) = .ok v ∧ largeSystem v (howManyArrows d).2.1 concs.sum wanted = false := by
  obtain ⟨v, hv, hv2⟩ := multinomial_of_modest h2 hmod
  refine ⟨v, hv, ?_⟩
  rw [howMany_types_zero hnad]
  unfold largeSystem
  rw [hv2]
  rfl

/-- what a modest request without displaced atoms shows -/
theorem shown_plain {st : MsgState} (hst : VerboseMessages st) {agroup : List Op} {concs : List ℕ} {aconcs : List ℚ} {wanted nB : ℕ} {supers accept : Bool}
    {rnd : EnumRandom} {L : List Config} (h2 : concs ≠ []) (hlen : concs.length ≤ aconcs.length)
    (hna : ∀ i, i < concs.length → arrowCount (concs.getD i 0) (aconcs.getD i 0) = 0) (hmod : Modest concs wanted)
    {total : ℕ} (htot : polya concs agroup .none = some (.ok (total : ℤ)))
    (hL : enumSys agroup concs aconcs wanted nB supers accept rnd = some (.ok L)) :
    ∃ shown, enumSysShown st agroup concs aconcs wanted nB supers accept rnd = some (.ok (L, shown)) ∧
      screenText shown = if total < wanted then warningLine requestText else [] := by
  obtain ⟨d, hd, -⟩ := C40_arrow_concs concs aconcs hlen
  have hnad : ∀ s ∈ d, s.1 = -1 := (C40_decoration_usable concs aconcs d hd hlen).2.2.2.mpr hna
  obtain ⟨v, hv, hlarge⟩ := largeSystem_plain h2 hnad hmod
  refine ⟨_, enumSysShown_of st (total := total) (s := some (chooseSubset rnd.shuffle wanted total)) hd hv hlarge ?_ hL, requestWarning_verbose hst _ _⟩
  unfold enumTotal
  simp only [Bool.false_eq_true, if_false, howMany_types_zero hnad, ne_eq, not_true_eq_false, htot]

/-- C102. Two or more species, no displaced atoms, superperiodic structures kept: with -verbose the warning is shown exactly when more structures are wanted than there
are inequivalent ones, that is exactly when fewer structures are returned than wanted. -/
theorem C102_request {st : MsgState} (hst : VerboseMessages st) (agroup : List Op) (concs : List ℕ) (aconcs : List ℚ) (wanted nB : ℕ) (rnd : EnumRandom)
    (h2 : 2 ≤ concs.length) (hlen : concs.length ≤ aconcs.length) (hn : 1 ≤ concs.sum)
    (hna : ∀ i, i < concs.length → arrowCount (concs.getD i 0) (aconcs.getD i 0) = 0)
    (hG : IsPermGroup concs.sum (agroup.map (·.1))) (hb : Balanced (agroup.map (·.1))) (hp2 : ∀ g ∈ agroup, ∃ d, g.2.Perm (List.range d))
    (hsh : ∀ l, (rnd.shuffle l).Perm l) (hmod : Modest concs wanted) :
    ∃ L shown full, enumSysShown st agroup concs aconcs wanted nB true false rnd = some (.ok (L, shown)) ∧
      IsTransversal (IsLabelling concs) (Equiv (agroup.map (·.1))) full ∧
      screenText shown = (if full.length < wanted then warningLine requestText else []) ∧ (L.length < wanted ↔ screenText shown ≠ []) := by
  obtain ⟨L, full, hL, -, -, hfull, hdel⟩ := C43_request agroup concs aconcs wanted nB rnd h2 hlen hn hna hG hb hp2 hsh hmod
  have htot := (C13_polya_counts_orbits concs agroup hn hG hb hp2).2 _ hfull
  have hne : concs ≠ [] := by intro e; rw [e] at h2; simp at h2
  obtain ⟨shown, h1, h3⟩ := shown_plain hst hne hlen hna hmod htot hL
  refine ⟨L, shown, full, h1, hfull, h3, ?_⟩
  have h4 : L.length < wanted ↔ full.length < wanted := by
    rw [hdel]
    unfold delivered
    split <;> omega
  rw [h4, h3]
  split
  · next h5 => exact ⟨fun _ => warningLine_ne _, fun _ => h5⟩
  · next h5 => exact ⟨fun h => absurd h h5, fun h => absurd rfl h⟩

/-- C102. The same with displaced atoms. -/
theorem C102_request_arrows {st : MsgState} (hst : VerboseMessages st) (agroup : List Op) (concs : List ℕ) (aconcs : List ℚ) (wanted nB : ℕ) (rnd : EnumRandom)
    (h2 : 2 ≤ concs.length) (hlen : concs.length ≤ aconcs.length)
    (har : ∃ i, i < concs.length ∧ 0 < arrowCount (concs.getD i 0) (aconcs.getD i 0))
    (hG : IsOpGroup concs.sum 6 agroup) (hb : Balanced agroup)
    (hsh : ∀ l, (rnd.shuffle l).Perm l) (hmod : Modest concs wanted) (hmod2 : concs.sum < 12 ∨ 100 < wanted) :
    ∃ L shown full, enumSysShown st agroup concs aconcs wanted nB true false rnd = some (.ok (L, shown)) ∧
      IsTransversal (Composed concs aconcs 6) (OpEquiv agroup) full ∧
      screenText shown = (if full.length < wanted then warningLine requestText else []) ∧ (L.length < wanted ↔ screenText shown ≠ []) := by
  obtain ⟨L, full, hL, -, -, hfull, hdel⟩ := C43_request_arrows agroup concs aconcs wanted nB rnd h2 hlen har hG hb hsh hmod hmod2
  have hne : concs ≠ [] := by intro e; rw [e] at h2; simp at h2
  obtain ⟨d, hd, -, -, hdl, -⟩ := C40_arrow_concs concs aconcs hlen
  obtain ⟨huni, hlast, har', -⟩ := C40_decoration_usable concs aconcs d hd hlen
  have hard := har'.mpr har
  have hiff := composed_iff hlen hd 6 (by decide)
  have hGd : IsOpGroup d.length 6 agroup := by rw [hdl]; exact hG
  obtain ⟨v, hv, hv2⟩ := multinomial_of_modest hne hmod
  have hlarge : largeSystem v (howManyArrows d).2.1 concs.sum wanted = false := by
    unfold largeSystem
    have e2 : (decide (((howManyArrows d).2.1 : ℤ) ≠ 0) && decide ((concs.sum : ℤ) ≥ 12) && decide ((wanted : ℤ) ≤ 100)) = false := by
      rcases hmod2 with h | h
      · rw [decide_eq_false (show ¬ ((concs.sum : ℤ) ≥ 12) by omega), Bool.and_false, Bool.false_and]
      · rw [decide_eq_false (show ¬ ((wanted : ℤ) ≤ 100) by omega), Bool.and_false]
    rw [hv2, e2]; rfl
  have hdne : d ≠ [] := by
    obtain ⟨s, hs, -⟩ := hard
    exact List.ne_nil_of_mem hs
  let a : BArgs := ⟨(howManyArrows d).2.2, agroup, d, 6, true, concs.sum / nB, .none, false, rnd.acceptDraw, rnd.acceptArrow⟩
  have hstd : StdCall a := ⟨hdne, rfl, rfl, rfl⟩
  obtain ⟨L0, hL0, hp0⟩ := C15_count_arrows a hstd rfl (show 1 ≤ 6 by decide) hGd hb hard huni hlast
  obtain ⟨L', hL', hM1, hM2, hM3⟩ := C12_one_per_orbit a hstd rfl (show 1 ≤ 6 by decide) hGd hard huni
  have e := Except.ok.inj (Option.some.inj (hL0.symm.trans hL'))
  subst e
  have hfull0 : IsTransversal (Composed concs aconcs 6) (OpEquiv agroup) L0 := by
    refine ⟨hM1, fun z hz => (hiff z).mp (hM2 z hz), ?_⟩
    intro z hz
    have := (hiff z).mpr hz
    exact hM3 z this.1 this.2
  have hprop : ∀ z, Composed concs aconcs 6 z → z.length = d.length ∧ ∀ s ∈ z, s.1 < ((6 : ℕ) : ℤ) := by
    intro z hz
    have h := (hiff z).mpr hz
    have := h.1.length_eq
    rw [erase_eq, erase_eq, List.length_map, List.length_map] at this
    exact ⟨this, h.2⟩
  have hsymm : ∀ x y, Composed concs aconcs 6 x → Composed concs aconcs 6 y → OpEquiv agroup x y → OpEquiv agroup y x :=
    fun x y hx _ h => hGd.opEquiv_symm (hprop x hx).1 (hprop x hx).2 h
  have htrans : ∀ x y z, Composed concs aconcs 6 x → Composed concs aconcs 6 y → Composed concs aconcs 6 z →
      OpEquiv agroup x y → OpEquiv agroup y z → OpEquiv agroup x z :=
    fun x y z hx _ _ h h' => hGd.opEquiv_trans (hprop x hx).1 (hprop x hx).2 h h'
  have hcount : L0.length = full.length :=
    le_antisymm (transversal_length hsymm htrans hfull0 hfull) (transversal_length hsymm htrans hfull hfull0)
  have hp0' : polya (howManyArrows d).2.2 agroup (.num (howManyArrows d).2.1) = some (.ok (full.length : ℤ)) := by
    rw [← hcount]; exact hp0
  have h1 := enumSysShown_of st (total := full.length) (s := some (chooseSubset rnd.shuffle wanted full.length)) hd hv hlarge (by
    unfold enumTotal
    simp only [Bool.false_eq_true, if_false, howMany_types_pos hard, ne_eq, not_false_eq_true, if_true, hp0']) hL
  have h3 := requestWarning_verbose hst wanted full.length
  refine ⟨L, _, full, h1, hfull, h3, ?_⟩
  have h4 : L.length < wanted ↔ full.length < wanted := by
    rw [hdel]
    unfold delivered
    split <;> omega
  rw [h4, h3]
  split
  · next h5 => exact ⟨fun _ => warningLine_ne _, fun _ => h5⟩
  · next h5 => exact ⟨fun h => absurd h h5, fun h => absurd rfl h⟩

/-- C102. One species, every atom displaced, at least a thousandth of the structures wanted: with -verbose the warning is shown exactly when fewer structures are returned
than wanted. -/
theorem C102_request_single {st : MsgState} (hst : VerboseMessages st) (agroup : List Op) (n : ℕ) (x : ℚ) (aconcs : List ℚ) (wanted nB : ℕ) (rnd : EnumRandom)
    (hn : 1 ≤ n) (hx : arrowCount n x = n) (hG : IsOpGroup n 6 agroup) (hb : Balanced agroup) (hmod : n < 12 ∨ 100 < wanted) :
    ∃ full, IsTransversal (Composed [n] (x :: aconcs) 6) (OpEquiv agroup) full ∧
      (full.length ≤ 1000 * wanted →
        ∃ L shown, enumSysShown st agroup [n] (x :: aconcs) wanted nB true false rnd = some (.ok (L, shown)) ∧ L = full.take wanted ∧
          screenText shown = (if full.length < wanted then warningLine requestText else []) ∧ (L.length < wanted ↔ screenText shown ≠ [])) := by
  obtain ⟨full, hf, hreq⟩ := C43_request_single agroup n x aconcs wanted nB rnd hn hx hG hb hmod
  refine ⟨full, hf, fun hle => ?_⟩
  have hlarge : largeSystem 1 (howManyArrows (List.replicate n ((1 : ℤ), 1))).2.1 ([n] : List ℕ).sum wanted = false := by
    rw [single_howMany hn, List.sum_singleton]
    unfold largeSystem
    rw [decide_eq_false (show ¬ ((1 : ℤ) > 100000) by decide)]
    rcases hmod with h | h
    · rw [decide_eq_false (show ¬ ((n : ℤ) ≥ 12) by omega)]; simp
    · rw [decide_eq_false (show ¬ ((wanted : ℤ) ≤ 100) by omega)]; simp
  have h1 := enumSysShown_of st (total := full.length) (s := some (chooseSubset rnd.shuffle wanted full.length)) (single_decor (aconcs := aconcs) hx)
    (multinomial_single n) hlarge (by
      unfold enumTotal
      simp only [Bool.false_eq_true, if_false, single_howMany hn, ne_eq, one_ne_zero, not_false_eq_true, if_true, single_total hn hx hG hb hf]) (hreq hle)
  have h3 := requestWarning_verbose hst wanted full.length
  refine ⟨_, _, h1, rfl, h3, ?_⟩
  rw [h3, List.length_take]
  split
  · next h5 => exact ⟨fun _ => warningLine_ne _, fun _ => by omega⟩
  · next h5 => exact ⟨fun h => by omega, fun h => absurd rfl h⟩

/-- C102. One species, every atom displaced, less than a thousandth of the structures wanted: whatever a call that returns shows, it is nothing, and as many structures are
returned as wanted. -/
theorem C102_request_single_random (st : MsgState) (agroup : List Op) (n : ℕ) (x : ℚ) (aconcs : List ℚ) (wanted nB : ℕ) (supers : Bool) (rnd : EnumRandom)
    (hn : 1 ≤ n) (hx : arrowCount n x = n) (hG : IsOpGroup n 6 agroup) (hb : Balanced agroup) (hmod : n < 12 ∨ 100 < wanted)
    (hdr : ∀ t, rnd.smallDraw t < 6 ^ n - 1) (full : List Config)
    (hf : IsTransversal (Composed [n] (x :: aconcs) 6) (OpEquiv agroup) full) (hlt : 1000 * wanted < full.length)
    (L : List Config) (shown : List Piece) (h : enumSysShown st agroup [n] (x :: aconcs) wanted nB supers false rnd = some (.ok (L, shown))) :
    L.length = wanted ∧ shown = [] := by
  have hL : enumSys agroup [n] (x :: aconcs) wanted nB supers false rnd = some (.ok L) := by
    rw [← enumSysShown_fst st, h]; rfl
  obtain ⟨L', e, hlen, -⟩ := C43_request_single_random agroup n x aconcs wanted nB supers rnd hn hx hG hb hmod hdr full hf hlt _ hL
  cases e
  have hlarge : largeSystem 1 (howManyArrows (List.replicate n ((1 : ℤ), 1))).2.1 ([n] : List ℕ).sum wanted = false := by
    rw [single_howMany hn, List.sum_singleton]
    unfold largeSystem
    rw [decide_eq_false (show ¬ ((1 : ℤ) > 100000) by decide)]
    rcases hmod with h | h
    · rw [decide_eq_false (show ¬ ((n : ℤ) ≥ 12) by omega)]; simp
    · rw [decide_eq_false (show ¬ ((wanted : ℤ) ≤ 100) by omega)]; simp
  have h1 := enumSysShown_of st (total := full.length) (s := some (chooseSubset rnd.shuffle wanted full.length)) (single_decor (aconcs := aconcs) hx)
    (multinomial_single n) hlarge (by
      unfold enumTotal
      simp only [Bool.false_eq_true, if_false, single_howMany hn, ne_eq, one_ne_zero, not_false_eq_true, if_true, single_total hn hx hG hb hf]) hL
  rw [h] at h1
  refine ⟨hlen, ?_⟩
  have e : shown = requestWarning st wanted full.length := congrArg Prod.snd (Except.ok.inj (Option.some.inj h1))
  rw [e]
  unfold requestWarning
  rw [if_pos (by omega)]

/-- C102 fails when superperiodic structures are left out: two structures exist on the chain of four sites with two species, both are wanted, one is returned, and
no warning is shown, even with -verbose. -/
theorem C102_super_silent {st : MsgState} (hst : VerboseMessages st) :
    ∃ z shown, enumSysShown st chain4 [2, 2] [0, 0] 2 1 false false exRandom = some (.ok ([z], shown)) ∧ screenText shown = [] := by
  obtain ⟨htot, z, hz⟩ := C43_fewer
  obtain ⟨shown, h1, h2⟩ := shown_plain hst (by decide) (by decide)
    (by intro i hi; have : i = 0 ∨ i = 1 := by simp at hi; omega
        rcases this with rfl | rfl <;> (unfold arrowCount; decide +kernel)) (Or.inl (by decide)) htot hz
  exact ⟨z, shown, h1, by rw [h2]; rfl⟩

/-- C102. A request for at most 100 structures of a large system (more than 100000 labellings, or displaced atoms on twelve or more sites) never shows the warning. -/
theorem C102_large_silent (st : MsgState) (agroup : List Op) (concs : List ℕ) (aconcs : List ℚ) (wanted nB : ℕ) (supers accept : Bool) (rnd : EnumRandom)
    (hlen : concs.length ≤ aconcs.length) (hw : wanted ≤ 100)
    (hbig : (∃ v, multinomial (concs.map (fun c : ℕ => (c : ℤ))) = .ok v ∧ 100000 < v) ∨
      (12 ≤ concs.sum ∧ ∃ i, i < concs.length ∧ 0 < arrowCount (concs.getD i 0) (aconcs.getD i 0)))
    (L : List Config) (shown : List Piece) (h : enumSysShown st agroup concs aconcs wanted nB supers accept rnd = some (.ok (L, shown))) : shown = [] := by
  obtain ⟨d, hd, -⟩ := C40_arrow_concs concs aconcs hlen
  unfold enumSysShown at h
  rw [hd] at h
  cases hv : multinomial (concs.map (fun c : ℕ => (c : ℤ))) with
  | error e => simp only [hv] at h; cases h
  | ok v =>
    have hlarge : largeSystem v (howManyArrows d).2.1 concs.sum wanted = true := by
      unfold largeSystem
      rw [decide_eq_true (show ((wanted : ℤ) ≤ 100) by omega)]
      rcases hbig with ⟨v', h1, h2⟩ | ⟨h1, h2⟩
      · rw [hv] at h1
        cases h1
        rw [decide_eq_true (show v > 100000 from h2)]
        rfl
      · have hty := howMany_types_pos ((C40_decoration_usable concs aconcs d hd hlen).2.2.1.mpr h2)
        rw [decide_eq_true (show ((howManyArrows d).2.1 : ℤ) ≠ 0 by exact_mod_cast hty), decide_eq_true (show ((concs.sum : ℤ) ≥ 12) by omega)]
        simp
    simp only [hv, hlarge] at h
    rcases ht : enumTotal agroup concs (howManyArrows d).2.2 (howManyArrows d).2.1 true wanted rnd with _ | _ | ⟨t, s⟩
    · rw [ht] at h; cases h
    · rw [ht] at h; cases h
    · rw [ht] at h
      simp only at h
      rcases hc : enumCore agroup concs d (howManyArrows d).2.2 (concs.sum / nB) true t s wanted supers accept rnd with _ | _ | L'
      · rw [hc] at h; cases h
      · rw [hc] at h; cases h
      · rw [hc] at h
        simp only at h
        split at h
        · cases h
        · cases h; rfl

/-! ## distributions -/

/-- C102. A distribution over consistent tables, with -verbose: exactly two warnings are possible, one if more structures are wanted than there are, and one if more
structures are returned than wanted. That fewer are returned than wanted is never said. -/
theorem C102_distribution {st : MsgState} (hst : VerboseMessages st) (tables : List PolyaTable) (res : Restrict) (ft : Ftype) (draws : ℕ → ℚ)
    (hok : ∀ t ∈ tables, TableOk t) (hsz : (tables.map (·.size)).Nodup) (hres : ft = .shape → ∀ l, res ≠ .concs l) (n : ℕ) :
    (distributeShown st tables res ft (some n) draws).1 = distribute tables res ft (some n) draws ∧
    screenText (distributeShown st tables res ft (some n) draws).2 =
      (if grandTotal (entries res tables) < n then warningLine (manyText n (grandTotal (entries res tables))) else []) ++
      if n < ((distribute tables res ft (some n) draws).map (·.2)).sum then warningLine moreText else [] := by
  refine ⟨distributeShown_fst _ _ _ _ _ _, ?_⟩
  obtain ⟨-, -, -, h4⟩ := relOk_tables tables res ft hok hsz hres
  rw [distributeShown_snd hst, h4]
  congr 1
  by_cases hn : n ≤ grandTotal (entries res tables)
  · rw [Nat.min_eq_left hn]
  · have h5 := C34_ample tables res ft draws hok hsz hres n (by omega)
    have h6 := (C33_full_distribution tables res ft draws hok hsz hres).2.2
    rw [h5, h6, Nat.min_eq_right (by omega), if_neg (by omega), if_neg (by omega)]

/-- C102. The two cases happen: three structures are wanted and four returned, with the warning that this should not be possible; one is wanted and none is returned,
without a warning. -/
theorem C102_distribution_short {st : MsgState} (hst : VerboseMessages st) :
    screenText (distributeShown st [rowTable [3, 3]] .none .conc (some 3) (fun _ => 0)).2 = warningLine moreText ∧
    (distributeShown st [rowTable [3, 3, 3]] .none .conc (some 1) (fun _ => 99/100)).1 = [] ∧
    screenText (distributeShown st [rowTable [3, 3, 3]] .none .conc (some 1) (fun _ => 99/100)).2 = [] := by
  obtain ⟨h1, h2, h3⟩ := C34_overshoots
  obtain ⟨h4, h5, h6⟩ := C34_falls_short
  have a := (C102_distribution hst [rowTable [3, 3]] .none .conc (fun _ => 0) (by simpa using h1) (by simp) (by simp) 3).2
  rw [h2, h3] at a
  refine ⟨by rw [a]; rfl, ?_⟩
  obtain ⟨b1, b2⟩ := C102_distribution hst [rowTable [3, 3, 3]] .none .conc (fun _ => 99/100) (by simpa using h4) (by simp) (by simp) 1
  rw [h5, h6] at b2
  exact ⟨b1.trans h6, b2⟩

/-! ## atoms outside of the cell -/

theorem bringBasis_all {P : Matrix (Fin 3) (Fin 3) ℝ} (hP : P.det ≠ 0) {eps : ℝ} (h0 : 0 ≤ eps) (h1 : eps < 1) (bas : List V3) :
    ∃ r, bringBasis P bas eps = (pure r : Run _) ∧
      List.Forall₂ (fun b c => b - c ∈ ColLattice P.transpose ∧ ∀ i, -eps ≤ (P⁻¹).transpose.mulVec c i ∧ (P⁻¹).transpose.mulVec c i ≤ 1 - eps) bas r := by
  induction bas with
  | nil => exact ⟨[], rfl, List.Forall₂.nil⟩
  | cons b bas ih =>
    obtain ⟨r, hr, hf⟩ := ih
    obtain ⟨c, hc, hb, z, hz⟩ := C27_bring_into_cell b (P⁻¹).transpose P.transpose eps h0 h1 (by
      rw [Matrix.transpose_nonsing_inv]; exact l2c_c2l hP)
    refine ⟨c :: r, ?_, List.Forall₂.cons ⟨⟨z, ?_⟩, hb⟩ hf⟩
    · unfold bringBasis at hr ⊢
      rw [List.mapM_cons, hr, hc]
      rfl
    · rw [hz]; abel

/-- C102 fails for atoms outside of the cell: the basis vectors of lattice.in are lists of numbers, and for those the warning is never shown, with or without -verbose,
although the atoms are moved into the cell. -/
theorem C102_outside (st : MsgState) (text : V3 → V3 → Str) {P : Matrix (Fin 3) (Fin 3) ℝ} (hP : P.det ≠ 0) {eps : ℝ} (h0 : 0 ≤ eps) (h1 : eps < 1) (bas : List V3) :
    ∃ r, bringBasisShown st false text P bas eps = (pure (r, []) : Run _) ∧
      List.Forall₂ (fun b c => b - c ∈ ColLattice P.transpose ∧ ∀ i, -eps ≤ (P⁻¹).transpose.mulVec c i ∧ (P⁻¹).transpose.mulVec c i ≤ 1 - eps) bas r := by
  obtain ⟨r, hr, hf⟩ := bringBasis_all hP h0 h1 bas
  refine ⟨r, ?_, hf⟩
  rw [bringBasisShown_eq, hr, pure_bind]
  congr 2
  rw [List.flatten_eq_nil_iff]
  intro l hl
  obtain ⟨i, hi, rfl⟩ := List.mem_iff_getElem.mp hl
  rw [List.getElem_zipWith]
  simp [h0]

/-- C102. For a two-dimensional array of basis vectors the warnings with -verbose are those of the atoms that are moved by more than the tolerance. -/
theorem C102_outside_array {st : MsgState} (hst : VerboseMessages st) (text : V3 → V3 → Str) {P : Matrix (Fin 3) (Fin 3) ℝ} (hP : P.det ≠ 0) {eps : ℝ} (h0 : 0 ≤ eps) (h1 : eps < 1) (bas : List V3) :
    ∃ r shown, bringBasisShown st true text P bas eps = (pure (r, shown) : Run _) ∧
      List.Forall₂ (fun b c => b - c ∈ ColLattice P.transpose ∧ ∀ i, -eps ≤ (P⁻¹).transpose.mulVec c i ∧ (P⁻¹).transpose.mulVec c i ≤ 1 - eps) bas r ∧
      open Classical in
      screenText shown = (((bas.zip r).filter (fun p => decide (∃ i, eps < |p.2 i - p.1 i|))).map (fun p => warningLine (text p.1 p.2))).flatten := by
  obtain ⟨r, hr, hf⟩ := bringBasis_all hP h0 h1 bas
  refine ⟨r, _, by rw [bringBasisShown_eq, hr, pure_bind], hf, ?_⟩
  clear hr
  induction hf with
  | nil => rfl
  | @cons b c bas r hbc hf ih =>
    rw [List.zipWith_cons_cons, List.flatten_cons, screenText_append, ih, List.zip_cons_cons, List.filter_cons]
    by_cases h : ∃ i, eps < |c i - b i|
    · have h' : ¬ ∀ i, |(if true = true then c else b) i - b i| ≤ eps := by
        obtain ⟨i, hi⟩ := h
        intro ha
        exact absurd (ha i) (not_le.mpr hi)
      rw [if_neg h', msgWarn_verbose hst]
      simp [h]
    · have h' : ∀ i, |(if true = true then c else b) i - b i| ≤ eps := by
        intro i
        exact not_lt.mp (fun hi => h ⟨i, hi⟩)
      rw [if_pos h']
      simp only [h, decide_false, Bool.false_eq_true, if_false]
      rfl

/-! ## without -verbose, and what is computed -/

/-- C102. Without -verbose no warning is shown; with it nothing else is computed. -/
theorem C102_quiet {st : MsgState} (hst : DefaultMessages st) :
    (∀ agroup concs aconcs wanted nB supers accept rnd L shown, enumSysShown st agroup concs aconcs wanted nB supers accept rnd = some (.ok (L, shown)) → shown = []) ∧
    (∀ tables res ft n draws, (distributeShown st tables res ft n draws).2 = []) ∧
    (∀ asArray text P bas eps, bringBasisShown st asArray text P bas eps = bringBasis P bas eps >>= fun r => (pure (r, []) : Run _)) ∧
    ∀ a d, inputWarning st a d = [] := by
  have hw := msgWarn_default hst
  refine ⟨?_, ?_, ?_, ?_⟩
  · intro agroup concs aconcs wanted nB supers accept rnd L shown h
    unfold enumSysShown at h
    cases hd : arrowConcs concs aconcs with
    | error e => rw [hd] at h; cases h
    | ok d =>
      rw [hd] at h
      cases hv : multinomial (concs.map (fun c : ℕ => (c : ℤ))) with
      | error e => simp only [hv] at h; cases h
      | ok v =>
        simp only [hv] at h
        rcases ht : enumTotal agroup concs (howManyArrows d).2.2 (howManyArrows d).2.1 (largeSystem v (howManyArrows d).2.1 concs.sum wanted) wanted rnd with _ | _ | ⟨t, s⟩
        · rw [ht] at h; cases h
        · rw [ht] at h; cases h
        · rw [ht] at h
          simp only at h
          rcases hc : enumCore agroup concs d (howManyArrows d).2.2 (concs.sum / nB) (largeSystem v (howManyArrows d).2.1 concs.sum wanted) t s wanted supers accept rnd with _ | _ | L'
          · rw [hc] at h; cases h
          · rw [hc] at h; cases h
          · rw [hc] at h
            simp only at h
            split at h
            · cases h
            · cases h
              unfold requestWarning
              simp only [hw, ite_self]
  · intro tables res ft n draws
    unfold distributeShown
    rcases n with _ | k
    · simp [hw]
    · by_cases hk : k > (distSummary tables res).2
      · simp [hk, hw]
      · by_cases h2 : k = (distSummary tables res).2
        · simp [h2, hw]
        · simp [hk, h2, hw]
  · intro asArray text P bas eps
    rw [bringBasisShown_eq]
    congr 1
    funext r
    congr 2
    rw [List.flatten_eq_nil_iff]
    intro l hl
    obtain ⟨i, hi, rfl⟩ := List.mem_iff_getElem.mp hl
    rw [List.getElem_zipWith, hw, ite_self]
  · intro a d
    unfold inputWarning
    rw [hw, ite_self]

/-- C102. Whatever the settings, the structures and the distribution are those of the functions without warnings. -/
theorem C102_same (st : MsgState) :
    (∀ agroup concs aconcs wanted nB supers accept rnd, (enumSysShown st agroup concs aconcs wanted nB supers accept rnd).map (fun r => r.map (·.1)) =
      enumSys agroup concs aconcs wanted nB supers accept rnd) ∧
    (∀ tables res ft n draws, (distributeShown st tables res ft n draws).1 = distribute tables res ft n draws) ∧
    ∀ asArray text P bas eps, (bringBasisShown st asArray text P bas eps >>= fun r => (pure r.1 : Run _)) = bringBasis P bas eps := by
  refine ⟨fun _ _ _ _ _ _ _ _ => enumSysShown_fst st _ _ _ _ _ _ _ _, fun _ _ _ _ _ => distributeShown_fst st _ _ _ _ _, ?_⟩
  intro asArray text P bas eps
  rw [bringBasisShown_eq, bind_assoc]
  simp

/-- C102. With -verbose a run of `-enum` whose file of requests does not exist says so, and one whose file exists shows nothing. -/
theorem C102_missing_input {st : MsgState} (hst : VerboseMessages st) (a : Args) (d : Dir) (he : a.enum = true) :
    ((∃ text, dictGet d (a.input.getD "enum.in".toList) = some text) → inputWarning st a d = []) ∧
    (dictGet d (a.input.getD "enum.in".toList) = none → screenText (inputWarning st a d) =
      warningLine ("The input file ".toList ++ a.input.getD "enum.in".toList ++ " does not exist. Assuming you want full enumeration.".toList)) := by
  have hn : (fileNames a).1.getD [] = a.input.getD "enum.in".toList := by
    unfold fileNames
    simp only [he, if_true]
    split <;> rfl
  unfold inputWarning
  rw [hn]
  constructor
  · rintro ⟨t, ht⟩
    rw [if_neg (by rw [ht]; simp)]
  · intro h
    rw [if_pos ⟨he, by rw [h]; rfl⟩, msgWarn_verbose hst]

/-- C102. The switch: with -verbose (and no call of set_quiet before) the rest of the run shows warnings, whatever the settings were; without it they are as
they were. Nothing is shown by the switch itself and the options are kept. -/
theorem C102_switch {α : Type} (st : MsgState) (t : HelpTexts) (opts : α) (hq : st.quiet ≠ some true) :
    (∃ st', exhandler st t false true opts = ([], st', some opts) ∧ VerboseMessages st' ∧ ∀ m, screenText (msgWarn st' m) = warningLine m) ∧
    exhandler st t false false opts = ([], st, some opts) ∧ (DefaultMessages st → ∀ m, msgWarn st m = []) := by
  refine ⟨⟨{ st with verbosity := .flag true }, rfl, ⟨rfl, hq⟩, fun m => msgWarn_verbose (st := { st with verbosity := .flag true }) ⟨rfl, hq⟩ m⟩, rfl, fun h m => msgWarn_default h m⟩

/-- C102. The same for the program: `enumeration.py -verbose ...` continues with settings with which warnings are shown. -/
theorem C102_switch_program (st : MsgState) (t : HelpTexts) (w : World) (tol : Tol) (a : Args) (d : Dir) (hq : st.quiet ≠ some true) :
    ∃ st', mainEnum st t w tol false true a d = ([], scriptShown st' w tol a d) ∧ VerboseMessages st' :=
  ⟨{ st with verbosity := .flag true }, rfl, rfl, hq⟩

/-! ## examples -/

/-- the settings at the start of the program: the hypothesis of `C102_switch` -/
example : ({} : MsgState).quiet ≠ some true ∧ DefaultMessages {} := ⟨by decide, rfl, by decide⟩

/-- the settings after -verbose -/
def exVerbose : MsgState := { verbosity := .flag true }

theorem exVerbose_ok : VerboseMessages exVerbose := ⟨rfl, by decide⟩

/-- two structures exist on the chain of four sites, five are wanted -/
example : ∃ L shown, enumSysShown exVerbose chain4 [2, 2] [0, 0] 5 1 true false exRandom = some (.ok (L, shown)) ∧ screenText shown = warningLine requestText := by
  obtain ⟨L, shown, full, h1, h2, h3, h4⟩ := C102_request exVerbose_ok chain4 [2, 2] [0, 0] 5 1 exRandom (by decide) (by decide) (by decide)
    (by intro i hi; have : i = 0 ∨ i = 1 := by simp at hi; omega
        rcases this with rfl | rfl <;> (unfold arrowCount; decide +kernel))
    chain4_ok.permGroup ⟨1, by decide⟩ (fun g hg => ⟨6, chain4_ok.arrows g hg⟩) (fun l => List.reverse_perm l) (Or.inl (by decide))
  have h5 := (C13_polya_counts_orbits [2, 2] chain4 (by decide) chain4_ok.permGroup ⟨1, by decide⟩ (fun g hg => ⟨6, chain4_ok.arrows g hg⟩)).2 _ h2
  rw [chain4_two] at h5
  have h6 : full.length = 2 := by
    have := Except.ok.inj (Option.some.inj h5)
    exact_mod_cast this.symm
  refine ⟨L, shown, h1, ?_⟩
  rw [h3, h6]
  rfl

/-- the hypotheses of `C102_request_arrows` hold for one atom and nine displaced ones -/
example : ∃ L shown full, enumSysShown exVerbose [(List.range 10, List.range 6)] [1, 9] [0, 1] 200 1 true false exRandom = some (.ok (L, shown)) ∧
    IsTransversal (Composed [1, 9] [0, 1] 6) (OpEquiv [(List.range 10, List.range 6)]) full ∧
    screenText shown = (if full.length < 200 then warningLine requestText else []) ∧ (L.length < 200 ↔ screenText shown ≠ []) :=
  C102_request_arrows exVerbose_ok _ [1, 9] [0, 1] 200 1 exRandom (by decide) (by decide)
    ⟨1, by decide, by simp only [List.getD_cons_succ, List.getD_cons_zero, arrowCount_one]; decide⟩
    ⟨by decide, by decide, by decide, by decide, by decide⟩ ⟨1, by simp⟩ (fun l => List.reverse_perm l) (Or.inr (by decide)) (Or.inl (by decide))

/-- the hypotheses of `C102_request_single` hold for four displaced atoms on a chain and ten structures -/
example : ∃ full, IsTransversal (Composed [4] [1] 6) (OpEquiv chain4) full ∧
    (full.length ≤ 1000 * 10 → ∃ L shown, enumSysShown exVerbose chain4 [4] [1] 10 1 true false exRandom = some (.ok (L, shown)) ∧ L = full.take 10 ∧
      screenText shown = (if full.length < 10 then warningLine requestText else []) ∧ (L.length < 10 ↔ screenText shown ≠ [])) :=
  C102_request_single exVerbose_ok chain4 4 1 [] 10 1 exRandom (by decide) (arrowCount_one 4) chain4_ok chain4_balanced (Or.inl (by decide))

/-- the hypotheses of `C102_request_single_random` hold for five displaced atoms without symmetry, of whose 7776 structures one is wanted; the call returns it -/
example : ∃ full L, IsTransversal (Composed [5] [1] 6) (OpEquiv [(List.range 5, List.range 6)]) full ∧ 1000 * 1 < full.length ∧
    enumSysShown exVerbose [(List.range 5, List.range 6)] [5] [1] 1 1 true false exRandom = some (.ok (L, [])) ∧ L.length = 1 := by
  have hG : IsOpGroup 5 6 [(List.range 5, List.range 6)] := ⟨by decide, by decide, by decide, by decide, by decide⟩
  have hb : Balanced ([(List.range 5, List.range 6)] : List Op) := ⟨1, by decide⟩
  have hf := single_reps (aconcs := []) (arrowCount_one 5) hG
  have hlen : (arrowReps (List.replicate 5 ((1 : ℤ), 1)) 6 [(List.range 5, List.range 6)]).length = 7776 := by
    unfold arrowReps
    rw [List.filter_eq_self.mpr, List.length_map, List.length_range]
    · rw [show nArr (List.replicate 5 ((1 : ℤ), 1)) = 5 by decide]; norm_num
    · intro z hz
      obtain ⟨m, hm, rfl⟩ := List.mem_map.mp hz
      have h := (fillNo_spec (col := List.replicate 5 ((1 : ℤ), 1)) (dim := 6) (by decide) (List.mem_range.mp hm)).2.1
      have hl : (fillNo (List.replicate 5 ((1 : ℤ), 1)) 6 m).length = 5 := by
        have := congrArg List.length h.1
        simpa [erase] using this
      rw [decide_eq_true_eq]
      intro g hg
      rw [List.mem_singleton.mp hg, act_one hl h.2]
  have hadd : addArrowsSmall (List.replicate 5 ((1 : ℤ), 1)) [(List.range 5, List.range 6)] 6 ([(List.range 5, List.range 6)].take (5 / 1)) true 1 exRandom.smallDraw =
      some (.ok [List.replicate 5 (0, 1)]) := by
    unfold addArrowsSmall sampleLoop
    have h5 : (howManyArrows (List.replicate 5 ((1 : ℤ), 1))).1 = 5 := by rw [single_howMany (by decide)]
    simp only [h5]
    rw [if_neg (by decide +kernel), pyWhileO_unfold, if_pos (by decide)]
    have hstep : sampleStep exRandom.smallDraw (fun _ d visited => some (smallBody (List.replicate 5 ((1 : ℤ), 1)) [(List.range 5, List.range 6)] 6
        ([(List.range 5, List.range 6)].take (5 / 1)) true 5 d visited)) ⟨0, [], []⟩ = some (.ok ⟨1, [0], [List.replicate 5 (0, 1)]⟩) := by
      have hd : exRandom.smallDraw 0 = 0 := rfl
      have hbody : smallBody (List.replicate 5 ((1 : ℤ), 1)) [(List.range 5, List.range 6)] 6 ([(List.range 5, List.range 6)].take (5 / 1)) true 5 0 [0] =
        .ok [List.replicate 5 (0, 1)] := by decide +kernel
      unfold sampleStep
      simp only [hd, List.nil_append, hbody, List.not_mem_nil, if_false, Nat.zero_add]
    rw [hstep]
    simp only
    rw [pyWhileO_unfold, if_neg (by simp)]
  have htot := single_total (aconcs := []) (by decide) (arrowCount_one 5) hG hb hf
  rw [hlen] at htot
  have hL : enumSysShown exVerbose [(List.range 5, List.range 6)] [5] [1] 1 1 true false exRandom =
      some (.ok ([List.replicate 5 (0, 1)], requestWarning exVerbose 1 7776)) := by
    unfold enumSysShown
    rw [single_decor (arrowCount_one 5)]
    simp only [single_howMany (show 1 ≤ 5 by decide), multinomial_single, List.sum_cons, List.sum_nil, Nat.add_zero, show largeSystem 1 (1 : ℕ) (5 : ℕ) (1 : ℕ) = false by decide]
    unfold enumTotal
    simp only [Bool.false_eq_true, if_false, ne_eq, one_ne_zero, not_false_eq_true, if_true, htot]
    unfold enumCore
    simp only [List.length_singleton, if_true]
    rw [if_neg (by decide), if_pos (by decide), hadd]
    simp [filterSingle_some, builtinSuper]
  exact ⟨_, _, hf, by omega, hL, rfl⟩

/-- one displaced atom without symmetry: six structures; for ten wanted the warning is shown -/
example : ∃ L shown, enumSysShown exVerbose [([0], List.range 6)] [1] [1] 10 1 true false exRandom = some (.ok (L, shown)) ∧ L.length = 6 ∧
    screenText shown = warningLine requestText := by
  obtain ⟨full, hf, h⟩ := C102_request_single exVerbose_ok [([0], List.range 6)] 1 1 [] 10 1 exRandom (by decide) (arrowCount_one 1)
    ⟨by decide, by decide, by decide, by decide, by decide⟩ ⟨1, by simp⟩ (Or.inl (by decide))
  have hp := single_total (aconcs := []) (le_refl 1) (arrowCount_one 1) (agroup := [([0], List.range 6)])
    ⟨by decide, by decide, by decide, by decide, by decide⟩ ⟨1, by simp⟩ hf
  have hr := single_total (aconcs := []) (le_refl 1) (arrowCount_one 1) (agroup := [([0], List.range 6)])
    ⟨by decide, by decide, by decide, by decide, by decide⟩ ⟨1, by simp⟩ (single_reps (arrowCount_one 1) ⟨by decide, by decide, by decide, by decide, by decide⟩)
  have h6 : (arrowReps (List.replicate 1 ((1 : ℤ), 1)) 6 [([0], List.range 6)]).length = 6 := by decide +kernel
  have hl : full.length = 6 := by
    have e := Except.ok.inj (Option.some.inj (hp.symm.trans hr))
    rw [h6] at e
    exact_mod_cast e
  obtain ⟨L, shown, h1, h2, h3, -⟩ := h (by omega)
  refine ⟨L, shown, h1, ?_, ?_⟩
  · rw [h2, List.length_take, hl]; decide
  · rw [h3, if_pos (by omega)]

/-- the hypotheses of `C102_large_silent` hold for one displaced atom and eleven others, and the request returns -/
example : enumSysShown exVerbose [(List.range 12, List.range 6)] [1, 11] [1, 0] 0 1 true false exRandom = some (.ok ([], [])) := by
  obtain ⟨d, hd, -⟩ := C40_arrow_concs [1, 11] [1, 0] (by decide)
  have har : ∃ i, i < [1, 11].length ∧ 0 < arrowCount ([1, 11].getD i 0) (([1, 0] : List ℚ).getD i 0) :=
    ⟨0, by decide, by simp only [List.getD_cons_zero, arrowCount_one]; decide⟩
  have hty := howMany_types_pos ((C40_decoration_usable [1, 11] [1, 0] d hd (by decide)).2.2.1.mpr har)
  have hm : multinomial (([1, 11] : List ℕ).map (fun c : ℕ => (c : ℤ))) = .ok 12 := by decide +kernel
  have hl : largeSystem 12 (howManyArrows d).2.1 ([1, 11] : List ℕ).sum (0 : ℕ) = true := by
    unfold largeSystem
    rw [decide_eq_true (show ((howManyArrows d).2.1 : ℤ) ≠ 0 by exact_mod_cast hty)]
    rfl
  have hg : ∀ a : GArgs, a.wanted = 0 → guessAndCheck a = some (.ok []) := by
    intro a ha
    unfold guessAndCheck sampleLoop
    rw [pyWhileO_unfold, if_neg (by simp [ha])]
  have hc0 : enumCore [(List.range 12, List.range 6)] [1, 11] d (howManyArrows d).2.2 (([1, 11] : List ℕ).sum / 1) true 10000000000 none 0 true false exRandom =
      some (.ok []) := by
    unfold enumCore
    rw [if_neg (by decide), if_pos (by decide), hg _ rfl]
  unfold enumSysShown
  rw [hd]
  dsimp only
  rw [hm]
  dsimp only
  rw [hl]
  unfold enumTotal
  simp only [if_true, hc0]
  rfl

/-- an atom two cells away is moved, and nothing is said -/
example (text : V3 → V3 → Str) : ∃ r, bringBasisShown exVerbose false text 1 [![2, 0, 0]] (1 / 10) = (pure (r, []) : Run _) ∧ r ≠ [![2, 0, 0]] := by
  obtain ⟨r, h1, h2⟩ := C102_outside exVerbose text (P := 1) (by simp) (eps := 1 / 10) (by norm_num) (by norm_num) [![2, 0, 0]]
  refine ⟨r, h1, ?_⟩
  rintro rfl
  rcases h2 with _ | ⟨⟨-, hb⟩, -⟩
  have := (hb 0).2
  simp at this
  norm_num at this

end Phenum
