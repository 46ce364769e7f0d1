import Verif.Props.EnumSys
/-
C43 for one species: `enum_sys` uses `add_arrows` directly.
-/
namespace Phenum
open Spec

theorem addArrowsLoop_take {dim : ℕ} {col : Config} (hd : 0 < dim) (H : List Op) (hH : OpsOk col.length dim H) (tr : List Op) (k : ℕ)
    (ms : List ℕ) (hms : ∀ m ∈ ms, m < dim ^ nArr col) (surv : List Config) (hk : surv.length < k) :
    addArrowsLoop col H dim tr none (some k) true (nArr col) ms surv =
      .ok ((surv ++ (ms.map (fillNo col dim)).filter (fun z => decide (AMin dim H z))).take k) := by
  induction ms generalizing surv with
  | nil => simp [addArrowsLoop, List.take_of_length_le (le_of_lt hk)]
  | cons m ms ih =>
    have ih := ih (fun m' hm' => hms m' (by simp [hm']))
    obtain ⟨h1, h2, h3, h4⟩ := fillNo_spec hd (hms m (by simp))
    rw [addArrowsLoop, ← h3, arrowUnique_eq H hH h2, fillArrows_arr h2.1]
    simp only [bind, Except.bind]
    have hdec : decide (∀ g ∈ H, m ≤ ahash (arr (act g (fillNo col dim m))) dim)
        = decide (AMin dim H (fillNo col dim m)) := by
      rw [decide_eq_decide]; unfold AMin; rw [h4]
    rw [hdec, List.map_cons, List.filter_cons]
    by_cases hm : AMin dim H (fillNo col dim m)
    · simp only [hm, decide_true, if_true, pure, Except.pure, Bool.and_self]
      by_cases he : k = (surv ++ [fillNo col dim m]).length
      · rw [if_pos (by rw [he])]
        congr 1
        rw [List.append_cons surv (fillNo col dim m) (List.filter _ _), List.take_left' he.symm]
      · rw [if_neg (by simpa using he), ih _ (by simp at he ⊢; omega)]
        simp
    · simp only [hm, decide_false, Bool.false_eq_true, if_false]
      rw [ih _ hk]

theorem addArrows_take {dim : ℕ} {col : Config} (hd : 0 < dim) (H : List Op) (hH : OpsOk col.length dim H) (tr : List Op) (k : ℕ) (hk : 0 < k) :
    addArrows col H dim tr none (some k) true = .ok ((arrowReps col dim H).take k) := by
  unfold addArrows
  simp only []
  rw [howManyArrows_fst, ahash_max _ _ hd, addArrowsLoop_take hd H hH tr k _ (by simp) [] hk]
  rfl

theorem filterSingle_some (s : Subset) (l : List Config) : filterSingle (some s) l = .ok l := by
  induction l with
  | nil => rfl
  | cons c l ih => rw [filterSingle, ih]; rfl

theorem filterSingle_none {l : List Config} (h : l ≠ []) : filterSingle none l = .error .nameError := by
  cases l with
  | nil => exact absurd rfl h
  | cons c l => rfl

/-- the decoration of `n` atoms of one species with an arrow on each -/
theorem single_decor {n : ℕ} {x : ℚ} {aconcs : List ℚ} (hx : arrowCount n x = n) :
    arrowConcs [n] (x :: aconcs) = .ok (List.replicate n (1, 1)) := by
  obtain ⟨d, hd, h1, h2, h3, -⟩ := C40_arrow_concs [n] (x :: aconcs) (by simp)
  rw [hd]
  congr 1
  have h4 := (h2 0 (by simp)).1
  simp only [List.getD_cons_zero, hx, Nat.zero_add] at h4
  have h5 : d.length = n := by simpa using h3
  have h6 : d.count (1, 1) = d.length := by rw [h4, h5]
  rw [List.count_eq_length] at h6
  rw [List.eq_replicate_iff]
  exact ⟨h5, fun b hb => (h6 b hb).symm⟩

theorem single_howMany {n : ℕ} (hn : 1 ≤ n) : howManyArrows (List.replicate n ((1 : ℤ), 1)) = (n, 1, [n]) := by
  obtain ⟨h1, h2, cls, h3, -, h5, h6, -⟩ := C40_how_many_arrows (List.replicate n ((1 : ℤ), 1))
  have e1 : (List.replicate n ((1 : ℤ), 1)).filter (fun s : Site => decide (0 ≤ s.1)) = List.replicate n (1, 1) := by
    rw [List.filter_eq_self]
    intro a ha
    rw [List.eq_of_mem_replicate ha]
    decide
  have hcls : cls = [((1 : ℤ), 1)] := by
    have hm : ∀ s ∈ cls, s = ((1 : ℤ), 1) := fun s hs => List.eq_of_mem_replicate ((h5 s).mp hs)
    have hin : ((1 : ℤ), 1) ∈ cls := (h5 _).mpr (List.mem_replicate.mpr ⟨by omega, by trivial⟩)
    have hr := List.eq_replicate_of_mem hm
    have : cls.length ≤ 1 := by
      rw [hr] at h3
      exact List.nodup_replicate.mp h3
    have : cls.length ≠ 0 := fun e => by rw [List.length_eq_zero_iff.mp e] at hin; cases hin
    rw [hr, show cls.length = 1 by omega]
    rfl
  refine Prod.ext ?_ (Prod.ext ?_ ?_)
  · rw [h1, e1]; simp
  · rw [h2, e1, List.map_replicate, List.toFinset_replicate_of_ne_zero (by omega)]
    simp
  · rw [h6, hcls]
    simp

theorem single_composed {n : ℕ} {x : ℚ} {aconcs : List ℚ} (hx : arrowCount n x = n) (z : Config) :
    FillsIn 6 (List.replicate n (1, 1)) z ↔ Composed [n] (x :: aconcs) 6 z := by
  rw [← composed_iff (by simp) (single_decor hx) 6 (by decide)]
  have : erase (List.replicate n ((1 : ℤ), 1)) = List.replicate n (0, 1) := by simp [erase]
  unfold FillsIn
  rw [this, List.perm_replicate]

theorem single_decorated {n : ℕ} {x : ℚ} {aconcs : List ℚ} (hx : arrowCount n x = n) :
    Composed [n] (x :: aconcs) 6 = IsDecorated [n] (fun v => [n].length - 1 < v) 6 := by
  funext z
  apply propext
  constructor
  · rintro ⟨h1, h2, h3⟩
    have h4 := h3 0 (by simp)
    simp only [List.getD_cons_zero, hx, Nat.zero_add] at h4
    have hlen : z.countP (fun s => decide (s.2 = 1)) = z.length := by
      rw [List.countP_eq_length]
      intro s hs
      have := h2 s hs
      simp at this ⊢; omega
    have hall : ∀ s ∈ z, 0 ≤ s.1 := by
      have : z.countP (fun s => decide (0 ≤ s.1 ∧ s.2 = 1)) = z.length := by omega
      rw [List.countP_eq_length] at this
      intro s hs
      have := this s hs
      simp at this; exact this.1
    refine ⟨⟨?_, ?_⟩, ?_⟩
    · intro v hv
      obtain ⟨s, hs, rfl⟩ := List.mem_map.mp hv
      exact h2 s hs
    · intro i hi
      have hi : i = 0 := by simp at hi; exact hi
      subst hi
      simp only [List.getElem_cons_zero, Nat.zero_add]
      rw [← h4.1, List.count_eq_countP, List.countP_map]
      apply List.countP_congr
      intro s _
      simp
    · intro s hs
      have := h2 s hs
      refine ⟨fun _ => ?_, fun h => absurd (show [n].length - 1 < s.2 by simp; omega) h⟩
      rcases h1 s hs with h | h
      · have := hall s hs; omega
      · exact h
  · rintro ⟨⟨h1, h2⟩, h3⟩
    have hs2 : ∀ s ∈ z, s.2 = 1 := by
      intro s hs
      have := h1 s.2 (List.mem_map_of_mem hs)
      simp at this; omega
    have harr : ∀ s ∈ z, 0 ≤ s.1 ∧ s.1 < 6 := fun s hs => (h3 s hs).1 (by rw [hs2 s hs]; simp)
    have hn := h2 0 (by simp)
    simp only [List.getElem_cons_zero, Nat.zero_add] at hn
    have hlen : z.length = n := by
      rw [← hn]
      have : (z.map (·.2)).count 1 = (z.map (·.2)).length := by
        rw [List.count_eq_length]
        intro b hb
        obtain ⟨s, hs, rfl⟩ := List.mem_map.mp hb
        exact (hs2 s hs).symm
      rw [this, List.length_map]
    refine ⟨fun s hs => Or.inr (harr s hs), fun s hs => by rw [hs2 s hs]; simp, ?_⟩
    intro i hi
    have hi : i = 0 := by simp at hi; exact hi
    subst hi
    simp only [List.getD_cons_zero, hx, Nat.zero_add]
    constructor
    · rw [← hlen, List.countP_eq_length]
      intro s hs
      simp [hs2 s hs]
    · rw [← hlen, List.countP_eq_length]
      intro s hs
      simp [hs2 s hs, (harr s hs).1]

theorem single_reps {n : ℕ} {x : ℚ} {aconcs : List ℚ} (hx : arrowCount n x = n) {agroup : List Op} (hG : IsOpGroup n 6 agroup) :
    IsTransversal (Composed [n] (x :: aconcs) 6) (OpEquiv agroup) (arrowReps (List.replicate n (1, 1)) 6 agroup) := by
  have hl : (List.replicate n ((1 : ℤ), 1)).length = n := by simp
  refine ⟨nodup_arrowReps (by decide) _, fun w hw => (single_composed hx w).mp ((mem_arrowReps (by decide) _).mp hw).1, ?_⟩
  intro z hz
  apply arrowReps_orbit (by decide) hG hl _ ((single_composed hx z).mpr hz)
  intro g hg
  have : erase (List.replicate n ((1 : ℤ), 1)) = List.replicate n (0, 1) := by simp [erase]
  rw [this]
  exact List.perm_replicate.mp (permute_perm _ _ (by simpa using hG.sites g hg))

theorem single_total {n : ℕ} {x : ℚ} {aconcs : List ℚ} (hn : 1 ≤ n) (hx : arrowCount n x = n) {agroup : List Op} (hG : IsOpGroup n 6 agroup)
    (hb : Balanced agroup) {full : List Config} (hf : IsTransversal (Composed [n] (x :: aconcs) 6) (OpEquiv agroup) full) :
    polya [n] agroup (.num 1) = some (.ok (full.length : ℤ)) := by
  rw [single_decorated hx] at hf
  exact (C14_polya_arrows_number [n] 6 1 agroup (by simpa using hn) (by simp) (by simpa using hG) hb).2 _ hf

theorem multinomial_single (n : ℕ) : multinomial ([n].map (fun c : ℕ => (c : ℤ))) = .ok 1 := by
  have : [n].sum.factorial / ([n].map Nat.factorial).prod = 1 := by simpa using Nat.div_self (Nat.factorial_pos n)
  rw [multinomial_modest (by simp) (by rw [this]; norm_num), this]; rfl

/-- C43 for one species with an arrow on every atom: of the `full.length` inequivalent structures at least a
thousandth is wanted; the first `wanted` of them, or all, are returned. -/
theorem C43_request_single (agroup : List Op) (n : ℕ) (x : ℚ) (aconcs : List ℚ) (wanted nB : ℕ) (rnd : EnumRandom)
    (hn : 1 ≤ n) (hx : arrowCount n x = n) (hG : IsOpGroup n 6 agroup) (hb : Balanced agroup) (hmod : n < 12 ∨ 100 < wanted) :
    ∃ full, IsTransversal (Composed [n] (x :: aconcs) 6) (OpEquiv agroup) full ∧
      (full.length ≤ 1000 * wanted →
        enumSys agroup [n] (x :: aconcs) wanted nB true false rnd = some (.ok (full.take wanted))) := by
  refine ⟨_, single_reps hx hG, ?_⟩
  intro hle
  have hpos : 0 < (arrowReps (List.replicate n (1, 1)) 6 agroup).length := by
    have hz : Composed [n] (x :: aconcs) 6 (List.replicate n (0, 1)) := by
      rw [← single_composed hx]
      exact ⟨by simp [erase], by intro s hs; rw [List.eq_of_mem_replicate hs]; decide⟩
    obtain ⟨w, ⟨hw, -⟩, -⟩ := (single_reps (aconcs := aconcs) hx hG).unique _ hz
    exact List.length_pos_of_mem hw
  have htot := single_total (aconcs := aconcs) hn hx hG hb (single_reps hx hG)
  have hlarge : largeSystem 1 (1 : ℕ) (n : ℕ) wanted = false := by
    unfold largeSystem
    rw [decide_eq_false (show ¬ ((1 : ℤ) > 100000) by decide)]
    rcases hmod with h | h
    · rw [decide_eq_false (show ¬ ((n : ℤ) ≥ 12) by omega)]; simp
    · rw [decide_eq_false (show ¬ ((wanted : ℤ) ≤ 100) by omega)]; simp
  have hl : (List.replicate n ((1 : ℤ), 1)).length = n := by simp
  have hG' : IsOpGroup (List.replicate n ((1 : ℤ), 1)).length 6 agroup := by rw [hl]; exact hG
  have hadd := addArrows_take (dim := 6) (col := List.replicate n (1, 1)) (by decide) agroup hG'.opsOk (agroup.take (n / nB)) wanted (by omega)
  unfold enumSys
  rw [single_decor hx]
  simp only [single_howMany hn, multinomial_single, List.sum_cons, List.sum_nil, Nat.add_zero, hlarge]
  unfold enumTotal
  simp only [Bool.false_eq_true, if_false, ne_eq, one_ne_zero, not_false_eq_true, if_true, htot]
  unfold enumCore
  simp only [List.length_singleton, if_true]
  rw [if_neg (by omega), if_neg (fun h => by have := h.1; omega)]
  simp only [Bool.false_eq_true, if_false, hadd, filterSingle_some]
  simp [builtinSuper]

/-- C43 for one species with an arrow on every atom, when less than a thousandth of the structures is wanted: a random
sample. Whatever numbers are drawn, the request does not return or returns exactly `wanted` pairwise inequivalent
structures. -/
theorem C43_request_single_random (agroup : List Op) (n : ℕ) (x : ℚ) (aconcs : List ℚ) (wanted nB : ℕ) (supers : Bool) (rnd : EnumRandom)
    (hn : 1 ≤ n) (hx : arrowCount n x = n) (hG : IsOpGroup n 6 agroup) (hb : Balanced agroup) (hmod : n < 12 ∨ 100 < wanted)
    (hdr : ∀ t, rnd.smallDraw t < 6 ^ n - 1) (full : List Config)
    (hf : IsTransversal (Composed [n] (x :: aconcs) 6) (OpEquiv agroup) full) (hlt : 1000 * wanted < full.length)
    (r : Py (List Config)) (hr : enumSys agroup [n] (x :: aconcs) wanted nB supers false rnd = some r) :
    ∃ L, r = .ok L ∧ L.length = wanted ∧ (∀ z ∈ L, Composed [n] (x :: aconcs) 6 z) ∧ L.Pairwise (fun z w => ¬ OpEquiv agroup z w) := by
  have htot := single_total hn hx hG hb hf
  have hlarge : largeSystem 1 (1 : ℕ) (n : ℕ) wanted = false := by
    unfold largeSystem
    rw [decide_eq_false (show ¬ ((1 : ℤ) > 100000) by decide)]
    rcases hmod with h | h
    · rw [decide_eq_false (show ¬ ((n : ℤ) ≥ 12) by omega)]; simp
    · rw [decide_eq_false (show ¬ ((wanted : ℤ) ≤ 100) by omega)]; simp
  have hl : (List.replicate n ((1 : ℤ), 1)).length = n := by simp
  have hG' : IsOpGroup (List.replicate n ((1 : ℤ), 1)).length 6 agroup := by rw [hl]; exact hG
  have hnA : nArr (List.replicate n ((1 : ℤ), 1)) = n := by rw [← howManyArrows_fst, single_howMany hn]
  unfold enumSys at hr
  rw [single_decor hx] at hr
  simp only [single_howMany hn, multinomial_single, List.sum_cons, List.sum_nil, Nat.add_zero, hlarge] at hr
  unfold enumTotal at hr
  simp only [Bool.false_eq_true, if_false, ne_eq, one_ne_zero, not_false_eq_true, if_true, htot] at hr
  unfold enumCore at hr
  simp only [List.length_singleton, if_true] at hr
  rw [if_neg (by omega), if_pos ⟨by omega, by trivial⟩] at hr
  cases hs : addArrowsSmall (List.replicate n (1, 1)) agroup 6 (agroup.take (n / nB)) supers wanted rnd.smallDraw with
  | none => rw [hs] at hr; simp at hr
  | some q =>
    obtain ⟨L, rfl, h1, h2, h3⟩ := addArrowsSmall_spec (dim := 6) (by decide) (col := List.replicate n (1, 1)) (H := agroup)
      (T := agroup.take (n / nB)) hG'.opsOk (fun g hg => hG'.opsOk g (List.mem_of_mem_take hg)) supers wanted
      (by rw [hnA]; exact hdr) hs
    rw [hs] at hr
    simp only [filterSingle_some] at hr
    have hr : r = .ok L := by
      simp [builtinSuper] at hr
      exact hr.symm
    refine ⟨L, hr, h1, ?_, ?_⟩
    · intro z hz
      obtain ⟨m, hm, rfl⟩ := h2 z hz
      exact (single_composed hx _).mp (fillNo_spec (by decide) (by omega)).2.1
    · have h4 : ∀ z ∈ L, z.length = n ∧ ∀ s ∈ z, s.1 < 6 := by
        intro z hz
        obtain ⟨m, hm, rfl⟩ := h2 z hz
        have := (fillNo_spec (col := List.replicate n (1, 1)) (dim := 6) (by decide) (show m < 6 ^ nArr (List.replicate n ((1 : ℤ), 1)) by omega)).2.1
        refine ⟨?_, this.2⟩
        have := congrArg List.length this.1
        simpa [erase] using this
      apply List.Pairwise.imp_of_mem _ h3
      intro z w hz hw h he
      obtain ⟨g, hg, e⟩ := hG.opEquiv_symm (h4 z hz).1 (h4 z hz).2 he
      exact h g hg e

/-- C43 fails, one species: with arrows on twelve or more atoms a request for 1 to 100 structures never returns: it runs
for ever or raises NameError, because `subset` has not been assigned. -/
theorem C43_unbound (agroup : List Op) (n : ℕ) (x : ℚ) (aconcs : List ℚ) (wanted nB : ℕ) (supers : Bool) (rnd : EnumRandom)
    (hn : 12 ≤ n) (hx : arrowCount n x = n) (hG : IsOpGroup n 6 agroup) (hw : 1 ≤ wanted ∧ wanted ≤ 100)
    (hdr : ∀ t, rnd.smallDraw t < 6 ^ n - 1) :
    enumSys agroup [n] (x :: aconcs) wanted nB supers false rnd = none ∨
    enumSys agroup [n] (x :: aconcs) wanted nB supers false rnd = some (.error .nameError) := by
  have hlarge : largeSystem 1 (1 : ℕ) (n : ℕ) wanted = true := by
    unfold largeSystem
    rw [decide_eq_true (show ((n : ℤ) ≥ 12) by omega), decide_eq_true (show ((wanted : ℤ) ≤ 100) by omega)]
    decide
  have hl : (List.replicate n ((1 : ℤ), 1)).length = n := by simp
  have hG' : IsOpGroup (List.replicate n ((1 : ℤ), 1)).length 6 agroup := by rw [hl]; exact hG
  have hnA : nArr (List.replicate n ((1 : ℤ), 1)) = n := by rw [← howManyArrows_fst, single_howMany (by omega)]
  have hcore : ∀ T : ℤ, 100000 < T →
      enumCore agroup [n] (List.replicate n (1, 1)) [n] (n / nB) true T none wanted supers false rnd = none ∨
      enumCore agroup [n] (List.replicate n (1, 1)) [n] (n / nB) true T none wanted supers false rnd = some (.error .nameError) := by
    intro T hT
    unfold enumCore
    simp only [List.length_singleton, if_true]
    rw [if_neg (by omega), if_pos ⟨by omega, by trivial⟩]
    cases hs : addArrowsSmall (List.replicate n (1, 1)) agroup 6 (agroup.take (n / nB)) supers wanted rnd.smallDraw with
    | none => left; rfl
    | some q =>
      obtain ⟨L, rfl, h1, -⟩ := addArrowsSmall_spec (dim := 6) (by decide) (col := List.replicate n (1, 1)) (H := agroup)
        (T := agroup.take (n / nB)) hG'.opsOk (fun g hg => hG'.opsOk g (List.mem_of_mem_take hg)) supers wanted
        (by rw [hnA]; exact hdr) hs
      right
      simp only []
      rw [filterSingle_none (by intro e; rw [e] at h1; simp at h1; omega)]
  have ht : ∃ T : ℤ, 100000 < T ∧ enumTotal agroup [n] [n] 1 true wanted rnd = some (.ok (T, none)) :=
    ⟨10000000000, by norm_num, by unfold enumTotal; rw [if_pos rfl]⟩
  obtain ⟨T, hT, ht⟩ := ht
  unfold enumSys
  rw [single_decor hx]
  simp only [single_howMany (show 1 ≤ n by omega), multinomial_single, List.sum_cons, List.sum_nil, Nat.add_zero, hlarge, ht]
  rcases hcore T hT with h | h
  · left; rw [h]
  · right; rw [h]

theorem addArrowsLoop_mem {dim : ℕ} {col : Config} (hd : 0 < dim) (H T : List Op) (hH : OpsOk col.length dim H)
    (hT : OpsOk col.length dim T) (acc : Option (ℕ → Bool)) (nw : Option ℕ) (sup : Bool) (ms : List ℕ)
    (hms : ∀ m ∈ ms, m < dim ^ nArr col) (surv : List Config) (hs : ∀ z ∈ surv, FillsIn dim col z) :
    ∃ L, addArrowsLoop col H dim T acc nw sup (nArr col) ms surv = .ok L ∧ ∀ z ∈ L, FillsIn dim col z := by
  induction ms generalizing surv with
  | nil => exact ⟨surv, rfl, hs⟩
  | cons m ms ih =>
    have ih := ih (fun m' hm' => hms m' (by simp [hm']))
    obtain ⟨h1, h2, h3, h4⟩ := fillNo_spec hd (hms m (by simp))
    have hlen : (fillNo col dim m).length = col.length := by
      have := congrArg List.length h2.1; simpa [erase_eq] using this
    have hs' : ∀ z ∈ surv ++ [fillNo col dim m], FillsIn dim col z := by
      intro z hz
      rcases List.mem_append.mp hz with h | h
      · exact hs z h
      · rw [List.mem_singleton.mp h]; exact h2
    obtain ⟨b, hb⟩ := arrowNotSuper_ok T hT hlen h2.2 (arr (fillNo col dim m))
    rw [addArrowsLoop.eq_def]
    simp only []
    rw [← h3, arrowUnique_eq H hH h2, fillArrows_arr h2.1]
    simp only [bind, Except.bind]
    split
    · cases sup
      · simp only [Bool.false_eq_true, if_false]
        rw [hb]
        simp only []
        repeat' (first | exact ih _ hs | exact ih _ hs' | exact ⟨_, rfl, hs'⟩ | split)
      · simp only [if_true, pure, Except.pure]
        repeat' (first | exact ih _ hs | exact ih _ hs' | exact ⟨_, rfl, hs'⟩ | split)
    · exact ih _ hs

/-- C43 fails, one species with arrows on some of the atoms: all structures returned have their arrows on the same
sites. -/
theorem C43_arrow_sites_fixed (agroup : List Op) (n : ℕ) (x : ℚ) (aconcs : List ℚ) (wanted nB : ℕ) (supers accept : Bool) (rnd : EnumRandom)
    (hx : 0 < arrowCount n x) (hG : IsOpGroup n 6 agroup) (hdr : ∀ t, rnd.smallDraw t < 6 ^ arrowCount n x - 1)
    (L : List Config) (hL : enumSys agroup [n] (x :: aconcs) wanted nB supers accept rnd = some (.ok L)) :
    ∃ sites : List Bool, sites.length = n ∧ ∀ z ∈ L, z.map (fun s => decide (0 ≤ s.1)) = sites := by
  obtain ⟨d, hd, h1, h2, h3, -⟩ := C40_arrow_concs [n] (x :: aconcs) (by simp)
  have hdl : d.length = n := by simpa using h3
  have hG' : IsOpGroup d.length 6 agroup := by rw [hdl]; exact hG
  have hT : OpsOk d.length 6 (agroup.take (n / nB)) := fun g hg => hG'.opsOk g (List.mem_of_mem_take hg)
  have hnA : nArr d = arrowCount n x := by
    have e := (h2 0 (by simp)).1
    simp only [List.getD_cons_zero, Nat.zero_add] at e
    rw [← e, List.count_eq_countP]
    unfold nArr
    apply List.countP_congr
    intro s hs
    obtain ⟨h4, h5, h6⟩ := h1 s hs
    have : s.2 = 1 := by simp at h6; omega
    obtain ⟨u, v⟩ := s
    simp only at this h4
    subst this
    rcases h4 with e | e <;> subst e <;> simp
  refine ⟨d.map (fun s => decide (0 ≤ s.1)), by rw [List.length_map, hdl], ?_⟩
  suffices h : ∀ z ∈ L, FillsIn 6 d z by
    intro z hz
    have e := congrArg (List.map (fun s : Site => decide (0 ≤ s.1))) (h z hz).1
    have key : ∀ w : Config, (erase w).map (fun s : Site => decide (0 ≤ s.1)) = w.map (fun s => decide (0 ≤ s.1)) := by
      intro w
      unfold erase
      rw [List.map_map]
      apply List.map_congr_left
      intro s _
      simp only [Function.comp]
      split
      · rfl
      · simp; omega
    rwa [key, key] at e
  unfold enumSys at hL
  rw [hd] at hL
  simp only [multinomial_single, List.sum_cons, List.sum_nil, Nat.add_zero] at hL
  generalize enumTotal agroup [n] (howManyArrows d).2.2 (howManyArrows d).2.1 _ wanted rnd = tt at hL
  rcases tt with _ | _ | ⟨total, subset⟩
  · simp at hL
  · simp at hL
  simp only [] at hL
  have hcore : ∀ r, enumCore agroup [n] d (howManyArrows d).2.2 (n / nB) (largeSystem 1 (howManyArrows d).2.1 n wanted) total subset wanted supers accept rnd = some (.ok r) →
      ∀ z ∈ r, FillsIn 6 d z := by
    intro r hr
    unfold enumCore at hr
    simp only [List.length_singleton, if_true] at hr
    split at hr
    · simp at hr
    have hfil : ∀ l r, filterSingle subset l = .ok r → r = l := by
      intro l r h
      cases subset with
      | none =>
        cases l with
        | nil => exact (Except.ok.inj h).symm
        | cons c l => simp [filterSingle] at h
      | some s => rw [filterSingle_some] at h; exact (Except.ok.inj h).symm
    by_cases hs : (wanted : ℤ) * 1000 < total ∧ accept = false
    · rw [if_pos hs] at hr
      cases hq : addArrowsSmall d agroup 6 (agroup.take (n / nB)) supers wanted rnd.smallDraw with
      | none => rw [hq] at hr; simp at hr
      | some q =>
        obtain ⟨l, rfl, -, h5, -⟩ := addArrowsSmall_spec (dim := 6) (by decide) hG'.opsOk hT supers wanted (by rw [hnA]; exact hdr) hq
        rw [hq] at hr
        simp only [Option.some.injEq] at hr
        rw [hfil l r hr]
        intro z hz
        obtain ⟨m, hm, rfl⟩ := h5 z hz
        exact (fillNo_spec (by decide) (by omega)).2.1
    · rw [if_neg hs] at hr
      obtain ⟨l, e1, e2⟩ := addArrowsLoop_mem (dim := 6) (col := d) (by decide) agroup (agroup.take (n / nB)) hG'.opsOk hT
        (if accept then some rnd.acceptArrows else none) (some wanted) supers (List.range (6 ^ nArr d)) (by simp) [] (by simp)
      have e3 : addArrows d agroup 6 (agroup.take (n / nB)) (if accept then some rnd.acceptArrows else none) (some wanted) supers = .ok l := by
        unfold addArrows
        simp only []
        rw [howManyArrows_fst, ahash_max _ _ (by decide), e1]
      rw [e3] at hr
      simp only [Option.some.injEq] at hr
      rw [hfil l r hr]
      exact e2
  generalize hc : enumCore agroup [n] d (howManyArrows d).2.2 (n / nB) (largeSystem 1 (howManyArrows d).2.1 n wanted) total subset wanted supers accept rnd = cc at hL hcore
  rcases cc with _ | _ | r
  · simp at hL
  · simp at hL
  · simp [builtinSuper] at hL
    subst hL
    exact hcore _ rfl

/-- The four sites of a chain, moved along the chain; the arrows are not turned. -/
def chain4 : List Op :=
  [([0, 1, 2, 3], List.range 6), ([1, 2, 3, 0], List.range 6), ([2, 3, 0, 1], List.range 6), ([3, 0, 1, 2], List.range 6)]

theorem chain4_ok : IsOpGroup 4 6 chain4 where
  sites := by decide
  arrows := by decide
  one := by decide
  mul := by decide
  inv := by decide

/-- random numbers: the order is reversed, the numbers 0, 1, 2, ... are drawn -/
def exRandom : EnumRandom := ⟨List.reverse, fun t => t % 1295, fun t => [t], fun _ i => i, fun _ => true, fun _ => true, fun _ _ => true⟩

/-- C43 fails: four atoms of one species in a chain, arrows on half of them. Whatever is asked for, arrows on two
opposite sites are not found, or those on two neighbours are not. -/
theorem C43_arrows_missed (wanted nB : ℕ) (supers accept : Bool) (rnd : EnumRandom) (hdr : ∀ t, rnd.smallDraw t < 35)
    (L : List Config) (hL : enumSys chain4 [4] [1 / 2] wanted nB supers accept rnd = some (.ok L)) :
    ∃ z, Composed [4] [1 / 2] 6 z ∧ ∀ w ∈ L, ¬ OpEquiv chain4 w z := by
  have hc : arrowCount 4 (1 / 2) = 2 := by
    unfold arrowCount; decide +kernel
  obtain ⟨sites, hl, hs⟩ := C43_arrow_sites_fixed chain4 4 (1 / 2) [] wanted nB supers accept rnd (by rw [hc]; decide) chain4_ok
    (by rw [hc]; exact hdr) L hL
  have mk : ∀ z : Config, (∀ s ∈ z, s.1 = -1 ∨ (0 ≤ s.1 ∧ s.1 < (6 : ℕ))) → (∀ s ∈ z, 1 ≤ s.2 ∧ s.2 ≤ 1) →
      z.countP (fun s => decide (s.2 = 0 + 1)) = 4 → z.countP (fun s => decide (0 ≤ s.1 ∧ s.2 = 0 + 1)) = 2 → Composed [4] [1 / 2] 6 z := by
    intro z h1 h2 h3 h4
    refine ⟨h1, h2, ?_⟩
    intro i hi
    have hi : i = 0 := by simpa using hi
    subst hi
    exact ⟨h3, by rw [h4, List.getD_cons_zero, List.getD_cons_zero, hc]⟩
  have key : ∀ w ∈ L, ∀ z, OpEquiv chain4 w z → ∃ g ∈ chain4, permute g.1 sites = z.map (fun s => decide (0 ≤ s.1)) := by
    rintro w hw z ⟨g, hg, rfl⟩
    refine ⟨g, hg, ?_⟩
    rw [← hs w hw, permute_map, act, List.map_map]
    apply List.map_congr_left
    intro s _
    simp only [Function.comp, turn]
    split
    · rfl
    · simp; omega
  by_cases h : ∃ g ∈ chain4, permute g.1 sites = [true, true, false, false]
  · refine ⟨[(0, 1), (-1, 1), (0, 1), (-1, 1)], mk _ (by decide) (by decide) (by decide) (by decide), ?_⟩
    intro w hw he
    obtain ⟨g, hg, e⟩ := key w hw _ he
    obtain ⟨g', hg', e'⟩ := h
    match sites, hl, e, e' with
    | [a, b, c, d], _, e, e' =>
      have : ∀ a b c d : Bool, (∃ g ∈ chain4, permute g.1 [a, b, c, d] = [true, true, false, false]) →
        ¬ ∃ g ∈ chain4, permute g.1 [a, b, c, d] = [true, false, true, false] := by decide
      exact this a b c d ⟨g', hg', e'⟩ ⟨g, hg, e⟩
  · refine ⟨[(0, 1), (0, 1), (-1, 1), (-1, 1)], mk _ (by decide) (by decide) (by decide) (by decide), ?_⟩
    intro w hw he
    obtain ⟨g, hg, e⟩ := key w hw _ he
    exact h ⟨g, hg, e⟩

/-! ### examples -/

theorem chain4_balanced : Balanced chain4 := ⟨1, by decide⟩

theorem arrowCount_one (n : ℕ) : arrowCount n 1 = n := by
  unfold arrowCount
  simp

/-- the hypotheses of `C43_request` -/
example : ∃ L full, enumSys chain4 [2, 2] [0, 0] 1 1 true false exRandom = some (.ok L) ∧
      (∀ z ∈ L, (∀ s ∈ z, s.1 = -1) ∧ IsLabelling [2, 2] (z.map (·.2))) ∧
      L.Pairwise (fun z w => ¬ Equiv (chain4.map (·.1)) z w) ∧
      IsTransversal (IsLabelling [2, 2]) (Equiv (chain4.map (·.1))) full ∧ L.length = delivered 1 full.length :=
  C43_request chain4 [2, 2] [0, 0] 1 1 exRandom (by decide) (by decide) (by decide)
    (by intro i hi; have : i = 0 ∨ i = 1 := by simp at hi; omega
        rcases this with rfl | rfl <;> (unfold arrowCount; decide +kernel))
    chain4_ok.permGroup ⟨1, by decide⟩ (fun g hg => ⟨6, chain4_ok.arrows g hg⟩) (fun l => List.reverse_perm l) (Or.inl (by decide))

/-- labellings of the chain of four sites with two species -/
theorem chain4_labelling {x : List ℕ} (hx : IsLabelling [2, 2] x) :
    ∃ a ∈ [1, 2], ∃ b ∈ [1, 2], ∃ c ∈ [1, 2], ∃ d ∈ [1, 2], x = [a, b, c, d] ∧ [a, b, c, d].count 1 = 2 := by
  have hlen : x.length = 4 := by
    have h1 := hx.2 0 (by decide)
    have h2 := hx.2 1 (by decide)
    have : x.length = x.count 1 + x.count 2 := by
      have hx1 := hx.1
      clear h1 h2 hx
      induction x with
      | nil => rfl
      | cons v x ih =>
        have hv := hx1 v (by simp)
        rw [List.length_cons, ih (fun v hv => hx1 v (by simp [hv])), List.count_cons, List.count_cons]
        have : v = 1 ∨ v = 2 := by simp at hv; omega
        rcases this with rfl | rfl <;> simp <;> omega
    simp at h1 h2; omega
  match x, hlen with
  | [a, b, c, d], _ =>
    have h1 := hx.2 0 (by decide)
    have hv : ∀ v ∈ [a, b, c, d], v ∈ [1, 2] := fun v hv => by have := hx.1 v hv; simp at this ⊢; omega
    exact ⟨a, hv a (by simp), b, hv b (by simp), c, hv c (by simp), d, hv d (by simp), rfl, h1⟩

theorem chain4_transversal : IsTransversal (IsLabelling [2, 2]) (Equiv (chain4.map (·.1))) [[1, 1, 2, 2], [1, 2, 1, 2]] := by
  refine ⟨by decide, ?_, ?_⟩
  · intro w hw
    refine ⟨by revert w; decide, ?_⟩
    intro i hi
    have : i = 0 ∨ i = 1 := by simp at hi; omega
    fin_cases hw <;> rcases this with rfl | rfl <;> rfl
  · intro x hx
    obtain ⟨a, ha, b, hb, c, hc, d, hd, rfl, h1⟩ := chain4_labelling hx
    have key : ∀ a ∈ [1, 2], ∀ b ∈ [1, 2], ∀ c ∈ [1, 2], ∀ d ∈ [1, 2], [a, b, c, d].count 1 = 2 →
        ∃ w ∈ [[1, 1, 2, 2], [1, 2, 1, 2]], (∃ σ ∈ chain4.map (·.1), permute σ w = [a, b, c, d]) ∧
          ∀ w' ∈ [[1, 1, 2, 2], [1, 2, 1, 2]], (∃ σ ∈ chain4.map (·.1), permute σ w' = [a, b, c, d]) → w' = w := by decide
    obtain ⟨w, hw, he, hu⟩ := key a ha b hb c hc d hd h1
    exact ⟨w, ⟨hw, he⟩, fun w' h => hu w' h.1 h.2⟩

theorem chain4_two : polya [2, 2] chain4 .none = some (.ok (2 : ℕ)) := by
  have hG : IsPermGroup ([2, 2] : List ℕ).sum (chain4.map (·.1)) := chain4_ok.permGroup
  have ht := chain4_transversal
  exact (C13_polya_counts_orbits [2, 2] chain4 (by decide) hG ⟨1, by decide⟩ (fun g hg => ⟨6, chain4_ok.arrows g hg⟩)).2 _ ht

/-- the hypotheses of `C43_not_honoured`: there are two such structures, five are asked for -/
example : ∃ L, enumSys chain4 [2, 2] [0, 0] 5 1 true false exRandom = some (.ok L) ∧ L.length = 2 := by
  have hG : IsPermGroup ([2, 2] : List ℕ).sum (chain4.map (·.1)) := chain4_ok.permGroup
  have hp := chain4_two
  exact C43_not_honoured chain4 [2, 2] [0, 0] 5 1 exRandom (by decide) (by decide) (by decide)
    (by intro i hi; have : i = 0 ∨ i = 1 := by simp at hi; omega
        rcases this with rfl | rfl <;> (unfold arrowCount; decide +kernel))
    hG ⟨1, by decide⟩ (fun g hg => ⟨6, chain4_ok.arrows g hg⟩) (fun l => List.reverse_perm l) (Or.inl (by decide)) 2 hp (by decide)

/-- the hypotheses of `C43_request_arrows` -/
example : ∃ L full, enumSys chain4 [2, 2] [0, 1] 3 1 true false exRandom = some (.ok L) ∧
      (∀ z ∈ L, Composed [2, 2] [0, 1] 6 z) ∧ L.Pairwise (fun z w => ¬ OpEquiv chain4 z w) ∧
      IsTransversal (Composed [2, 2] [0, 1] 6) (OpEquiv chain4) full ∧ L.length = delivered 3 full.length :=
  C43_request_arrows chain4 [2, 2] [0, 1] 3 1 exRandom (by decide) (by decide)
    ⟨1, by decide, by simp only [List.getD_cons_succ, List.getD_cons_zero, arrowCount_one]; decide⟩
    chain4_ok chain4_balanced (fun l => List.reverse_perm l) (Or.inl (by decide)) (Or.inl (by decide))

/-- the hypotheses of `C43_request_single`: four atoms with arrows, ten structures wanted -/
example : ∃ full, IsTransversal (Composed [4] [1] 6) (OpEquiv chain4) full ∧
    (full.length ≤ 1000 * 10 → enumSys chain4 [4] [1] 10 1 true false exRandom = some (.ok (full.take 10))) :=
  C43_request_single chain4 4 1 [] 10 1 exRandom (by decide) (arrowCount_one 4) chain4_ok chain4_balanced (Or.inl (by decide))

/-- the hypotheses of `C43_request_single_random`: five atoms, only the identity, so that there are 7776 structures, of
which seven are asked for -/
example : ∃ full, IsTransversal (Composed [5] [1] 6) (OpEquiv [(List.range 5, List.range 6)]) full ∧ 1000 * 7 < full.length ∧
    IsOpGroup 5 6 [(List.range 5, List.range 6)] ∧ Balanced [(List.range 5, List.range 6)] ∧ ∀ t, exRandom.smallDraw t < 6 ^ 5 - 1 := by
  have hG : IsOpGroup 5 6 [(List.range 5, List.range 6)] := ⟨by decide, by decide, by decide, by decide, by decide⟩
  refine ⟨_, single_reps (arrowCount_one 5) hG, ?_, hG, ⟨1, by decide⟩, ?_⟩
  · unfold arrowReps
    rw [List.filter_eq_self.mpr, List.length_map, List.length_range]
    · rw [show nArr (List.replicate 5 ((1 : ℤ), 1)) = 5 by decide]; norm_num
    · intro z hz
      obtain ⟨m, hm, rfl⟩ := List.mem_map.mp hz
      have h := (fillNo_spec (col := List.replicate 5 ((1 : ℤ), 1)) (dim := 6) (by decide) (List.mem_range.mp hm)).2.1
      have hl : (fillNo (List.replicate 5 ((1 : ℤ), 1)) 6 m).length = 5 := by
        have := congrArg List.length h.1
        simpa [erase] using this
      rw [decide_eq_true_eq]
      intro g hg
      rw [List.mem_singleton.mp hg, act_one hl h.2]
  · intro t
    show t % 1295 < 6 ^ 5 - 1
    have := Nat.mod_lt t (show 1295 > 0 by decide)
    norm_num; omega

/-- the hypotheses of `C43_arrow_sites_fixed` and `C43_arrows_missed`: a request that returns -/
example : ∃ L, enumSys chain4 [4] [1 / 2] 40 1 true true exRandom = some (.ok L) := by
  have hc : arrowConcs [4] [1 / 2] = .ok [(-1, 1), (-1, 1), (1, 1), (1, 1)] := by
    obtain ⟨d, hd, hm, hcnt, hlen, hlast, -⟩ := C40_arrow_concs [4] [1 / 2] (by decide)
    have h2 := (hcnt 0 (by decide)).1
    rw [show arrowCount (([4] : List ℕ).getD 0 0) (([1 / 2] : List ℚ).getD 0 0) = 2 by unfold arrowCount; decide +kernel] at h2
    rw [hd]
    congr 1
    match d, hlen, hm, h2, hlast with
    | [s, t, u, v], _, hm, h2, hlast =>
      have key : ∀ q ∈ [s, t, u, v], q = (1, 1) ∨ q = (-1, 1) := by
        intro q hs
        obtain ⟨h1, h2⟩ := hm q hs
        obtain ⟨a, b⟩ := q
        simp at h1 h2
        have : b = 1 := by omega
        subst this
        rcases h1 with rfl | rfl <;> simp
      have e1 := key s (by simp)
      have e2 := key t (by simp)
      have e3 := key u (by simp)
      have e4 := key v (by simp)
      unfold ArrowsLast at hlast
      rcases e1 with rfl | rfl <;> rcases e2 with rfl | rfl <;> rcases e3 with rfl | rfl <;> rcases e4 with rfl | rfl <;>
        first | rfl | exact absurd h2 (by decide) | exact absurd hlast (by decide)
  have hh : howManyArrows [(-1, 1), (-1, 1), (1, 1), (1, 1)] = (2, 1, [2, 2]) := by decide +kernel
  obtain ⟨⟨full, hf⟩, hp⟩ := C14_polya_arrows_number [2, 2] 6 1 chain4 (by decide) (by decide) chain4_ok chain4_balanced
  have hp := hp full hf
  have hpos : full.length ≠ 0 := by
    obtain ⟨w, ⟨hw, -⟩, -⟩ := hf.unique [(-1, 1), (-1, 1), (0, 2), (0, 2)] (by
      refine ⟨⟨by decide, ?_⟩, by decide⟩
      intro i hi
      have : i = 0 ∨ i = 1 := by simp at hi; omega
      rcases this with rfl | rfl <;> rfl)
    have := List.length_pos_of_mem hw
    omega
  obtain ⟨L, hL⟩ := addArrows_ok (dim := 6) (col := [(-1, 1), (-1, 1), (1, 1), (1, 1)]) (by decide) chain4 (chain4.take (4 / 1))
    (chain4_ok.opsOk) (fun g hg => chain4_ok.opsOk g (List.mem_of_mem_take hg)) (some exRandom.acceptArrows) (some 40) true
  refine ⟨L, ?_⟩
  have hlarge : largeSystem 1 (1 : ℕ) (4 : ℕ) (40 : ℕ) = false := by decide
  unfold enumSys
  rw [hc]
  simp only [hh, multinomial_single, List.sum_cons, List.sum_nil, Nat.add_zero, hlarge]
  unfold enumTotal
  simp only [Bool.false_eq_true, if_false, ne_eq, one_ne_zero, not_false_eq_true, if_true, hp]
  unfold enumCore
  simp only [List.length_singleton, if_true]
  rw [if_neg (by omega), if_neg (by simp)]
  simp only [hL, filterSingle_some]
  simp [builtinSuper]

/-- the hypotheses of `C43_unbound`: twelve atoms, only the identity -/
example : enumSys [(List.range 12, List.range 6)] [12] [1] 5 1 true false exRandom = none ∨
    enumSys [(List.range 12, List.range 6)] [12] [1] 5 1 true false exRandom = some (.error .nameError) :=
  C43_unbound _ 12 1 [] 5 1 true exRandom (by decide) (arrowCount_one 12)
    ⟨by decide, by decide, by decide, by decide, by decide⟩ (by decide) (fun t => by
      show t % 1295 < 6 ^ 12 - 1
      have := Nat.mod_lt t (show 1295 > 0 by decide)
      norm_num; omega)

end Phenum
