import Verif.Proof.SearchStep
/-
Total correctness of the tree search loop.
-/
namespace Phenum
open Spec

section
variable {a : BArgs} {sk : List Nat → Prop} {EOk : RState → Prop}

theorem memUp_append {X : List (List Nat)} {xb : List Nat} {m : Nat} (hmem : MemLt a sk X (dg xb))
    (hg : Good a sk xb) (h : ∀ x, Good a sk x → Agree m (dg x) (dg xb) → x = xb) :
    MemUp a sk (X ++ [xb]) (dg xb) m := by
  intro x
  rw [List.mem_append, List.mem_singleton, hmem x]
  constructor
  · rintro (⟨g, h1⟩ | rfl)
    · exact ⟨g, Or.inl h1⟩
    · exact ⟨hg, Or.inr (Agree.refl _ _)⟩
  · rintro ⟨g, h1 | h1⟩
    · exact Or.inl ⟨g, h1⟩
    · exact Or.inr (h x g h1)

theorem memUp_same {X : List (List Nat)} {xb : List Nat} {m : Nat} (hmem : MemLt a sk X (dg xb))
    (h : ∀ x, Good a sk x → ¬ Agree m (dg x) (dg xb)) : MemUp a sk X (dg xb) m := by
  intro x
  rw [hmem x]
  constructor
  · rintro ⟨g, h1⟩; exact ⟨g, Or.inl h1⟩
  · rintro ⟨g, h1 | h1⟩
    · exact ⟨g, h1⟩
    · exact absurd h1 (h x g)

theorem post_append {s : BState} {X : List (List Nat)} {xb : List Nat} (hc : Com a EOk s X)
    (hmem : MemLt a sk X (dg xb)) {u : Nat} {E : RState}
    (hrec : recd a xb (s.count, s.subset, s.survivors) = .ok (u, E)) :
    (X ++ [xb]).Pairwise (fun x y => llt a.k (dg x) (dg y)) ∧ runAll a (X ++ [xb]) (1, a.subset, []) = .ok E := by
  constructor
  · rw [List.pairwise_append]
    refine ⟨hc.sorted, List.pairwise_singleton _ _, ?_⟩
    intro x hx y hy
    rw [List.mem_singleton] at hy; subst hy
    exact ((hmem x).mp hx).2
  · rw [runAll_append, hc.run]
    simp only [Except.bind, runAll, bind]
    rw [hrec]

variable (hne : a.concs ≠ []) (hpos : ∀ c ∈ a.concs, 1 ≤ c) (hG : IsPermGroup a.concs.sum a.G)
  (hrec : RecOk a sk EOk)
include hne hpos hG hrec

theorem step_ok (s : BState) (hinv : Inv a sk EOk s) (hlt : fn s.branch 0 < fn a.C 0) :
    ∃ s', bStep a s = .ok s' ∧ Inv a sk EOk s' ∧ mu a s' < mu a s := by
  have hk := k_pos hne
  obtain ⟨X, hc, hA | ⟨xb, hI, hcase⟩⟩ := hinv
  · -- first level
    obtain ⟨xb, hx, hbr, hdg⟩ := exists_lab_of_branch (a := a) hc.len (by
      intro j hj
      by_cases e : j = 0
      · rw [e]; exact hlt
      · rw [hA.zero j (by omega)]
        by_cases e1 : j + 1 < a.k
        · have := C_two hpos j e1; omega
        · rw [C_one hpos j (by omega)]; omega)
    have hd0 : fn s.branch 0 = dg xb 0 := (hdg 0 hk).symm
    have hzero : ∀ j, 0 < j → j < a.k → dg xb j = 0 := fun j h1 h2 => by rw [hdg j h2]; exact hA.zero j h1
    have hpc1 : PC a.G 1 xb := pc_one hG hx hk (by rw [← hd0]; exact hA.ordinv) (by rw [← hd0]; exact hA.alive)
    have hpck : PC a.G a.k xb := PC_zeros a.k (fun j h1 h2 => hzero j h1 h2) hpc1
    have hns1 : NS a sk xb 1 := fun l z h1 h2 => by omega
    have hgood : Good a sk xb := ⟨hx, hpck, not_skip_of_ns (i := 0) hx (fun l z h1 h2 => by omega) hzero⟩
    have hmem : MemLt a sk X (dg xb) := by
      intro x
      rw [hA.mem x]
      have hag : Agree a.k (fn s.branch) (dg xb) := fun j hj => (hdg j hj).symm
      exact ⟨fun ⟨g, h⟩ => ⟨g, h.congr_right hag⟩, fun ⟨g, h⟩ => ⟨g, h.congr_right hag.symm⟩⟩
    obtain ⟨u, E', hr1, hr2, hr3⟩ := hrec.ok xb (s.count, s.subset, s.survivors) hx hpck hc.eok
    obtain ⟨hso, hru⟩ := post_append hc hmem hr1
    obtain ⟨stab0, hstab0⟩ : ∃ t, s.stab[s.i]? = some t := by
      rw [hA.i0]
      exact ⟨_, List.getElem?_eq_getElem (by have := hc.stab2; omega)⟩
    have hperm : perm s.branch a.concs a.concs.sum s.i a.group stab0 s.order = .ok
        ⟨0, stabOf a.group 1 xb, markOrder (dg xb 0) xb a.group s.order,
          a.group.filter (fun g => permute g.1 xb = xb)⟩ := by
      rw [hbr, hA.i0]; exact perm_zero hG hpos hx hk stab0 s.order hpc1
    have hrecord : bRecord a s 0 (a.group.filter (fun g => permute g.1 xb = xb)) = .ok (u, E') := by
      rw [bRecord_recd a s xb hbr (Or.inr hA.i0), hr1]
    have hstl : s.i + 1 < s.stab.length := by rw [hA.i0]; exact hc.stab2
    have hpost : Post a EOk (markOrder (dg xb 0) xb a.group s.order)
        (s.stab.set (s.i + 1) (stabOf a.group 1 xb)) E' (X ++ [xb]) :=
      ⟨by simpa using hc.stab1, by simpa using hc.stab2, by rw [markOrder_length]; exact hc.ord,
        mark_top hG hx hk hc.ord hc.live, hso, hru, hr3⟩
    have hord : OrdInv a (markOrder (dg xb 0) xb a.group s.order) (dg xb 0 + 1) :=
      ordInv_mark hG hx hk hc.ord (by rw [← hd0]; exact hA.ordinv)
    have hb0 : s.b0 = 0 := by
      rcases hA.b0 with h | h
      · exact h
      · omega
    by_cases hk3 : 3 ≤ a.k
    · obtain ⟨nav, hn1, hn2, hn3⟩ := step_down (sk := sk) (EOk := EOk) (s := s)
        (out := ⟨0, stabOf a.group 1 xb, markOrder (dg xb 0) xb a.group s.order,
          a.group.filter (fun g => permute g.1 xb = xb)⟩) (r := (u, E')) hpos hG hx hbr hpost
        (by rw [hA.i0]; omega) (by right; exact hb0)
        (by rw [hA.i0]; exact hzero) (by rw [hA.i0]; exact hpc1)
        (by
          intro j h1 h2
          have : j = 1 := by rw [hA.i0] at h2; omega
          subst this
          rw [hA.i0, List.getElem?_set_self (by have := hc.stab2; omega)])
        (by rw [hA.i0]; exact hns1) hord
        (memUp_append hmem hgood (fun x g h => dg_ext g.1 hx h))
      exact ⟨_, bStep_eq hstab0 hperm hstl hrecord hn1, hn2, hn3⟩
    · have hkl : s.branch.length = a.k := hc.len
      have hposb : ∀ j < s.branch.length, fn s.branch j < fn a.C j := fun j hj => by
        rw [← hdg j (by omega)]; exact dg_lt hx (by omega)
      obtain ⟨t, t1, t2, t3, t4, hnav⟩ := bNav_zero a.C u s.b0 s.branch (markOrder (dg xb 0) xb a.group s.order)
        (fn a.C 0) (by rw [hkl, C_len]) (by omega) (by omega) hb0 hposb
        (fun h => C_one hpos 1 (by omega)) rfl hpost.ord hpost.live
      rw [hd0] at t1 t4
      have hA' := step_to_A (sk := sk) (EOk := EOk) (s := s)
        (out := ⟨0, stabOf a.group 1 xb, markOrder (dg xb 0) xb a.group s.order,
          a.group.filter (fun g => permute g.1 xb = xb)⟩) (r := (u, E'))
        (nav := ⟨s.branch.set 0 t, 0, if s.branch.length = 1 then 1 else 0, decide (s.branch.length = 2)⟩)
        (i := 0) (t := t) hne hpos hG hx hbr hpost (by omega) (by rw [hA.i0]; omega) hord
        (memUp_append hmem hgood (fun x g h => dg_ext g.1 hx (agree_full hpos g.1 hx (by omega) h)))
        (fun l h1 h2 => by omega) t1 t2 t3 t4 rfl
        (by
          by_cases e : s.branch.length = 1
          · right
            have := C_one hpos 0 (by omega)
            omega
          · left; simp [e])
        (by simpa using hkl)
        (by intro h; simp at h; omega)
        ⟨by rw [fn_set _ _ _ _ (by omega)]; simp, fun l hl => by
          rw [fn_set _ _ _ _ (by omega), if_neg (by omega)]; exact hA.zero l hl⟩
      refine ⟨_, bStep_eq (nav := ⟨s.branch.set 0 t, 0, if s.branch.length = 1 then 1 else 0,
        decide (s.branch.length = 2)⟩) hstab0 hperm hstl hrecord ?_, hA'.1, hA'.2⟩
      rw [← hnav, hA.i0]
  · -- deeper levels
    have hx := hI.lab
    have hbr := hI.br
    have hi1 := hI.i1
    have hi2 := hI.i2
    have hs1 := hc.stab1
    have hstabi := hI.stab s.i hi1 (le_refl _)
    have hstl : s.i + 1 < s.stab.length := by omega
    obtain ⟨hp1, hp2⟩ := perm_succ hG hpos hx (i := s.i) (show s.i < a.k by omega) (by omega) s.order hI.pc
    have hstab' : ∀ st, ∀ j, 1 ≤ j → j ≤ s.i → (s.stab.set (s.i + 1) st)[j]? = some (stabOf a.group j xb) := by
      intro st j h1 h2
      rw [List.getElem?_set_ne (by omega)]
      exact hI.stab j h1 h2
    have hstab'' : ∀ j, 1 ≤ j → j ≤ s.i + 1 →
        (s.stab.set (s.i + 1) (stabOf a.group (s.i + 1) xb))[j]? = some (stabOf a.group j xb) := by
      intro j h1 h2
      by_cases e : j = s.i + 1
      · rw [e, List.getElem?_set_self hstl]
      · exact hstab' _ j h1 (by omega)
    rcases hcase with ⟨hb0, hd0, hi3, hmem⟩ | ⟨hb1, hd1, hmem⟩
    · -- descending through a zero digit
      have hpc' : PC a.G (s.i + 1) xb := PC_zeros (m := s.i) (s.i + 1) (fun j h1 h2 => by
        have : j = s.i := by omega
        rw [this]; exact hd0) hI.pc
      have hperm := hp1 hpc'
      rw [← hbr] at hperm
      have hrecord := bRecord_idle a s 0 (a.group.filter (fun g => permute g.1 xb = xb)) (Or.inr ⟨by omega, by omega⟩)
      have hpost : Post a EOk s.order (s.stab.set (s.i + 1) (stabOf a.group (s.i + 1) xb))
          (s.count, s.subset, s.survivors) X :=
        ⟨by simpa using hc.stab1, by simpa using hc.stab2, hc.ord, hc.live, hc.sorted, hc.run, hc.eok⟩
      obtain ⟨nav, hn1, hn2, hn3⟩ := step_down (sk := sk) (EOk := EOk) (s := s)
        (out := ⟨0, stabOf a.group (s.i + 1) xb, s.order, a.group.filter (fun g => permute g.1 xb = xb)⟩)
        (r := (0, s.count, s.subset, s.survivors)) hpos hG hx hbr hpost hi3 (Or.inl rfl) hI.zero hpc' hstab''
        (by
          intro l z h1 h2 h3
          by_cases e : l = s.i
          · rw [e] at h3; omega
          · exact hI.ns l z h1 (by omega) h3)
        hI.ordinv hmem
      exact ⟨_, bStep_eq hstabi hperm hstl hrecord hn1, hn2, hn3⟩
    · by_cases hpc' : PC a.G (s.i + 1) xb
      · have hpck : PC a.G a.k xb := PC_zeros a.k (fun j h1 h2 => hI.zero j (by omega) h2) hpc'
        have hgood : Good a sk xb := ⟨hx, hpck, not_skip_of_ns hx hI.ns hI.zero⟩
        obtain ⟨u, E', hr1, hr2, hr3⟩ := hrec.ok xb (s.count, s.subset, s.survivors) hx hpck hc.eok
        obtain ⟨hso, hru⟩ := post_append hc hmem hr1
        have hperm := hp1 hpc'
        rw [← hbr] at hperm
        have hrecord : bRecord a s 0 (a.group.filter (fun g => permute g.1 xb = xb)) = .ok (u, E') := by
          rw [bRecord_recd a s xb hbr (Or.inl hb1), hr1]
        have hpost : Post a EOk s.order (s.stab.set (s.i + 1) (stabOf a.group (s.i + 1) xb)) E' (X ++ [xb]) :=
          ⟨by simpa using hc.stab1, by simpa using hc.stab2, hc.ord, hc.live, hso, hru, hr3⟩
        by_cases hdn : u = 0 ∧ s.i + 2 < a.k
        · obtain ⟨nav, hn1, hn2, hn3⟩ := step_down (sk := sk) (EOk := EOk) (s := s)
            (out := ⟨0, stabOf a.group (s.i + 1) xb, s.order, a.group.filter (fun g => permute g.1 xb = xb)⟩)
            (r := (u, E')) hpos hG hx hbr hpost hdn.2 (Or.inl hdn.1) hI.zero hpc' hstab''
            (by
              intro l z h1 h2 h3 h4 h5 h6
              by_cases e : l = s.i
              · subst e
                have : z = xb := dg_ext h4 hx (fun j hj => by
                  by_cases e' : j < s.i + 1
                  · exact h5 j e'
                  · rw [h6 j (by omega) hj, hI.zero j (by omega) hj])
                rw [this]; exact hr2.mp hdn.1
              · exact hI.ns l z h1 (by omega) h3 h4 h5 h6)
            hI.ordinv (memUp_append hmem hgood (fun x g h => dg_ext g.1 hx h))
          exact ⟨_, bStep_eq hstabi hperm hstl hrecord hn1, hn2, hn3⟩
        · obtain ⟨nav, hn1, hn2, hn3⟩ := step_up (sk := sk) (EOk := EOk) (s := s)
            (out := ⟨0, stabOf a.group (s.i + 1) xb, s.order, a.group.filter (fun g => permute g.1 xb = xb)⟩)
            (r := (u, E')) hne hpos hG hx hbr hpost hi1 hi2 hb1 hdn hI.zero hI.pc (hstab' _) hI.ns hI.ordinv
            (memUp_append hmem hgood (fun x g h => by
              by_cases e : s.i + 2 = a.k
              · exact dg_ext g.1 hx (agree_full hpos g.1 hx (by omega) h)
              · have hu : u ≠ 0 := fun hu => hdn ⟨hu, by omega⟩
                have hsk : sk xb := by
                  by_contra hns; exact hu (hr2.mpr hns)
                by_contra hxx
                exact g.2.2 ⟨s.i, xb, hi1, by omega, by rw [h s.i (by omega)]; exact hd1, hx, h.symm, hI.zero, hsk,
                  fun h => hxx h.symm⟩))
          exact ⟨_, bStep_eq hstabi hperm hstl hrecord hn1, hn2, hn3⟩
      · have hperm := hp2 hpc'
        rw [← hbr] at hperm
        have hrecord := bRecord_idle a s 1 ([] : List Op) (Or.inl (by omega))
        have hpost : Post a EOk s.order (s.stab.set (s.i + 1) []) (s.count, s.subset, s.survivors) X :=
          ⟨by simpa using hc.stab1, by simpa using hc.stab2, hc.ord, hc.live, hc.sorted, hc.run, hc.eok⟩
        obtain ⟨nav, hn1, hn2, hn3⟩ := step_up (sk := sk) (EOk := EOk) (s := s)
            (out := ⟨1, [], s.order, []⟩)
            (r := (1, s.count, s.subset, s.survivors)) hne hpos hG hx hbr hpost hi1 hi2 hb1 (by simp) hI.zero hI.pc
            (hstab' _) hI.ns hI.ordinv
            (memUp_same hmem (fun x g h => hpc' (PC_congr hG g.1 hx (m := s.i + 1) (by show s.i + 1 ≤ a.k; omega) h
              (g.2.1.mono (by omega)))))
        exact ⟨_, bStep_eq hstabi hperm hstl hrecord hn1, hn2, hn3⟩

omit hpos hG hrec in
theorem inv_init (hE : EOk (1, a.subset, [])) : Inv a sk EOk (bInit a) := by
  have hk := k_pos hne
  have hz : ∀ j, fn (List.replicate a.C.length 0) j = 0 := by
    intro j; unfold fn
    simp [List.getD_eq_getElem?_getD, List.getElem?_replicate]
    split <;> rfl
  have hord : ∀ j, j < fn a.C 0 + 1 → ((List.range (a.C.getD 0 0 + 1)).map (fun (j : Nat) => (j : Int)))[j]? = some (j : Int) := by
    intro j hj
    have : j < a.C.getD 0 0 + 1 := hj
    rw [List.getElem?_map, List.getElem?_range this]; rfl
  refine ⟨[], ⟨?_, ?_, ?_, ?_, ?_, List.Pairwise.nil, rfl, hE⟩, Or.inl ⟨rfl, Or.inl rfl, fun j _ => hz j, ?_, ?_, ?_, ?_⟩⟩
  · simp [bInit, C_len]
  · simp [bInit]
  · simp only [bInit, List.length_replicate]; show 2 ≤ a.k + 1; omega
  · simp [bInit, fn]
  · show ((List.range (a.C.getD 0 0 + 1)).map (fun (j : Nat) => (j : Int)))[fn a.C 0]? ≠ _
    rw [hord _ (by omega)]; simp
  · show fn (List.replicate a.C.length 0) 0 ≤ _
    rw [hz]; omega
  · show ((List.range (a.C.getD 0 0 + 1)).map (fun (j : Nat) => (j : Int)))[fn (List.replicate a.C.length 0) 0]? ≠ _
    rw [hz, hord _ (by omega)]; simp
  · intro c hc
    show ((List.range (a.C.getD 0 0 + 1)).map (fun (j : Nat) => (j : Int)))[c]? = _ ↔ _
    rw [hord _ (by omega)]
    constructor
    · intro h; simp at h
    · rintro ⟨x, -, h, -⟩
      have : dg x 0 < fn (List.replicate a.C.length 0) 0 := h
      rw [hz] at this; omega
  · intro x
    constructor
    · intro h; cases h
    · rintro ⟨-, j, hj, -, h2⟩
      have : dg x j < fn (List.replicate a.C.length 0) j := h2
      rw [hz] at this; omega

/-- The whole run: it terminates without error; the labellings it considered form a sorted initial segment of
the good labellings, all of them if the loop ended because the tree was exhausted. -/
theorem run_ok (hE : EOk (1, a.subset, [])) :
    ∃ s X, pyWhile (bCond a) (bStep a) (bInit a) = some (.ok s) ∧ bCond a s = false ∧
      X.Pairwise (fun x y => llt a.k (dg x) (dg y)) ∧
      runAll a X (1, a.subset, []) = .ok (s.count, s.subset, s.survivors) ∧
      (∀ x ∈ X, Good a sk x) ∧ (∀ x ∈ X, ∀ y, Good a sk y → llt a.k (dg y) (dg x) → y ∈ X) ∧
      (fn a.C 0 ≤ fn s.branch 0 → ∀ x, Good a sk x → x ∈ X) ∧ EOk (s.count, s.subset, s.survivors) := by
  obtain ⟨s, h1, h2, h3⟩ := pyWhile_total (bCond a) (bStep a) (Inv a sk EOk) (mu a)
    (fun s hs hc => step_ok hne hpos hG hrec s hs (by
      unfold bCond at hc
      rw [Bool.and_eq_true] at hc
      simpa [fn] using hc.1))
    (bInit a) (inv_init hne hE)
  have hk := k_pos hne
  obtain ⟨X, hc, hA | ⟨xb, hI, hcase⟩⟩ := h2
  · refine ⟨s, X, h1, h3, hc.sorted, hc.run, fun x hx => ((hA.mem x).mp hx).1, ?_, ?_, hc.eok⟩
    · intro x hx y hy hl
      exact (hA.mem y).mpr ⟨hy, hl.trans ((hA.mem x).mp hx).2⟩
    · intro h x hx
      refine (hA.mem x).mpr ⟨hx, 0, hk, fun j hj => by omega, ?_⟩
      have := dg_lt hx.1 hk
      omega
  · have hno : ¬ fn a.C 0 ≤ fn s.branch 0 := by
      rw [hI.br, fn_digits _ _ _ hk]
      have := dg_lt hI.lab hk
      omega
    rcases hcase with ⟨-, -, -, hmem⟩ | ⟨-, -, hmem⟩
    · refine ⟨s, X, h1, h3, hc.sorted, hc.run, fun x hx => ((hmem x).mp hx).1, ?_, fun h => absurd h hno, hc.eok⟩
      intro x hx y hy hl
      refine (hmem y).mpr ⟨hy, Or.inl ?_⟩
      rcases ((hmem x).mp hx).2 with h | h
      · exact hl.trans h
      · exact hl.congr_right h
    · refine ⟨s, X, h1, h3, hc.sorted, hc.run, fun x hx => ((hmem x).mp hx).1, ?_, fun h => absurd h hno, hc.eok⟩
      intro x hx y hy hl
      exact (hmem y).mpr ⟨hy, hl.trans ((hmem x).mp hx).2⟩

end

end Phenum
