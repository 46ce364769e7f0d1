import Verif.Proof.Search
/-
One iteration of the tree search preserves the invariant and decreases the measure.
-/
namespace Phenum
open Spec

section
variable {a : BArgs} {sk : List Nat → Prop} {EOk : RState → Prop}
variable (hne : a.concs ≠ []) (hpos : ∀ c ∈ a.concs, 1 ≤ c) (hG : IsPermGroup a.concs.sum a.G)

/-- the state after `perm`, recording and navigation -/
def bNext (a : BArgs) (out : PermOut) (stab : List (List Op)) (r : Nat × Nat × Subset × List Config) (nav : Nav) :
    BState :=
  { branch := nav.branch, i := nav.i, b0 := nav.b0, order := out.order,
    stab := if nav.reset then List.replicate a.concs.length [] else stab,
    count := r.2.1, subset := r.2.2.1, survivors := r.2.2.2 }

theorem bStep_eq {s : BState} {stabi : List Op} {out : PermOut} {r : Nat × Nat × Subset × List Config}
    {nav : Nav} (h1 : s.stab[s.i]? = some stabi)
    (h2 : perm s.branch a.concs a.concs.sum s.i a.group stabi s.order = .ok out)
    (h3 : s.i + 1 < s.stab.length) (h4 : bRecord a s out.unique out.ast = .ok r)
    (h5 : bNav a.C r.1 s.i s.b0 s.branch out.order = .ok nav) :
    bStep a s = .ok (bNext a out (s.stab.set (s.i + 1) out.st) r nav) := by
  unfold bStep
  have : pyGet s.stab s.i = .ok stabi := by unfold pyGet; rw [h1]
  rw [this]
  simp only [bind, Except.bind]
  rw [h2]
  simp only []
  rw [pySet_ok h3]
  simp only []
  rw [h4]
  simp only []
  rw [h5]
  rfl

/-- facts common to the states after recording -/
structure Post (a : BArgs) (EOk : RState → Prop) (order : List Int) (stab : List (List Op)) (E : RState)
    (X : List (List Nat)) : Prop where
  stab1 : a.k ≤ stab.length
  stab2 : 2 ≤ stab.length
  ord : order.length = fn a.C 0 + 1
  live : order[fn a.C 0]? ≠ some (-1)
  sorted : X.Pairwise (fun x y => llt a.k (dg x) (dg y))
  run : runAll a X (1, a.subset, []) = .ok E
  eok : EOk E

theorem radix_digits {x : List Nat} (hx : IsLabelling a.concs x) : IsRadixVec a.C (digits a.k x) := digits_radix hx

theorem mval_le_of_lab {x : List Nat} (hx : IsLabelling a.concs x) : mval (digits a.k x) a.C ≤ a.C.prod :=
  Nat.le_of_lt (mval_lt (radix_digits hx))

/-- going down -/
theorem step_down (hpos : ∀ c ∈ a.concs, 1 ≤ c) (hG : IsPermGroup a.concs.sum a.G)
    {s : BState} {out : PermOut} {stab : List (List Op)} {r : Nat × Nat × Subset × List Config}
    {X : List (List Nat)} {xb : List Nat} (hx : IsLabelling a.concs xb) (hbr : s.branch = digits a.k xb)
    (hp : Post a EOk out.order stab r.2 X) (hi : s.i + 2 < a.k) (hu : r.1 = 0 ∨ s.b0 = 0)
    (hz : ∀ j, s.i < j → j < a.k → dg xb j = 0) (hpc : PC a.G (s.i + 1) xb)
    (hstab : ∀ j, 1 ≤ j → j ≤ s.i + 1 → stab[j]? = some (stabOf a.group j xb))
    (hns : NS a sk xb (s.i + 1)) (hord : OrdInv a out.order (dg xb 0 + 1))
    (hmem : MemUp a sk X (dg xb) a.k) :
    ∃ nav, bNav a.C r.1 s.i s.b0 s.branch out.order = .ok nav ∧
      Inv a sk EOk (bNext a out stab r nav) ∧ mu a (bNext a out stab r nav) < mu a s := by
  have hlen : s.branch.length = a.k := by rw [hbr, digits_length]
  have hz1 : fn s.branch (s.i + 1) = 0 := by rw [hbr, fn_digits _ _ _ (by omega)]; exact hz _ (by omega) (by omega)
  have hc2 := C_two hpos (s.i + 1) (by omega)
  have hnav := bNav_down a.C r.1 s.i s.b0 s.branch out.order (by rw [hlen]; exact C_len) hu (by omega) hz1 hc2
  by_cases hk : s.branch.length ≤ s.i + 3
  · rw [if_pos hk] at hnav
    refine ⟨_, hnav, ?_, ?_⟩
    · -- new labelling
      have hfn : ∀ j < a.k, fn (s.branch.set (s.i + 1) 1) j = if j = s.i + 1 then 1 else dg xb j := by
        intro j hj
        rw [fn_set _ _ _ _ (by omega), hbr, fn_digits _ _ _ hj]
      obtain ⟨xc, hxc, hbc, hdc⟩ := exists_lab_of_branch (a := a) (b := s.branch.set (s.i + 1) 1)
        (by simpa using hlen) (by
          intro j hj
          rw [hfn j hj]
          split
          · next e => rw [e]; omega
          · exact dg_lt hx hj)
      have hdc' : ∀ j < a.k, dg xc j = if j = s.i + 1 then 1 else dg xb j := fun j hj => by
        rw [hdc j hj, hfn j hj]
      have hag : Agree (s.i + 1) (dg xb) (dg xc) := fun j hj => by
        rw [hdc' j (by omega), if_neg (by omega)]
      refine ⟨X, ⟨by simpa [bNext] using hlen, by simpa [bNext] using hp.stab1, by simpa [bNext] using hp.stab2,
        hp.ord, hp.live, hp.sorted, hp.run, hp.eok⟩, Or.inr ⟨xc, ⟨hxc, hbc, by simp [bNext], by simp [bNext]; omega,
          ?_, ?_, ?_, ?_, ?_⟩, Or.inr ⟨rfl, ?_, ?_⟩⟩⟩
      · intro j hj1 hj2
        simp only [bNext] at hj1
        rw [hdc' j hj2, if_neg (by omega)]
        exact hz j (by omega) hj2
      · exact PC_congr hG hx hxc (m := s.i + 1) (by show s.i + 1 ≤ a.k; omega) hag hpc
      · intro j hj1 hj2
        simp only [bNext] at hj2 ⊢
        rw [if_neg (by simp), hstab j hj1 hj2, stabOf_congr hG hx hxc (show j ≤ a.k by omega) (hag.mono hj2)]
      · intro l z h1 h2 h3 h4 h5 h6
        simp only [bNext] at h2
        refine hns l z h1 h2 ?_ h4 (h5.trans (hag.symm.mono (by omega))) h6
        rw [hag l h2]; exact h3
      · show OrdInv a out.order (dg xc 0 + 1)
        rw [← hag 0 (by omega)]; exact hord
      · show 1 ≤ dg xc (s.i + 1)
        rw [hdc' _ (by omega), if_pos rfl]
      · intro x
        rw [hmem x]
        have hlt : llt a.k (dg xb) (dg xc) := ⟨s.i + 1, by omega, hag, by
          rw [hdc' _ (by omega), if_pos rfl, hz _ (by omega) (by omega)]; omega⟩
        constructor
        · rintro ⟨g, h | h⟩
          · exact ⟨g, h.trans hlt⟩
          · exact ⟨g, hlt.congr_left h.symm⟩
        · rintro ⟨g, h⟩
          refine ⟨g, ?_⟩
          by_cases hb : llt a.k (dg x) (dg xb)
          · exact Or.inl hb
          · right
            apply agree_full hpos g.1 hx (m := s.i + 1 + 1) (by omega)
            apply between (j := s.i + 1) (le_refl _) (by omega) (hag.symm) _ _ _ hb h
            · rw [hdc' _ (by omega), if_pos rfl, hz _ (by omega) (by omega)]
            · intro l h1 h2; rw [hdc' l h2, if_neg (by omega)]; exact hz l (by omega) h2
            · intro l h1 h2; omega
    · apply mu_lt (by rw [hbr]; exact radix_digits hx) (by simpa [bNext] using hlen) (by omega)
        (by simp [bNext]; omega)
      · have hfn : ∀ j < a.k, fn (s.branch.set (s.i + 1) 1) j < fn a.C j := by
          intro j hj
          rw [fn_set _ _ _ _ (by omega), hbr]
          split
          · next e => rw [e]; omega
          · rw [fn_digits _ _ _ hj]; exact dg_lt hx hj
        exact Nat.le_of_lt (mval_lt ((radix_iff _ _).mpr ⟨by
          simp only [bNext, List.length_set]; rw [hlen, C_len], fun j hj => hfn j (by
            simp only [bNext, List.length_set] at hj; omega)⟩))
      · left
        refine ⟨s.i + 1, by omega, ?_, ?_⟩
        · intro j hj
          simp only [bNext]
          rw [fn_set _ _ _ _ (by omega), if_neg (by omega)]
        · simp only [bNext]
          rw [fn_set _ _ _ _ (by omega), if_pos rfl, hz1]; omega
  · rw [if_neg hk] at hnav
    refine ⟨_, hnav, ?_, ?_⟩
    · refine ⟨X, ⟨hlen, by simpa [bNext] using hp.stab1, by simpa [bNext] using hp.stab2,
        hp.ord, hp.live, hp.sorted, hp.run, hp.eok⟩, Or.inr ⟨xb, ⟨hx, hbr, by simp [bNext], by simp [bNext]; omega,
          ?_, hpc, ?_, hns, hord⟩, Or.inl ⟨rfl, ?_, ?_, hmem⟩⟩⟩
      · intro j hj1 hj2
        simp only [bNext] at hj1
        exact hz j (by omega) hj2
      · intro j hj1 hj2
        simp only [bNext] at hj2 ⊢
        rw [if_neg (by simp)]; exact hstab j hj1 hj2
      · exact hz _ (by simp [bNext]) (by simp [bNext]; omega)
      · simp only [bNext]; omega
    · apply mu_lt (by rw [hbr]; exact radix_digits hx) (by simpa [bNext] using hlen) (by omega)
        (by simp [bNext]; omega)
      · simp only [bNext]; rw [hbr]; exact mval_le_of_lab hx
      · right
        simp [bNext]

/-- returning to the first level -/
theorem step_to_A (hne : a.concs ≠ []) (hpos : ∀ c ∈ a.concs, 1 ≤ c) (hG : IsPermGroup a.concs.sum a.G)
    {s : BState} {out : PermOut} {stab : List (List Op)} {r : Nat × Nat × Subset × List Config} {nav : Nav}
    {X : List (List Nat)} {xb : List Nat} {i t : Nat} (hx : IsLabelling a.concs xb) (hbr : s.branch = digits a.k xb)
    (hp : Post a EOk out.order stab r.2 X) (hi : i < a.k) (hsi : s.i ≤ a.k)
    (hord : OrdInv a out.order (dg xb 0 + 1))
    (hmem : MemUp a sk X (dg xb) (i + 1))
    (hfull : ∀ l, 0 < l → l ≤ i → dg xb l + 1 = fn a.C l)
    (ht1 : dg xb 0 + 1 ≤ t) (ht2 : t ≤ fn a.C 0) (ht3 : out.order[t]? ≠ some (-1))
    (ht4 : ∀ l, dg xb 0 + 1 ≤ l → l < t → out.order[l]? = some (-1))
    (hni : nav.i = 0) (hnb : nav.b0 = 0 ∨ t = fn a.C 0) (hnl : nav.branch.length = a.k)
    (hnr : nav.reset = true → 2 ≤ a.k)
    (hnf : fn nav.branch 0 = t ∧ ∀ l, 1 ≤ l → fn nav.branch l = 0) :
    Inv a sk EOk (bNext a out stab r nav) ∧ mu a (bNext a out stab r nav) < mu a s := by
  have hk := k_pos hne
  have hagree0 : ∀ f : Nat → Nat, f 0 = dg xb 0 → Agree 1 f (dg xb) := fun f hf j hj => by
    have : j = 0 := by omega
    subst this; exact hf
  constructor
  · refine ⟨X, ⟨hnl, ?_, ?_, hp.ord, hp.live, hp.sorted, hp.run, hp.eok⟩, Or.inl ⟨hni, hnb.imp_right (fun h => by show fn nav.branch 0 = _; rw [hnf.1, h]), hnf.2, ?_, ?_, ?_, ?_⟩⟩
    · simp only [bNext]; split
      · simp
      · exact hp.stab1
    · simp only [bNext]; split
      · next h => have := hnr h; simpa using this
      · exact hp.stab2
    · show fn nav.branch 0 ≤ _
      rw [hnf.1]; exact ht2
    · show out.order[fn nav.branch 0]? ≠ _
      rw [hnf.1]; exact ht3
    · show OrdInv a out.order (fn nav.branch 0)
      rw [hnf.1]; exact ordInv_skip hG hk hord ht1 ht4
    · intro x
      show x ∈ X ↔ Good a sk x ∧ llt a.k (dg x) (fn nav.branch)
      rw [hmem x]
      constructor
      · rintro ⟨g, h⟩
        refine ⟨g, ?_⟩
        have hle : dg x 0 ≤ dg xb 0 := by
          rcases h with ⟨j, hj, h1, h2⟩ | h
          · by_cases e : j = 0
            · subst e; omega
            · rw [h1 0 (by omega)]
          · rw [h 0 (by omega)]
        exact ⟨0, hk, fun j hj => by omega, by rw [hnf.1]; omega⟩
      · rintro ⟨g, j, hj, h1, h2⟩
        refine ⟨g, ?_⟩
        have hj0 : j = 0 := by
          by_contra e
          rw [hnf.2 j (by omega)] at h2; omega
        subst hj0
        rw [hnf.1] at h2
        have hle : dg x 0 ≤ dg xb 0 := by
          by_contra hc
          have hd := ht4 (dg x 0) (by omega) h2
          exact dead_not_pc hG g.1 hk hord hd (g.2.1.mono (by omega))
        by_cases hb : llt a.k (dg x) (dg xb)
        · exact Or.inl hb
        · right
          apply between (j := 0) (br' := fun l => if l = 0 then dg xb 0 + 1 else 0) (by omega) hi
            (fun j hj => by omega) (by simp) _ _ hb
          · exact ⟨0, hk, fun j hj => by omega, by simp; omega⟩
          · intro l h1 h2; simp; omega
          · intro l h1 h2
            have := hfull l h1 h2
            have := dg_lt g.1 (show l < a.k by omega)
            omega
  · apply mu_lt (by rw [hbr]; exact radix_digits hx) hnl hsi (by simp only [bNext]; omega)
    · show mval nav.branch a.C ≤ _
      by_cases e : t = fn a.C 0
      · -- top
        cases hb : nav.branch with
        | nil => rw [hb] at hnl; simp at hnl; omega
        | cons b0 bs =>
          cases hC : a.C with
          | nil => have := C_len (a := a); rw [hC] at this; simp at this; omega
          | cons c cs =>
            have h0 : b0 = c := by
              have := hnf.1
              rw [hb, e, hC] at this
              exact this
            subst h0
            rw [mval_top]
            intro j
            have := hnf.2 (j + 1) (by omega)
            rw [hb] at this; exact this
      · apply Nat.le_of_lt
        apply mval_lt
        rw [radix_iff]
        refine ⟨by rw [hnl, C_len], ?_⟩
        intro j hj
        by_cases e0 : j = 0
        · subst e0; rw [hnf.1]; omega
        · rw [hnf.2 j (by omega)]
          have := dg_lt hx (show j < a.k by omega); omega
    · left
      refine ⟨0, hk, fun j hj => by omega, ?_⟩
      show fn s.branch 0 < fn nav.branch 0
      rw [hnf.1, hbr, fn_digits _ _ _ hk]; omega

/-- advancing at level `s.i >= 1` -/
theorem step_up (hne : a.concs ≠ []) (hpos : ∀ c ∈ a.concs, 1 ≤ c) (hG : IsPermGroup a.concs.sum a.G)
    {s : BState} {out : PermOut} {stab : List (List Op)} {r : Nat × Nat × Subset × List Config}
    {X : List (List Nat)} {xb : List Nat} (hx : IsLabelling a.concs xb) (hbr : s.branch = digits a.k xb)
    (hp : Post a EOk out.order stab r.2 X) (hi1 : 1 ≤ s.i) (hi : s.i + 2 ≤ a.k) (hb0 : s.b0 = 1)
    (hu : ¬ (r.1 = 0 ∧ s.i + 2 < a.k))
    (hz : ∀ j, s.i < j → j < a.k → dg xb j = 0) (hpc : PC a.G s.i xb)
    (hstab : ∀ j, 1 ≤ j → j ≤ s.i → stab[j]? = some (stabOf a.group j xb))
    (hns : NS a sk xb s.i) (hord : OrdInv a out.order (dg xb 0 + 1))
    (hmem : MemUp a sk X (dg xb) (s.i + 1)) :
    ∃ nav, bNav a.C r.1 s.i s.b0 s.branch out.order = .ok nav ∧
      Inv a sk EOk (bNext a out stab r nav) ∧ mu a (bNext a out stab r nav) < mu a s := by
  have hlen : s.branch.length = a.k := by rw [hbr, digits_length]
  have hfn : ∀ j < a.k, fn s.branch j = dg xb j := fun j hj => by rw [hbr, fn_digits _ _ _ hj]
  rw [hb0]
  rcases bNav_up a.C r.1 s.i s.branch out.order (fn a.C 0) (by rw [hlen, C_len]) (by rw [hlen]; exact hu)
      (by omega) (by omega) (fun j hj => by rw [hfn j (by omega)]; exact dg_lt hx (by omega)) rfl hp.ord hp.live
    with ⟨j, hj1, hj2, hf, hjc, b', hb'l, hnav, hb'⟩ | ⟨hf, t, t1, t2, t3, t4, b', hb'l, hnav, hb'⟩
  · refine ⟨_, hnav, ?_, ?_⟩
    · have hb'f : ∀ l < a.k, fn b' l = if l = j then dg xb j + 1 else if j < l then 0 else dg xb l := by
        intro l hl
        rw [hb', hfn j (by omega), hfn l hl]
        by_cases e : l = j
        · rw [if_pos e, if_pos e]
        · rw [if_neg e, if_neg e]
          by_cases e1 : j < l
          · rw [if_pos e1]
            by_cases e2 : l ≤ s.i
            · rw [if_pos ⟨e1, e2⟩]
            · rw [if_neg (by omega)]; exact hz l (by omega) hl
          · rw [if_neg (by omega), if_neg e1]
      obtain ⟨xc, hxc, hbc, hdc⟩ := exists_lab_of_branch (a := a) (b := b') (by omega) (by
          intro l hl
          rw [hb'f l hl]
          split
          · next e => rw [e, ← hfn j (by omega)]; exact hjc
          · split
            · have := dg_lt hx hl; omega
            · exact dg_lt hx hl)
      have hdc' : ∀ l < a.k, dg xc l = if l = j then dg xb j + 1 else if j < l then 0 else dg xb l :=
        fun l hl => by rw [hdc l hl, hb'f l hl]
      have hag : Agree j (dg xb) (dg xc) := fun l hl => by
        rw [hdc' l (by omega), if_neg (by omega), if_neg (by omega)]
      refine ⟨X, ⟨by simp only [bNext]; omega, by simpa [bNext] using hp.stab1, by simpa [bNext] using hp.stab2,
        hp.ord, hp.live, hp.sorted, hp.run, hp.eok⟩, Or.inr ⟨xc, ⟨hxc, hbc, hj1, by simp only [bNext]; omega,
          ?_, ?_, ?_, ?_, ?_⟩, Or.inr ⟨rfl, ?_, ?_⟩⟩⟩
      · intro l hl1 hl2
        simp only [bNext] at hl1
        rw [hdc' l hl2, if_neg (by omega), if_pos hl1]
      · exact PC_congr hG hx hxc (m := j) (by show j ≤ a.k; omega) hag (hpc.mono hj2)
      · intro l hl1 hl2
        simp only [bNext] at hl2 ⊢
        rw [if_neg (by simp), hstab l hl1 (by omega), stabOf_congr hG hx hxc (show l ≤ a.k by omega) (hag.mono hl2)]
      · intro l z h1 h2 h3 h4 h5 h6
        simp only [bNext] at h2
        refine hns l z h1 (by omega) ?_ h4 (h5.trans (hag.symm.mono (by omega))) h6
        rw [hag l h2]; exact h3
      · show OrdInv a out.order (dg xc 0 + 1)
        rw [← hag 0 (by omega)]; exact hord
      · show 1 ≤ dg xc j
        rw [hdc' _ (by omega), if_pos rfl]; omega
      · intro x
        rw [hmem x]
        have hlt : llt a.k (dg xb) (dg xc) := ⟨j, by omega, hag, by
          rw [hdc' _ (by omega), if_pos rfl]; omega⟩
        constructor
        · rintro ⟨g, h | h⟩
          · exact ⟨g, h.trans hlt⟩
          · refine ⟨g, j, by omega, (h.mono (by omega)).trans hag, ?_⟩
            rw [h j (by omega), hdc' _ (by omega), if_pos rfl]; omega
        · rintro ⟨g, h⟩
          refine ⟨g, ?_⟩
          by_cases hb : llt a.k (dg x) (dg xb)
          · exact Or.inl hb
          · right
            apply between (j := j) hj2 (by omega) (hag.symm) _ _ _ hb h
            · rw [hdc' _ (by omega), if_pos rfl]
            · intro l h1 h2; rw [hdc' l h2, if_neg (by omega), if_pos h1]
            · intro l h1 h2
              have := hf l h1 h2
              rw [hfn l (by omega)] at this
              have := dg_lt g.1 (show l < a.k by omega)
              omega
    · apply mu_lt (by rw [hbr]; exact radix_digits hx) (by simp only [bNext]; omega) (by omega)
        (by simp only [bNext]; omega)
      · apply Nat.le_of_lt
        apply mval_lt
        rw [radix_iff]
        refine ⟨by simp only [bNext]; rw [hb'l, hlen, C_len], ?_⟩
        intro l hl
        simp only [bNext] at hl ⊢
        rw [hb']
        split
        · next e => rw [e]; exact hjc
        · split
          · have := dg_lt hx (show l < a.k by omega); omega
          · rw [hfn l (by omega)]; exact dg_lt hx (by omega)
      · left
        refine ⟨j, by omega, ?_, ?_⟩
        · intro l hl
          simp only [bNext]
          rw [hb', if_neg (by omega), if_neg (by omega)]
        · simp only [bNext]
          rw [hb', if_pos rfl]; omega
  · refine ⟨_, hnav, ?_⟩
    rw [hfn 0 (by omega)] at t1 t4
    refine step_to_A hne hpos hG (i := s.i) (t := t) hx hbr hp (by omega) (by omega) hord hmem ?_ t1 t2 t3 t4 rfl
      (Or.inl rfl) (by simp only []; omega) (fun _ => by omega) ⟨by simp [hb'], ?_⟩
    · intro l h1 h2; rw [← hfn l (by omega)]; exact hf l h1 h2
    · intro l hl
      simp only []
      rw [hb', if_neg (by omega)]
      split
      · rfl
      · by_cases hlk : l < a.k
        · rw [hfn l hlk]; exact hz l (by omega) hlk
        · unfold fn; simp [hlen, Nat.not_lt.mp hlk]

end

end Phenum
