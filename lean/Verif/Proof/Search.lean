import Verif.Proof.Nav
import Verif.Proof.Loop
import Mathlib.Data.List.Pairwise
/-
The invariant of the tree search loop (`bStep`) and its total correctness.
-/
namespace Phenum
open Spec

/-! ### Radix numbers -/

theorem coef_fn {concs : List Nat} (hpos : ∀ c ∈ concs, 1 ≤ c) (j : Nat) (hj : j < concs.length) :
    (j + 1 < concs.length → 2 ≤ fn (coefficients concs (concs.sum : Nat)) j) ∧
    (j + 1 = concs.length → fn (coefficients concs (concs.sum : Nat)) j = 1) := by
  induction concs generalizing j with
  | nil => simp at hj
  | cons c cs ih =>
    rw [coefficients_cons]
    have hc : 1 ≤ c := hpos c (by simp)
    cases j with
    | zero =>
      have e : fn ((c + cs.sum).choose c :: coefficients cs (cs.sum : Nat)) 0 = (c + cs.sum).choose c := rfl
      rw [e]
      constructor
      · intro h
        cases cs with
        | nil => simp at h
        | cons d ds =>
          have hd : 1 ≤ d := hpos d (by simp)
          have hs : 1 ≤ (d :: ds).sum := by rw [List.sum_cons]; omega
          generalize (d :: ds).sum = m at hs
          obtain ⟨c', rfl⟩ : ∃ c', c = c' + 1 := ⟨c - 1, by omega⟩
          obtain ⟨m', rfl⟩ : ∃ m', m = m' + 1 := ⟨m - 1, by omega⟩
          rw [show c' + 1 + (m' + 1) = (c' + m' + 1) + 1 by omega, Nat.choose_succ_succ']
          have h1 : 0 < (c' + m' + 1).choose c' := Nat.choose_pos (by omega)
          have h2 : 0 < (c' + m' + 1).choose (c' + 1) := Nat.choose_pos (by omega)
          omega
      · intro h
        have : cs = [] := by
          apply List.length_eq_zero_iff.mp
          simpa using h.symm
        subst this
        simp
    | succ j =>
      have e : fn ((c + cs.sum).choose c :: coefficients cs (cs.sum : Nat)) (j + 1)
          = fn (coefficients cs (cs.sum : Nat)) j := rfl
      rw [e]
      have := ih (fun d hd => hpos d (by simp [hd])) j (by simpa using hj)
      simpa using this

theorem radix_iff (C b : List Nat) : IsRadixVec C b ↔ b.length = C.length ∧ ∀ j < b.length, fn b j < fn C j := by
  unfold IsRadixVec
  rw [List.forall₂_iff_get]
  constructor
  · rintro ⟨h1, h2⟩
    refine ⟨h1, fun j hj => ?_⟩
    have := h2 j hj (by omega)
    simpa [fn, hj, show j < C.length by omega] using this
  · rintro ⟨h1, h2⟩
    refine ⟨h1, fun j hj hj' => ?_⟩
    have := h2 j hj
    simpa [fn, hj, hj'] using this

/-- mixed-radix value -/
def mval : List Nat → List Nat → Nat
  | d :: ds, _ :: cs => d * cs.prod + mval ds cs
  | _, _ => 0

theorem mval_lt {C b : List Nat} (h : IsRadixVec C b) : mval b C < C.prod := by
  induction h with
  | nil => simp [mval]
  | @cons d c ds cs h _ ih =>
    rw [mval, List.prod_cons]
    calc d * cs.prod + mval ds cs < d * cs.prod + cs.prod := by omega
      _ = (d + 1) * cs.prod := by ring
      _ ≤ c * cs.prod := Nat.mul_le_mul_right _ h

theorem mval_mono {C b b' : List Nat} (h : IsRadixVec C b) (hl : b'.length = C.length)
    (hlt : llt C.length (fn b) (fn b')) : mval b C < mval b' C := by
  induction h generalizing b' with
  | nil => obtain ⟨j, hj, -⟩ := hlt; simp at hj
  | @cons d c ds cs h hs ih =>
    cases b' with
    | nil => simp at hl
    | cons e es =>
      obtain ⟨j, hj, h1, h2⟩ := hlt
      rw [mval, mval]
      have hm := mval_lt hs
      cases j with
      | zero =>
        have h2' : d < e := h2
        have := Nat.mul_le_mul_right cs.prod h2'
        rw [Nat.succ_mul] at this
        omega
      | succ j =>
        have h0 : d = e := h1 0 (by omega)
        have := ih (by simpa using hl) ⟨j, by simpa using hj, fun l hl => h1 (l + 1) (by omega), h2⟩
        subst h0; omega

theorem mval_top (c : Nat) (cs es : List Nat) (hz : ∀ j, fn es j = 0) : mval (c :: es) (c :: cs) = (c :: cs).prod := by
  rw [mval, List.prod_cons]
  have : mval es cs = 0 := by
    induction es generalizing cs with
    | nil => cases cs <;> rfl
    | cons e es ih =>
      cases cs with
      | nil => rfl
      | cons d ds =>
        have h0 : e = 0 := hz 0
        rw [mval, ih ds (fun j => hz (j + 1)), h0]; simp
  omega

/-! ### Recording -/

/-- counters and output of the run -/
abbrev RState := Nat × Subset × List Config

/-- what happens when the canonical labelling `x` is considered -/
def recd (a : BArgs) (x : List Nat) (E : RState) : Py (Nat × RState) :=
  bRecord a { branch := digits a.concs.length x, i := 0, b0 := 0, order := [], stab := [], count := E.1,
              subset := E.2.1, survivors := E.2.2 } 0 (a.group.filter (fun g => permute g.1 x = x))

theorem bRecord_recd (a : BArgs) (s : BState) (x : List Nat) (hb : s.branch = digits a.concs.length x)
    (hc : s.b0 = 1 ∨ s.i = 0) :
    bRecord a s 0 (a.group.filter (fun g => permute g.1 x = x)) =
      recd a x (s.count, s.subset, s.survivors) := by
  unfold recd bRecord superStep
  simp only [hb, hc, or_true, and_true]

theorem bRecord_idle (a : BArgs) (s : BState) (u : Nat) (ast : List Op) (h : u ≠ 0 ∨ (s.b0 ≠ 1 ∧ s.i ≠ 0)) :
    bRecord a s u ast = .ok (u, s.count, s.subset, s.survivors) := by
  have h' : ¬ (u = 0 ∧ (s.b0 = 1 ∨ s.i = 0)) := by tauto
  unfold bRecord superStep
  simp only [if_neg h', ite_self, bind, Except.bind]

/-- run `recd` over a list of labellings -/
def runAll (a : BArgs) : List (List Nat) → RState → Py RState
  | [], E => .ok E
  | x :: X, E => do
    let r ← recd a x E
    runAll a X r.2

theorem runAll_append (a : BArgs) (X Y : List (List Nat)) (E : RState) :
    runAll a (X ++ Y) E = (runAll a X E).bind (runAll a Y) := by
  induction X generalizing E with
  | nil => rfl
  | cons x X ih =>
    rw [List.cons_append, runAll, runAll]
    cases h : recd a x E with
    | error e => rfl
    | ok r => exact ih r.2

/-- The recording step never fails, and reports `unique = 1` exactly for the labellings in `sk`. -/
structure RecOk (a : BArgs) (sk : List Nat → Prop) (EOk : RState → Prop) : Prop where
  ok : ∀ x E, IsLabelling a.concs x → PC (a.group.map (·.1)) a.concs.length x → EOk E →
    ∃ u E', recd a x E = .ok (u, E') ∧ (u = 0 ↔ ¬ sk x) ∧ EOk E'

/-! ### The invariant -/

section
variable (a : BArgs) (sk : List Nat → Prop) (EOk : RState → Prop)

/-- number of species -/
abbrev BArgs.k (a : BArgs) : Nat := a.concs.length
/-- site permutations -/
abbrev BArgs.G (a : BArgs) : List (List Nat) := a.group.map (·.1)

/-- `x` lies strictly below a node of the search tree at which the superperiodic test fired -/
def Skip (x : List Nat) : Prop :=
  ∃ i z, 1 ≤ i ∧ i < a.k ∧ 1 ≤ dg x i ∧ IsLabelling a.concs z ∧ Agree (i + 1) (dg z) (dg x) ∧
    (∀ j, i < j → j < a.k → dg z j = 0) ∧ sk z ∧ z ≠ x

/-- the labellings the search considers -/
def Good (x : List Nat) : Prop := IsLabelling a.concs x ∧ PC a.G a.k x ∧ ¬ Skip a sk x

/-- `order[c] = -1` exactly for the first digits reachable from a smaller first digit below `m` -/
def OrdInv (order : List Int) (m : Nat) : Prop :=
  ∀ c < fn a.C 0, order[c]? = some (-1) ↔
    ∃ x, IsLabelling a.concs x ∧ dg x 0 < m ∧ dg x 0 < c ∧ ∃ σ ∈ a.G, dg (permute σ x) 0 = c

/-- facts that hold in every state -/
structure Com (s : BState) (X : List (List Nat)) : Prop where
  len : s.branch.length = a.k
  stab1 : a.k ≤ s.stab.length
  stab2 : 2 ≤ s.stab.length
  ord : s.order.length = fn a.C 0 + 1
  live : s.order[fn a.C 0]? ≠ some (-1)
  sorted : X.Pairwise (fun x y => llt a.k (dg x) (dg y))
  run : runAll a X (1, a.subset, []) = .ok (s.count, s.subset, s.survivors)
  eok : EOk (s.count, s.subset, s.survivors)

/-- the visited labellings: everything before the cursor `br`, or agreeing with it below level `m` -/
def MemUp (X : List (List Nat)) (br : Nat → Nat) (m : Nat) : Prop :=
  ∀ x, x ∈ X ↔ Good a sk x ∧ (llt a.k (dg x) br ∨ Agree m (dg x) br)

/-- the visited labellings: everything before the cursor `br` -/
def MemLt (X : List (List Nat)) (br : Nat → Nat) : Prop :=
  ∀ x, x ∈ X ↔ Good a sk x ∧ llt a.k (dg x) br

/-- no node above level `i` on the path of `xb` was superperiodic -/
def NS (xb : List Nat) (i : Nat) : Prop :=
  ∀ l z, 1 ≤ l → l < i → 1 ≤ dg xb l → IsLabelling a.concs z → Agree (l + 1) (dg z) (dg xb) →
    (∀ j, l < j → j < a.k → dg z j = 0) → ¬ sk z

/-- at the first level -/
structure CaseA (s : BState) (X : List (List Nat)) : Prop where
  i0 : s.i = 0
  b0 : s.b0 = 0 ∨ fn s.branch 0 = fn a.C 0
  zero : ∀ j, 1 ≤ j → fn s.branch j = 0
  le : fn s.branch 0 ≤ fn a.C 0
  alive : s.order[fn s.branch 0]? ≠ some (-1)
  ordinv : OrdInv a s.order (fn s.branch 0)
  mem : MemLt a sk X (fn s.branch)

/-- at a deeper level -/
structure CaseI (s : BState) (xb : List Nat) : Prop where
  lab : IsLabelling a.concs xb
  br : s.branch = digits a.k xb
  i1 : 1 ≤ s.i
  i2 : s.i + 2 ≤ a.k
  zero : ∀ j, s.i < j → j < a.k → dg xb j = 0
  pc : PC a.G s.i xb
  stab : ∀ j, 1 ≤ j → j ≤ s.i → s.stab[j]? = some (stabOf a.group j xb)
  ns : NS a sk xb s.i
  ordinv : OrdInv a s.order (dg xb 0 + 1)

/-- the loop invariant -/
def Inv (s : BState) : Prop :=
  ∃ X, Com a EOk s X ∧
    (CaseA a sk s X ∨
      ∃ xb, CaseI a sk s xb ∧
        ((s.b0 = 0 ∧ dg xb s.i = 0 ∧ s.i + 2 < a.k ∧ MemUp a sk X (dg xb) a.k) ∨
         (s.b0 = 1 ∧ 1 ≤ dg xb s.i ∧ MemLt a sk X (dg xb))))

/-- the measure -/
def mu (s : BState) : Nat := (a.C.prod * (a.k + 1) + a.k) - (mval s.branch a.C * (a.k + 1) + s.i)

end

/-- Every vector between a cursor and its successor at level `j` agrees with the cursor up to level `i`. -/
theorem between {k i j : Nat} {f br br' : Nat → Nat} (hji : j ≤ i) (hik : i < k)
    (h1 : Agree j br' br) (h2 : br' j = br j + 1) (h3 : ∀ l, j < l → l < k → br' l = 0)
    (h4 : ∀ l, j < l → l ≤ i → f l ≤ br l) (h5 : ¬ llt k f br) (h6 : llt k f br') :
    Agree (i + 1) f br := by
  obtain ⟨p, hp, g1, g2⟩ := h6
  rcases Nat.lt_trichotomy p j with c | c | c
  · exfalso; apply h5
    exact ⟨p, hp, g1.trans (h1.mono (by omega)), by rw [← h1 p c]; exact g2⟩
  · subst c
    have a1 : Agree p f br := g1.trans h1
    have hle : f p ≤ br p := by omega
    have hpeq : f p = br p := by
      by_contra hc
      exact h5 ⟨p, hp, a1, by omega⟩
    have main : ∀ m, m ≤ i → Agree (m + 1) f br := by
      intro m
      induction m with
      | zero =>
        intro _ l hl
        by_cases e : l < p
        · exact a1 l e
        · have : l = p := by omega
          rw [this]; exact hpeq
      | succ m ih =>
        intro hm
        have ih := ih (by omega)
        intro l hl
        by_cases e : l < m + 1
        · exact ih l e
        · have e' : l = m + 1 := by omega
          subst e'
          rcases Nat.lt_trichotomy (m + 1) p with c | c | c
          · exact a1 _ c
          · rw [c]; exact hpeq
          · have := h4 (m + 1) c hm
            by_contra hne
            exact h5 ⟨m + 1, by omega, ih, by omega⟩
    exact main i (le_refl _)
  · rw [h3 p c hp] at g2; omega

section
variable {a : BArgs} {sk : List Nat → Prop} {EOk : RState → Prop}

theorem dg_lt {x : List Nat} (hx : IsLabelling a.concs x) {j : Nat} (hj : j < a.k) : dg x j < fn a.C j := by
  have := (radix_iff _ _).mp (digits_radix hx)
  have h := this.2 j (by rw [digits_length]; exact hj)
  rwa [fn_digits _ _ _ hj] at h

theorem C_len : a.C.length = a.k := coefficients_length _ _

theorem exists_lab_of_branch {b : List Nat} (hl : b.length = a.k) (h : ∀ j < a.k, fn b j < fn a.C j) :
    ∃ x, IsLabelling a.concs x ∧ b = digits a.k x ∧ ∀ j < a.k, dg x j = fn b j := by
  obtain ⟨x, h1, h2⟩ := exists_labelling (concs := a.concs) (d := b)
    ((radix_iff _ _).mpr ⟨by rw [hl]; exact C_len.symm, fun j hj => h j (by omega)⟩)
  refine ⟨x, h1, h2.symm, fun j hj => ?_⟩
  rw [← h2, fn_digits _ _ _ hj]

variable (hne : a.concs ≠ []) (hpos : ∀ c ∈ a.concs, 1 ≤ c) (hG : IsPermGroup a.concs.sum a.G)

include hpos in
theorem dg_last {x : List Nat} (hx : IsLabelling a.concs x) (j : Nat) (hj : j + 1 = a.k) : dg x j = 0 := by
  have h1 := dg_lt hx (show j < a.k by omega)
  have h2 := (coef_fn hpos j (show j < a.k by omega)).2 hj
  have h3 : fn a.C j = 1 := h2
  omega

include hpos in
theorem C_two (j : Nat) (hj : j + 1 < a.k) : 2 ≤ fn a.C j := (coef_fn hpos j (show j < a.k by omega)).1 hj

include hpos in
theorem C_one (j : Nat) (hj : j + 1 = a.k) : fn a.C j = 1 := (coef_fn hpos j (show j < a.k by omega)).2 hj

include hpos in
/-- agreeing up to level `k-2` is agreeing -/
theorem agree_full {x y : List Nat} (hx : IsLabelling a.concs x) (hy : IsLabelling a.concs y) {m : Nat}
    (hm : a.k ≤ m + 1) (h : Agree m (dg x) (dg y)) : Agree a.k (dg x) (dg y) := by
  intro j hj
  by_cases e : j < m
  · exact h j e
  · have hj' : j + 1 = a.k := by omega
    rw [dg_last hpos hx j hj', dg_last hpos hy j hj']

include hne in
theorem k_pos : 0 < a.k := List.length_pos_iff.mpr hne

/-- zero digits after level `i` for a labelling agreeing up to level `i` with `xb`, excluding `Skip` -/
theorem not_skip_of_ns {xb : List Nat} {i : Nat} (hx : IsLabelling a.concs xb) (hns : NS a sk xb i)
    (hz : ∀ j, i < j → j < a.k → dg xb j = 0) : ¬ Skip a sk xb := by
  rintro ⟨l, z, h1, h2, h3, h4, h5, h6, h7, h8⟩
  by_cases hl : l < i
  · exact hns l z h1 hl h3 h4 h5 h6 h7
  · apply h8
    apply dg_ext h4 hx
    intro j hj
    by_cases e : j < l + 1
    · exact h5 j e
    · rw [h6 j (by omega) hj, hz j (by omega) hj]

include hG in
/-- order table: an unmarked first digit is minimal -/
theorem pc_one {x : List Nat} (hx : IsLabelling a.concs x) (hk : 0 < a.k) {order : List Int}
    (ho : OrdInv a order (dg x 0)) (hal : order[dg x 0]? ≠ some (-1)) : PC a.G 1 x := by
  rintro σ hσ ⟨j, hj, -, h2⟩
  have : j = 0 := by omega
  subst this
  apply hal
  rw [ho _ (dg_lt hx hk)]
  obtain ⟨τ, hτ, hinv⟩ := hG.exists_inv hσ
  refine ⟨permute σ x, lab_permute hG hx hσ, h2, h2, τ, hτ, ?_⟩
  rw [hinv x (lab_len hx)]

include hG in
/-- order table: a marked first digit is not minimal -/
theorem dead_not_pc {x : List Nat} (hx : IsLabelling a.concs x) (hk : 0 < a.k) {order : List Int} {m : Nat}
    (ho : OrdInv a order m) (hd : order[dg x 0]? = some (-1)) : ¬ PC a.G 1 x := by
  obtain ⟨y, hy, h1, h2, σ, hσ, h3⟩ := (ho _ (dg_lt hx hk)).mp hd
  obtain ⟨τ, hτ, hinv⟩ := hG.exists_inv hσ
  intro hp
  apply hp τ hτ
  refine ⟨0, by omega, fun j hj => by omega, ?_⟩
  have := agree_permute hG (lab_permute hG hy hσ) hx (m := 1) hk
    (fun j hj => by have : j = 0 := by omega
                    subst this; exact h3) hτ
  rw [← this 0 (by omega), hinv y (lab_len hy)]
  exact h2

include hG in
/-- order table: raising the bound over dead digits changes nothing -/
theorem ordInv_skip (hk : 0 < a.k) {order : List Int} {m t : Nat} (ho : OrdInv a order m) (hmt : m ≤ t)
    (hd : ∀ l, m ≤ l → l < t → order[l]? = some (-1)) : OrdInv a order t := by
  intro c hc
  rw [ho c hc]
  constructor
  · rintro ⟨x, h1, h2, h3⟩; exact ⟨x, h1, by omega, h3⟩
  · rintro ⟨x, h1, h2, h3, σ, hσ, h4⟩
    by_cases e : dg x 0 < m
    · exact ⟨x, h1, e, h3, σ, hσ, h4⟩
    · obtain ⟨y, hy, g1, g2, τ, hτ, g3⟩ := (ho _ (dg_lt h1 hk)).mp (hd _ (by omega) h2)
      refine ⟨y, hy, g1, by omega, _, hG.mul τ hτ σ hσ, ?_⟩
      rw [← hG.permute_mul hτ hσ y (lab_len hy), ← h4]
      exact agree_permute hG (lab_permute hG hy hτ) h1 (m := 1) hk
        (fun j hj => by have : j = 0 := by omega
                        subst this; exact g3) hσ 0 (by omega)

include hG in
theorem ordInv_mark {x : List Nat} (hx : IsLabelling a.concs x) (hk : 0 < a.k) {order : List Int}
    (hl : order.length = fn a.C 0 + 1) (ho : OrdInv a order (dg x 0)) :
    OrdInv a (markOrder (dg x 0) x a.group order) (dg x 0 + 1) := by
  intro c hc
  rw [markOrder_neg _ _ _ _ _ (by omega), ho c hc]
  constructor
  · rintro (⟨y, h1, h2, h3⟩ | ⟨g, hg, h1, h2⟩)
    · exact ⟨y, h1, by omega, h3⟩
    · exact ⟨x, hx, by omega, h2, g.1, mem_sites hg, h1⟩
  · rintro ⟨y, h1, h2, h3, σ, hσ, h4⟩
    by_cases e : dg y 0 < dg x 0
    · exact Or.inl ⟨y, h1, e, h3, σ, hσ, h4⟩
    · have e' : dg y 0 = dg x 0 := by omega
      obtain ⟨g, hg, rfl⟩ := List.mem_map.mp hσ
      refine Or.inr ⟨g, hg, ?_, by omega⟩
      rw [← h4]
      exact (agree_permute hG h1 hx (m := 1) hk
        (fun j hj => by have : j = 0 := by omega
                        subst this; exact e') (mem_sites hg) 0 (by omega)).symm

theorem mark_top {x : List Nat} (hG : IsPermGroup a.concs.sum a.G) (hx : IsLabelling a.concs x) (hk : 0 < a.k)
    {order : List Int} (hl : order.length = fn a.C 0 + 1) (hlive : order[fn a.C 0]? ≠ some (-1)) :
    (markOrder (dg x 0) x a.group order)[fn a.C 0]? ≠ some (-1) := by
  intro h
  rw [markOrder_neg _ _ _ _ _ (by omega)] at h
  rcases h with h | ⟨g, hg, h1, -⟩
  · exact hlive h
  · have := dg_lt (lab_permute hG hx (mem_sites hg)) hk
    omega

/-- measure decreases when the cursor moves forward -/
theorem mu_lt {s s' : BState} (hb : IsRadixVec a.C s.branch) (hl : s'.branch.length = a.k)
    (hi : s.i ≤ a.k) (hi' : s'.i ≤ a.k)
    (htop : mval s'.branch a.C ≤ a.C.prod)
    (h : llt a.k (fn s.branch) (fn s'.branch) ∨ (s'.branch = s.branch ∧ s.i < s'.i)) :
    mu a s' < mu a s := by
  have hb' := mval_lt hb
  unfold mu
  have hle : mval s'.branch a.C * (a.k + 1) + s'.i ≤ a.C.prod * (a.k + 1) + a.k := by
    have := Nat.mul_le_mul_right (a.k + 1) htop
    omega
  have hlt : mval s.branch a.C * (a.k + 1) + s.i < mval s'.branch a.C * (a.k + 1) + s'.i := by
    rcases h with h | ⟨h1, h2⟩
    · have h3 := mval_mono hb (b' := s'.branch) (by rw [hl, C_len]) (by rw [C_len]; exact h)
      have := Nat.mul_le_mul_right (a.k + 1) h3
      rw [Nat.succ_mul] at this
      omega
    · rw [h1]; omega
  omega

end

end Phenum
