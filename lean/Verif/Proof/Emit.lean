import Verif.Proof.SearchRun
import Verif.Proof.Decor
import Mathlib.Data.List.Sort
/-
What a run of `brancher` returns, in terms of the configurations emitted for each canonical labelling.
-/
namespace Phenum
open Spec

/-- the entries whose ordinal (counted from `c`) satisfies `p` -/
def pick {α : Type} (p : Nat → Bool) : Nat → List α → List α
  | _, [] => []
  | c, z :: r => if p c then z :: pick p (c + 1) r else pick p (c + 1) r

theorem pick_append {α : Type} (p : Nat → Bool) (c : Nat) (L M : List α) :
    pick p c (L ++ M) = pick p c L ++ pick p (c + L.length) M := by
  induction L generalizing c with
  | nil => rfl
  | cons z L ih =>
    rw [List.cons_append, pick, pick, ih, List.length_cons, show c + 1 + L.length = c + (L.length + 1) by omega]
    split <;> rfl

theorem pick_true {α : Type} (c : Nat) (L : List α) : pick (fun _ => true) c L = L := by
  induction L generalizing c with
  | nil => rfl
  | cons z L ih => rw [pick, ih]; rfl

theorem pick_length {α : Type} (p : Nat → Bool) (c : Nat) (L : List α) :
    (pick p c L).length = ((List.range' c L.length).filter p).length := by
  induction L generalizing c with
  | nil => rfl
  | cons z L ih =>
    rw [pick, List.length_cons, List.range'_succ, List.filter_cons]
    split
    · rw [List.length_cons, List.length_cons, ih]
    · rw [ih]

theorem appendArrows_eq (a : BArgs) (subset : Subset) (L : List Config) (count : Nat) (surv : List Config) :
    appendArrows a subset L count surv =
      (count + L.length, surv ++ pick (keepCandidate a subset) count L) := by
  induction L generalizing count surv with
  | nil => simp [appendArrows, pick]
  | cons z L ih =>
    rw [appendArrows, ih, pick]
    split
    · simp; omega
    · simp; omega

/-- `ems` gives the configurations emitted for a canonical labelling -/
def EmOk (a : BArgs) (ems : List Nat → List Config) : Prop :=
  ∀ x, IsLabelling a.concs x → PC a.G a.k x → ∀ subset count surv,
    emit a (digits a.k x) (a.group.filter (fun g => permute g.1 x = x)) subset count surv =
      .ok (appendArrows a subset (ems x) count surv)

section
variable {a : BArgs} {ems : List Nat → List Config} (hs : (!a.supers && decide (a.narrows = 0)) = false) (he : EmOk a ems)
include hs he

theorem recd_eq {x : List Nat} (hx : IsLabelling a.concs x) (hp : PC a.G a.k x) (E : RState) :
    recd a x E = .ok (0, E.1 + (ems x).length, E.2.1, E.2.2 ++ pick (keepCandidate a E.2.1) E.1 (ems x)) := by
  unfold recd bRecord superStep
  simp only [hs, Bool.false_eq_true, if_false, bind, Except.bind,
    or_true, and_self, if_true]
  rw [he x hx hp, appendArrows_eq]

theorem recOk : RecOk a (fun _ => False) (fun E => E.2.1 = a.subset) where
  ok x E hx hp hE := ⟨0, _, recd_eq hs he hx hp E, by simp, hE⟩

theorem runAll_eq (X : List (List Nat)) (hX : ∀ x ∈ X, IsLabelling a.concs x ∧ PC a.G a.k x) (E : RState) :
    runAll a X E = .ok (E.1 + (X.flatMap ems).length, E.2.1,
      E.2.2 ++ pick (keepCandidate a E.2.1) E.1 (X.flatMap ems)) := by
  induction X generalizing E with
  | nil => simp [runAll, pick]
  | cons x X ih =>
    have hx := hX x (by simp)
    rw [runAll, recd_eq hs he hx.1 hx.2]
    simp only [bind, Except.bind]
    rw [ih (fun y hy => hX y (by simp [hy]))]
    simp only [List.flatMap_cons, pick_append, List.length_append, List.append_assoc, Nat.add_assoc]

end

theorem good_false {a : BArgs} (x : List Nat) : Good a (fun _ => False) x ↔ IsLabelling a.concs x ∧ PC a.G a.k x := by
  unfold Good
  constructor
  · rintro ⟨h1, h2, -⟩; exact ⟨h1, h2⟩
  · rintro ⟨h1, h2⟩
    refine ⟨h1, h2, ?_⟩
    rintro ⟨i, z, -, -, -, -, -, -, h, -⟩
    exact h

/-- `X` lists the canonical labellings in increasing order -/
structure Canon (a : BArgs) (X : List (List Nat)) : Prop where
  sorted : X.Pairwise (fun x y => llt a.k (dg x) (dg y))
  mem : ∀ x, x ∈ X ↔ IsLabelling a.concs x ∧ PC a.G a.k x

theorem Canon.nodup {a : BArgs} {X : List (List Nat)} (h : Canon a X) : X.Nodup := by
  apply h.sorted.imp
  intro x y hxy e
  subst e
  exact hxy.irrefl

theorem sorted_prefix {a : BArgs} {X Y : List (List Nat)} (hX : X.Pairwise (fun x y => llt a.k (dg x) (dg y)))
    (hY : Y.Pairwise (fun x y => llt a.k (dg x) (dg y))) (hsub : ∀ x ∈ X, x ∈ Y)
    (hdown : ∀ x ∈ X, ∀ y ∈ Y, llt a.k (dg y) (dg x) → y ∈ X) : ∃ Z, Y = X ++ Z := by
  induction Y generalizing X with
  | nil =>
    cases X with
    | nil => exact ⟨[], rfl⟩
    | cons x X => exact absurd (hsub x (by simp)) (by simp)
  | cons y Y ih =>
    cases X with
    | nil => exact ⟨y :: Y, rfl⟩
    | cons x X =>
      rw [List.pairwise_cons] at hX hY
      have hxy : x = y := by
        rcases List.mem_cons.mp (hsub x (by simp)) with h | h
        · exact h
        · have h1 := hY.1 x h
          have := hdown x (by simp) y (by simp) h1
          rcases List.mem_cons.mp this with h2 | h2
          · exact h2.symm
          · exact absurd (hX.1 y h2) h1.asymm
      subst hxy
      obtain ⟨Z, hZ⟩ := ih hX.2 hY.2
        (fun z hz => by
          rcases List.mem_cons.mp (hsub z (by simp [hz])) with h | h
          · subst h; exact absurd (hX.1 z hz) llt.irrefl
          · exact h)
        (fun z hz w hw hl => by
          rcases List.mem_cons.mp (hdown z (by simp [hz]) w (by simp [hw]) hl) with h | h
          · subst h; exact absurd (hY.1 w hw) llt.irrefl
          · exact h)
      exact ⟨Z, by rw [hZ]; rfl⟩

section
variable {a : BArgs} {ems : List Nat → List Config}
  (hne : a.concs ≠ []) (hpos : ∀ c ∈ a.concs, 1 ≤ c) (hG : IsPermGroup a.concs.sum a.G)
  (hs : (!a.supers && decide (a.narrows = 0)) = false) (he : EmOk a ems)
include hne hpos hG hs he

theorem brancher_run :
    ∃ s X, brancher a = some (.ok s.survivors) ∧ bCond a s = false ∧ s.subset = a.subset ∧
      X.Pairwise (fun x y => llt a.k (dg x) (dg y)) ∧
      s.survivors = pick (keepCandidate a a.subset) 1 (X.flatMap ems) ∧
      (∀ x ∈ X, IsLabelling a.concs x ∧ PC a.G a.k x) ∧
      (∀ x ∈ X, ∀ y, IsLabelling a.concs y ∧ PC a.G a.k y → llt a.k (dg y) (dg x) → y ∈ X) ∧
      (fn a.C 0 ≤ fn s.branch 0 → Canon a X) := by
  obtain ⟨s, X, h1, h2, h3, h4, h5, h6, h7, h8⟩ :=
    run_ok hne hpos hG (recOk hs he) (EOk := fun E => E.2.1 = a.subset) rfl
  have h5' : ∀ x ∈ X, IsLabelling a.concs x ∧ PC a.G a.k x := fun x hx => (good_false x).mp (h5 x hx)
  rw [runAll_eq hs he X h5'] at h4
  have hsub : s.subset = a.subset := h8
  refine ⟨s, X, ?_, h2, hsub, h3, ?_, h5', fun x hx y hy => h6 x hx y ((good_false y).mpr hy), fun h => ⟨h3, fun x => ?_⟩⟩
  · unfold brancher
    rw [if_neg hne, h1]
  · have := (Except.ok.inj h4)
    simp only [Prod.mk.injEq] at this
    rw [← this.2.2]; rfl
  · exact ⟨h5' x, fun hx => h7 h x ((good_false x).mpr hx)⟩

/-- without a subset the run is exhaustive -/
theorem brancher_full (hsub : useSubset a = false) :
    ∃ X, Canon a X ∧ brancher a = some (.ok (X.flatMap ems)) := by
  obtain ⟨s, X, h1, h2, h3, h4, h5, h6, h7, h8⟩ := brancher_run hne hpos hG hs he
  have hb : fn a.C 0 ≤ fn s.branch 0 := by
    unfold bCond at h2
    rw [hsub] at h2
    simpa [fn] using h2
  refine ⟨X, h8 hb, ?_⟩
  rw [h1, h5]
  have : keepCandidate a a.subset = fun _ => true := by
    funext c; unfold keepCandidate; rw [hsub]; rfl
  rw [this, pick_true]

end

/-! ### Configurations without arrows -/

theorem emOk_plain {a : BArgs} (hd : a.concs = findConcentrations a.decor) (hna : ∀ s ∈ a.decor, s.1 = -1) :
    EmOk a (fun x => [paint a.decor x]) := by
  intro x hx _ subset count surv
  have hn : a.narrows = 0 := by unfold BArgs.narrows; rw [howManyArrows_fst, nArr_zero hna]
  have hx' : IsLabelling (findConcentrations a.decor) x := by rw [← hd]; exact hx
  unfold emit
  rw [hn]
  simp only [gt_iff_lt, Nat.lt_irrefl, if_false]
  have hinv : invhash (digits a.k x) a.concs a.decor.length = .ok x := by
    have := invhash_digits hx
    rwa [hd, findConcentrations_sum, ← hd] at this
  rw [hinv]
  simp only [bind, Except.bind]
  have hp := plain_eq hx' hna
  unfold BArgs.colors
  rw [hp]
  unfold appendArrows appendArrows
  split <;> rfl

end Phenum
