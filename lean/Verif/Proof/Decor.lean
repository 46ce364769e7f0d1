import Verif.Proof.Perm
import Verif.Model.Tree
import Mathlib.Data.List.Nodup
import Mathlib.Data.List.Count
/-
Colour lists, concentrations and the correspondence between labellings and decorated configurations.
-/
namespace Phenum
open Spec

section
variable {α : Type} [DecidableEq α]

theorem colorList_nil : colorList ([] : List α) = [] := by rw [colorList]

theorem colorList_cons (x : α) (xs : List α) :
    colorList (x :: xs) = x :: colorList (xs.filter (fun y => y ≠ x)) := by rw [colorList]

theorem findConcentrations_nil : findConcentrations ([] : List α) = [] := by rw [findConcentrations]

theorem findConcentrations_cons (x : α) (xs : List α) :
    findConcentrations (x :: xs) = (x :: xs).count x :: findConcentrations (xs.filter (fun y => y ≠ x)) := by
  rw [findConcentrations]

theorem strong_list {P : List α → Prop} (h0 : P [])
    (h : ∀ x xs, P (xs.filter (fun y => y ≠ x)) → P (x :: xs)) (l : List α) : P l := by
  generalize hn : l.length = n
  induction n using Nat.strongRecOn generalizing l with
  | ind n ih =>
    cases l with
    | nil => exact h0
    | cons x xs =>
      apply h
      refine ih _ ?_ _ rfl
      have := List.length_filter_le (fun y => decide (y ≠ x)) xs
      simp only [List.length_cons] at hn
      omega

theorem mem_colorList (l : List α) : ∀ y, y ∈ colorList l ↔ y ∈ l := by
  induction l using strong_list with
  | h0 => intro y; rw [colorList_nil]
  | h x xs ih =>
    intro y
    rw [colorList_cons, List.mem_cons, List.mem_cons, ih y, List.mem_filter]
    by_cases e : y = x
    · simp [e]
    · simp [e]

theorem nodup_colorList (l : List α) : (colorList l).Nodup := by
  induction l using strong_list with
  | h0 => rw [colorList_nil]; exact List.nodup_nil
  | h x xs ih =>
    rw [colorList_cons, List.nodup_cons]
    refine ⟨?_, ih⟩
    rw [mem_colorList]
    simp

theorem findConcentrations_eq (l : List α) : findConcentrations l = (colorList l).map (fun c => l.count c) := by
  induction l using strong_list with
  | h0 => rw [colorList_nil, findConcentrations_nil]; rfl
  | h x xs ih =>
    rw [colorList_cons, findConcentrations_cons, List.map_cons, ih]
    congr 1
    apply List.map_congr_left
    intro c hc
    have hcx : c ≠ x := by
      have := (mem_colorList _ c).mp hc
      simpa using (List.mem_filter.mp this).2
    rw [List.count_filter (by simpa using hcx), List.count_cons_of_ne (Ne.symm hcx)]

theorem findConcentrations_length (l : List α) : (findConcentrations l).length = (colorList l).length := by
  rw [findConcentrations_eq, List.length_map]

theorem findConcentrations_sum (l : List α) : (findConcentrations l).sum = l.length := by
  induction l using strong_list with
  | h0 => rw [findConcentrations_nil]; rfl
  | h x xs ih =>
    rw [findConcentrations_cons, List.sum_cons, ih, List.count_cons_self, List.length_cons]
    have : xs.count x + (xs.filter (fun y => y ≠ x)).length = xs.length := by
      clear ih
      induction xs with
      | nil => rfl
      | cons a t ih =>
        by_cases e : a = x
        · subst e
          simp [List.count_cons_self] at ih ⊢; omega
        · simp [e, List.count_cons_of_ne] at ih ⊢; omega
    omega

theorem findConcentrations_pos (l : List α) : ∀ c ∈ findConcentrations l, 1 ≤ c := by
  intro c hc
  rw [findConcentrations_eq] at hc
  obtain ⟨y, hy, rfl⟩ := List.mem_map.mp hc
  exact List.count_pos_iff.mpr ((mem_colorList _ _).mp hy)

/-- the colour of label `v` -/
def colOf (decor : List α) (v : Nat) : List α := ((colorList decor)[v - 1]?).toList

/-- replace labels by colours -/
def paint (decor : List α) (x : List Nat) : List α := x.filterMap (fun v => (colorList decor)[v - 1]?)

/-- replace colours by labels -/
def unpaint (decor : List α) (z : List α) : List Nat := z.map (fun c => (colorList decor).idxOf c + 1)

variable {decor : List α}

theorem paint_unpaint {z : List α} (hz : ∀ c ∈ z, c ∈ decor) : paint decor (unpaint decor z) = z := by
  unfold paint unpaint
  rw [List.filterMap_map]
  induction z with
  | nil => rfl
  | cons c z ih =>
    have hc : c ∈ colorList decor := (mem_colorList _ _).mpr (hz c (by simp))
    have h1 : (colorList decor)[(colorList decor).idxOf c + 1 - 1]? = some c := by
      rw [Nat.add_sub_cancel, List.getElem?_eq_getElem (List.idxOf_lt_length_iff.mpr hc)]
      simp
    rw [List.filterMap_cons]
    simp only [Function.comp, h1]
    exact congrArg (c :: ·) (ih (fun c' h => hz c' (by simp [h])))

theorem unpaint_paint {x : List Nat} (hx : ∀ v ∈ x, 1 ≤ v ∧ v ≤ (colorList decor).length) :
    unpaint decor (paint decor x) = x := by
  induction x with
  | nil => rfl
  | cons v x ih =>
    have hv := hx v (by simp)
    have h1 : v - 1 < (colorList decor).length := by omega
    have ih := ih (fun w hw => hx w (by simp [hw]))
    unfold paint unpaint at ih ⊢
    rw [List.filterMap_cons]
    simp only [List.getElem?_eq_getElem h1, List.map_cons]
    rw [ih, (nodup_colorList decor).idxOf_getElem]
    congr 1
    omega

theorem unpaint_labelling {z : List α} (hz : z.Perm decor) :
    IsLabelling (findConcentrations decor) (unpaint decor z) := by
  rw [findConcentrations_eq]
  constructor
  · intro v hv
    unfold unpaint at hv
    obtain ⟨c, hc, rfl⟩ := List.mem_map.mp hv
    have : c ∈ colorList decor := (mem_colorList _ _).mpr (hz.mem_iff.mp hc)
    have := List.idxOf_lt_length_iff.mpr this
    rw [List.length_map]
    omega
  · intro i hi
    rw [List.length_map] at hi
    simp only [List.getElem_map]
    rw [← hz.count_eq]
    have hmem : ∀ c ∈ z, c ∈ colorList decor := fun c hc => (mem_colorList _ _).mpr (hz.mem_iff.mp hc)
    clear hz
    unfold unpaint
    induction z with
    | nil => rfl
    | cons c z ih =>
      have ih := ih (fun c h => hmem c (by simp [h]))
      rw [List.map_cons, List.count_cons, List.count_cons, ih]
      congr 1
      have hc := hmem c (by simp)
      by_cases e : c = (colorList decor)[i]
      · have : (colorList decor).idxOf c = i := by
          rw [e, (nodup_colorList decor).idxOf_getElem]
        simp [e, this]
        rw [(nodup_colorList decor).idxOf_getElem]
      · have : (colorList decor).idxOf c ≠ i := by
          intro h
          apply e
          subst h
          simp
        simp [e, this]

theorem paint_perm {x : List Nat} (hx : IsLabelling (findConcentrations decor) x) : (paint decor x).Perm decor := by
  have hd := unpaint_labelling (List.Perm.refl decor)
  have hp : x.Perm (unpaint decor decor) := by
    rw [List.perm_iff_count]
    intro v
    by_cases hv : 1 ≤ v ∧ v ≤ (findConcentrations decor).length
    · obtain ⟨i, rfl⟩ : ∃ i, v = i + 1 := ⟨v - 1, by omega⟩
      rw [hx.2 i (by omega), hd.2 i (by omega)]
    · rw [List.count_eq_zero_of_not_mem (fun h => hv (hx.1 v h)), List.count_eq_zero_of_not_mem (fun h => hv (hd.1 v h))]
  have := hp.filterMap (fun v => (colorList decor)[v - 1]?)
  have h2 : (unpaint decor decor).filterMap (fun v => (colorList decor)[v - 1]?) = decor :=
    paint_unpaint (fun c h => h)
  rw [h2] at this
  exact this

theorem lab_range {x : List Nat} (hx : IsLabelling (findConcentrations decor) x) :
    ∀ v ∈ x, 1 ≤ v ∧ v ≤ (colorList decor).length := by
  intro v hv
  have := hx.1 v hv
  rwa [findConcentrations_length] at this

theorem paint_length {x : List Nat} (hx : IsLabelling (findConcentrations decor) x) :
    (paint decor x).length = decor.length := (paint_perm hx).length_eq

theorem paint_inj {x y : List Nat} (hx : IsLabelling (findConcentrations decor) x)
    (hy : IsLabelling (findConcentrations decor) y) (h : paint decor x = paint decor y) : x = y := by
  rw [← unpaint_paint (lab_range hx), h, unpaint_paint (lab_range hy)]

theorem permute_unpaint (σ : List Nat) (z : List α) : permute σ (unpaint decor z) = unpaint decor (permute σ z) :=
  permute_map _ _ _

theorem permute_paint {σ : List Nat} {x : List Nat} (hx : IsLabelling (findConcentrations decor) x)
    (hσ : σ.Perm (List.range decor.length)) : permute σ (paint decor x) = paint decor (permute σ x) := by
  have h1 : (permute σ (paint decor x)).Perm decor :=
    (permute_perm σ _ (by rw [paint_length hx]; exact hσ)).trans (paint_perm hx)
  rw [← paint_unpaint (decor := decor) (z := permute σ (paint decor x)) (fun c h => h1.mem_iff.mp h),
    ← permute_unpaint, unpaint_paint (lab_range hx)]

/-- `mapM` of lookups that succeed -/
theorem mapM_colors {β : Type} (decor : List α) (f : α → β) (x : List Nat)
    (hx : ∀ v ∈ x, 1 ≤ v ∧ v ≤ (colorList decor).length) :
    x.mapM (fun leaf => do
      let c ← pyGet (colorList decor) (leaf - 1)
      (.ok (f c) : Py β)) = .ok ((paint decor x).map f) := by
  induction x with
  | nil => rfl
  | cons v x ih =>
    have hv := hx v (by simp)
    have h1 : v - 1 < (colorList decor).length := by omega
    rw [List.mapM_cons, ih (fun w hw => hx w (by simp [hw])), pyGet_ok _ _ h1]
    unfold paint
    rw [List.filterMap_cons]
    simp only [List.getElem?_eq_getElem h1]
    rfl

end

theorem decorate_eq {decor : Config} {x : List Nat} (hx : IsLabelling (findConcentrations decor) x) :
    decorate (colorList decor) x = .ok (paint decor x) := by
  have := mapM_colors decor id x (lab_range hx)
  rw [List.map_id] at this
  rw [← this]
  unfold decorate
  congr 1
  funext leaf
  cases pyGet (colorList decor) (leaf - 1) <;> rfl

theorem plain_eq {decor : Config} {x : List Nat} (hx : IsLabelling (findConcentrations decor) x)
    (h : ∀ s ∈ decor, s.1 = -1) : plain (colorList decor) x = .ok (paint decor x) := by
  have := mapM_colors decor (fun c => ((-1 : Int), c.2)) x (lab_range hx)
  unfold plain
  rw [this]
  congr 1
  have h2 : ∀ s ∈ paint decor x, s.1 = -1 := fun s hs => h s ((paint_perm hx).mem_iff.mp hs)
  conv_rhs => rw [← List.map_id (paint decor x)]
  apply List.map_congr_left
  intro s hs
  have := h2 s hs
  rw [← this]; rfl

/-- number of arrow sites -/
def nArr (z : Config) : Nat := z.countP (fun s => decide (s.1 ≥ 0))

theorem howManyArrows_fst (z : Config) : (howManyArrows z).1 = nArr z := by
  unfold howManyArrows nArr
  have : ∀ (acc : Nat × List Nat), (z.foldl (fun (acc : Nat × List Nat) i =>
    if i.1 ≥ 0 then
      (acc.1 + 1, if i.2 ∈ acc.2 then acc.2 else acc.2 ++ [i.2])
    else acc) acc).1 = acc.1 + z.countP (fun s => decide (s.1 ≥ 0)) := by
    induction z with
    | nil => intro acc; simp
    | cons s z ih =>
      intro acc
      rw [List.foldl_cons, ih, List.countP_cons]
      by_cases h : s.1 ≥ 0
      · simp [h]; omega
      · simp [h]
  rw [this]; simp

theorem nArr_perm {z w : Config} (h : z.Perm w) : nArr z = nArr w := h.countP_eq _

theorem nArr_zero {z : Config} (h : ∀ s ∈ z, s.1 = -1) : nArr z = 0 := by
  unfold nArr
  rw [List.countP_eq_zero]
  intro s hs
  rw [h s hs]; decide

end Phenum
