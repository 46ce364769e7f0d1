import Verif.Proof.Arrows
import Verif.Proof.Emit
/-
The combined colour+arrow enumeration.
-/
namespace Phenum
open Spec

/-- the stabiliser of a labelling -/
theorem stab_opGroup {n dim : Nat} {H : List Op} (hH : IsOpGroup n dim H) {x : List Nat} (hx : x.length = n) :
    IsOpGroup n dim (H.filter (fun g => permute g.1 x = x)) where
  sites g hg := hH.sites g (List.mem_of_mem_filter hg)
  arrows g hg := hH.arrows g (List.mem_of_mem_filter hg)
  one := by
    rw [List.mem_filter]
    exact ⟨hH.one, by simp only [decide_eq_true_eq]; rw [← hx, permute_range]⟩
  mul g hg h hh := by
    rw [List.mem_filter] at hg hh ⊢
    have e1 : permute g.1 x = x := by simpa using hg.2
    have e2 : permute h.1 x = x := by simpa using hh.2
    refine ⟨hH.mul g hg.1 h hh.1, ?_⟩
    simp only [decide_eq_true_eq]
    rw [← permute_permute _ _ _ (by rw [hx]; exact perm_range_lt (hH.sites g hg.1))
      (by rw [perm_range_length (hH.sites g hg.1)]; exact perm_range_lt (hH.sites h hh.1)), e1, e2]
  inv g hg := by
    rw [List.mem_filter] at hg
    have e1 : permute g.1 x = x := by simpa using hg.2
    obtain ⟨h, hh, h1, h2⟩ := hH.inv g hg.1
    refine ⟨h, ?_, h1, h2⟩
    rw [List.mem_filter]
    refine ⟨hh, ?_⟩
    simp only [decide_eq_true_eq]
    have := permute_permute g.1 h.1 x (by rw [hx]; exact perm_range_lt (hH.sites g hg.1))
      (by rw [perm_range_length (hH.sites g hg.1)]; exact perm_range_lt (hH.sites h hh))
    rw [e1, h1, ← hx, permute_range] at this
    exact this

section
variable {a : BArgs} (hd : a.concs = findConcentrations a.decor) (hdim : 0 < a.dim)
  (hH : IsOpGroup a.decor.length a.dim a.group)

/-- configurations emitted for the canonical labelling `x` -/
def arrEms (a : BArgs) (x : List Nat) : List Config :=
  arrowReps (paint a.decor x) a.dim (a.group.filter (fun g => permute g.1 x = x))

include hd in
theorem labx {x : List Nat} (hx : IsLabelling a.concs x) : IsLabelling (findConcentrations a.decor) x := by
  rw [← hd]; exact hx

include hd in
theorem invhash_dec {x : List Nat} (hx : IsLabelling a.concs x) :
    invhash (digits a.k x) a.concs a.decor.length = .ok x := by
  have := invhash_digits hx
  rwa [hd, findConcentrations_sum, ← hd] at this

include hd hdim hH in
theorem emOk_arrows (hna : 0 < nArr a.decor) (hs : a.supers = true) (hacc : a.accept = false) :
    EmOk a (arrEms a) := by
  intro x hx _ subset count surv
  have hx' := labx hd hx
  have hn : a.narrows > 0 := by unfold BArgs.narrows; rw [howManyArrows_fst]; exact hna
  unfold emit
  rw [if_pos hn, invhash_dec hd hx]
  simp only [bind, Except.bind]
  unfold BArgs.colors
  rw [decorate_eq hx']
  simp only [hacc, hs]
  rw [if_neg (by simp), addArrows_eq hdim _ (by
    rw [paint_length hx']
    intro g hg
    exact hH.opsOk g (List.mem_of_mem_filter hg))]
  rfl

variable (huni : ∀ s ∈ a.decor, ∀ t ∈ a.decor, erase1 s = erase1 t → s = t)

include huni in
theorem erase_inj_decor {c c' : Config} (hc : ∀ s ∈ c, s ∈ a.decor) (hc' : ∀ s ∈ c', s ∈ a.decor)
    (h : erase c = erase c') : c = c' := by
  induction c generalizing c' with
  | nil =>
    have : c' = [] := by simpa [erase_eq] using h.symm
    rw [this]
  | cons s c ih =>
    cases c' with
    | nil => simp [erase_eq] at h
    | cons t c' =>
      rw [erase_eq, erase_eq, List.map_cons, List.map_cons, List.cons.injEq] at h
      rw [huni s (hc s (by simp)) t (hc' t (by simp)) h.1,
        ih (fun s hs => hc s (by simp [hs])) (fun s hs => hc' s (by simp [hs])) h.2]

theorem exists_uncolored {decor z : Config} (h : (erase z).Perm (erase decor)) :
    ∃ c, c.Perm decor ∧ erase c = erase z := by
  have : ∃ c : Config, c.Perm decor ∧ c.map erase1 = erase z := by
    rw [erase_eq decor] at h
    generalize erase z = e at h
    generalize hm : decor.map erase1 = m at h
    induction h generalizing decor with
    | nil => exact ⟨decor, List.Perm.refl _, by rw [hm]⟩
    | @cons x l₁ l₂ _ ih =>
      cases decor with
      | nil => simp at hm
      | cons s d =>
        rw [List.map_cons, List.cons.injEq] at hm
        obtain ⟨c, h1, h2⟩ := ih hm.2
        exact ⟨s :: c, h1.cons s, by rw [List.map_cons, h2, hm.1]⟩
    | swap x y l =>
      match decor, hm with
      | s :: t :: d, hm =>
        simp only [List.map_cons, List.cons.injEq] at hm
        exact ⟨t :: s :: d, List.Perm.swap _ _ _, by simp [hm.1, hm.2.1, hm.2.2]⟩
    | trans _ _ ih1 ih2 =>
      obtain ⟨c, h1, h2⟩ := ih2 hm
      obtain ⟨c', h3, h4⟩ := ih1 h2
      exact ⟨c', h3.trans h1, h4⟩
  obtain ⟨c, h1, h2⟩ := this
  exact ⟨c, h1, h2⟩

include hH hd in
theorem group_sum : IsPermGroup a.concs.sum a.G := by
  rw [hd, findConcentrations_sum]; exact hH.permGroup

include hd hH hdim in
theorem arrEms_spec {x : List Nat} (hx : IsLabelling a.concs x) {z : Config} (hz : FillsIn a.dim (paint a.decor x) z) :
    ∃! w, w ∈ arrEms a x ∧ OpEquiv (a.group.filter (fun g => permute g.1 x = x)) w z := by
  have hx' := labx hd hx
  have hlx : x.length = a.decor.length := by
    rw [lab_len hx, hd, findConcentrations_sum]
  apply arrowReps_orbit hdim (stab_opGroup hH hlx) (paint_length hx') _ hz
  intro g hg
  rw [List.mem_filter] at hg
  have e1 : permute g.1 x = x := by simpa using hg.2
  rw [erase_eq, permute_map, permute_paint hx' (hH.sites g hg.1), e1]

include hd hH hdim huni in
/-- the emitted configurations, over all canonical labellings, meet each orbit exactly once -/
theorem flat_orbits {X : List (List Nat)} (hX : Canon a X) :
    (X.flatMap (arrEms a)).Nodup ∧
    (∀ w ∈ X.flatMap (arrEms a), (erase w).Perm (erase a.decor) ∧ ∀ s ∈ w, s.1 < a.dim) ∧
    (∀ z : Config, (erase z).Perm (erase a.decor) → (∀ s ∈ z, s.1 < a.dim) →
      ∃! w, w ∈ X.flatMap (arrEms a) ∧ OpEquiv a.group w z) := by
  have hG := group_sum hd hH
  have hmem : ∀ {x w}, IsLabelling a.concs x → w ∈ arrEms a x → FillsIn a.dim (paint a.decor x) w :=
    fun hx hw => ((mem_arrowReps hdim _).mp hw).1
  have hdec : ∀ {x}, IsLabelling a.concs x → ∀ s ∈ paint a.decor x, s ∈ a.decor :=
    fun hx s hs => (paint_perm (labx hd hx)).mem_iff.mp hs
  have hlen : ∀ {x w}, IsLabelling a.concs x → w ∈ arrEms a x → w.length = a.decor.length := by
    intro x w hx hw
    have := congrArg List.length (hmem hx hw).1
    rw [← paint_length (labx hd hx)]
    simpa [erase_eq] using this
  -- an operation relating emitted configurations relates the labellings
  have hrel : ∀ {x x' w w'}, IsLabelling a.concs x → IsLabelling a.concs x' → w ∈ arrEms a x → w' ∈ arrEms a x' →
      ∀ g ∈ a.group, act g w = w' → permute g.1 x = x' := by
    intro x x' w w' hx hx' hw hw' g hg h
    have h1 := (hmem hx hw).1
    have h2 := (hmem hx' hw').1
    rw [← h, erase_act, h1, erase_eq, permute_map, permute_paint (labx hd hx) (hH.sites g hg), ← erase_eq] at h2
    have hgx : IsLabelling a.concs (permute g.1 x) := lab_permute hG hx (List.mem_map.mpr ⟨g, hg, rfl⟩)
    exact paint_inj (labx hd hgx) (labx hd hx') (erase_inj_decor huni (hdec hgx) (hdec hx') h2)
  refine ⟨?_, ?_, ?_⟩
  · rw [List.nodup_flatMap]
    refine ⟨fun x _ => nodup_arrowReps hdim _, ?_⟩
    apply hX.sorted.imp_of_mem
    intro x y hx hy hxy w hw hw'
    have hx' := ((hX.mem x).mp hx).1
    have hy' := ((hX.mem y).mp hy).1
    have h1 := hmem hx' hw
    have h2 := hmem hy' hw'
    have : x = y := paint_inj (labx hd hx') (labx hd hy')
      (erase_inj_decor huni (hdec hx') (hdec hy') (h1.1.symm.trans h2.1))
    subst this
    exact hxy.irrefl
  · intro w hw
    obtain ⟨x, hx, hwx⟩ := List.mem_flatMap.mp hw
    have hx' := ((hX.mem x).mp hx).1
    have h1 := hmem hx' hwx
    refine ⟨?_, h1.2⟩
    rw [h1.1, erase_eq, erase_eq]
    exact (paint_perm (labx hd hx')).map _
  · intro z hz1 hz2
    obtain ⟨c, hc1, hc2⟩ := exists_uncolored hz1
    have hx0 : IsLabelling a.concs (unpaint a.decor c) := by rw [hd]; exact unpaint_labelling hc1
    obtain ⟨x, hx, hpc, σ, hσ, hσx⟩ := exists_canon hG hx0
    obtain ⟨g, hg, rfl⟩ := List.mem_map.mp hσ
    have hzl : z.length = a.decor.length := by
      have := hz1.length_eq; simpa [erase_eq] using this
    have hpx : paint a.decor x = permute g.1 c := by
      rw [← hσx, permute_unpaint]
      apply paint_unpaint
      intro s hs
      exact hc1.mem_iff.mp ((permute_perm g.1 c (by rw [hc1.length_eq]; exact hH.sites g hg)).mem_iff.mp hs)
    have hfill : FillsIn a.dim (paint a.decor x) (act g z) := by
      refine ⟨?_, hH.act_lt hg hzl hz2⟩
      rw [erase_act, ← hc2, hpx, erase_eq, erase_eq, permute_map]
    obtain ⟨w, ⟨hw1, hw2⟩, hw3⟩ := arrEms_spec hd hdim hH hx hfill
    have hwl := hlen hx hw1
    have hwlt := (hmem hx hw1).2
    have hzg := hH.opEquiv_symm hzl hz2 ⟨g, hg, rfl⟩
    have hwz : OpEquiv a.group w z := by
      refine hH.opEquiv_trans hwl hwlt ?_ hzg
      obtain ⟨p, hp, ep⟩ := hw2
      exact ⟨p, List.mem_of_mem_filter hp, ep⟩
    refine ⟨w, ⟨List.mem_flatMap.mpr ⟨x, (hX.mem x).mpr ⟨hx, hpc⟩, hw1⟩, hwz⟩, ?_⟩
    rintro w' ⟨hw', hwz'⟩
    obtain ⟨x', hx', hwx'⟩ := List.mem_flatMap.mp hw'
    have hx'' := (hX.mem x').mp hx'
    have hwl' := hlen hx''.1 hwx'
    have hwlt' := (hmem hx''.1 hwx').2
    obtain ⟨p, hp, ep⟩ := hH.opEquiv_trans hwl' hwlt' hwz' (hH.opEquiv_symm hwl hwlt hwz)
    have e1 := hrel hx''.1 hx hwx' hw1 p hp ep
    have e2 : x' = x := canon_unique hG hx''.1 hx hx''.2 hpc ⟨p.1, List.mem_map.mpr ⟨p, hp, rfl⟩, e1⟩
    subst e2
    have hstab : ∀ p ∈ a.group, act p w' = w → p ∈ a.group.filter (fun g => permute g.1 x' = x') := by
      intro p hp ep
      rw [List.mem_filter]
      exact ⟨hp, by simpa using hrel hx''.1 hx hwx' hw1 p hp ep⟩
    have hlx : x'.length = a.decor.length := by
      rw [lab_len hx, hd, findConcentrations_sum]
    exact hw3 w' ⟨hwx', (stab_opGroup hH hlx).opEquiv_trans hwl' hwlt' ⟨p, hstab p hp ep, ep⟩ hw2⟩

end

end Phenum
