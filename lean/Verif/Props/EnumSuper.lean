import Verif.Props.EnumSingle
import Verif.Props.Super
/-
C43 when superperiodic structures are removed.
-/
namespace Phenum
open Spec

/-- A request without arrows for at least two species is passed to `brancher`. -/
theorem enumSys_plain {agroup : List Op} {concs : List ℕ} {aconcs : List ℚ} {wanted nB : ℕ} {supers : Bool} {rnd : EnumRandom} {d : Config}
    (h2 : 2 ≤ concs.length) (hd : arrowConcs concs aconcs = .ok d) (hnad : ∀ s ∈ d, s.1 = -1) (hmod : Modest concs wanted) {total : ℤ}
    (htot : polya concs agroup .none = some (.ok total)) :
    enumSys agroup concs aconcs wanted nB supers false rnd =
      brancher ⟨(howManyArrows d).2.2, agroup, d, 6, supers, concs.sum / nB, chooseSubset rnd.shuffle wanted total, false, rnd.acceptDraw, rnd.acceptArrow⟩ := by
  obtain ⟨v, hv, hv2⟩ := multinomial_of_modest (by intro e; rw [e] at h2; simp at h2) hmod
  have hlarge : largeSystem v (howManyArrows d).2.1 concs.sum wanted = false := by
    rw [howMany_types_zero hnad]
    unfold largeSystem
    rw [hv2]
    rfl
  unfold enumSys
  rw [hd]
  simp only [hv, hlarge]
  unfold enumTotal
  simp only [Bool.false_eq_true, if_false, howMany_types_zero hnad, ne_eq, not_true_eq_false, htot]
  unfold enumCore
  rw [if_neg (by omega)]
  simp only [Bool.false_and, Bool.false_eq_true, if_false]
  generalize brancher _ = b
  rcases b with _ | _ | L <;> simp [builtinSuper]

theorem chooseSubset_all {shuffle : List ℕ → List ℕ} {wanted total : ℕ} (h : wanted = 0 ∨ total ≤ wanted ∨ 1000000 ≤ total) :
    chooseSubset shuffle wanted (total : ℤ) = .none ∨ chooseSubset shuffle wanted (total : ℤ) = .list [] ∨
      ∃ k, chooseSubset shuffle wanted (total : ℤ) = .num k := by
  right
  unfold chooseSubset
  by_cases h1 : (wanted : ℤ) < total
  · rw [if_pos h1]
    by_cases h2 : (total : ℤ) < 1000000
    · rw [if_pos h2]
      left
      have : wanted = 0 := by omega
      subst this
      simp
    · rw [if_neg h2]
      exact Or.inr ⟨wanted, rfl⟩
  · rw [if_neg h1]
    exact Or.inl rfl

/-- The first `cellsize` operations are the distinct lattice translations, the identity first; conjugates of translations
are translations. -/
structure Spec.HasTranslations (n : ℕ) (agroup : List Op) (cellsize : ℕ) : Prop where
  enough : cellsize ≤ agroup.length
  first : (agroup[0]?).map (·.1) = some (List.range n)
  distinct : ((agroup.take cellsize).map (·.1)).Nodup
  normal : ∀ σ ∈ agroup.map (·.1), ∀ τ ∈ (agroup.take cellsize).map (·.1),
    ∃ τ' ∈ (agroup.take cellsize).map (·.1), permute τ' σ = permute σ τ

/-- C43 without superperiodic structures, two or three species, no arrows: `total` being the number of all inequivalent
structures, a request for `total` or more of them (or for none, or when there are a million or more) returns one
structure of each class of those that are not superperiodic, without any error if these are fewer than requested. -/
theorem C43_request_super (agroup : List Op) (concs : List ℕ) (aconcs : List ℚ) (wanted nB : ℕ) (rnd : EnumRandom)
    (h2 : 2 ≤ concs.length) (h3 : concs.length ≤ 3) (hlen : concs.length ≤ aconcs.length) (hn : 1 ≤ concs.sum)
    (hna : ∀ i, i < concs.length → arrowCount (concs.getD i 0) (aconcs.getD i 0) = 0)
    (hG : IsPermGroup concs.sum (agroup.map (·.1))) (ht : HasTranslations concs.sum agroup (concs.sum / nB)) (hmod : Modest concs wanted)
    (total : ℕ) (htot : polya concs agroup .none = some (.ok (total : ℤ)))
    (hall : wanted = 0 ∨ total ≤ wanted ∨ 1000000 ≤ total) :
    ∃ L, enumSys agroup concs aconcs wanted nB false false rnd = some (.ok L) ∧
      IsTransversal (fun z : Config => (∀ s ∈ z, s.1 = -1) ∧ IsLabelling concs (z.map (·.2)) ∧
        ¬ Superperiodic ((agroup.take (concs.sum / nB)).map (·.1)) z) (Equiv (agroup.map (·.1))) L := by
  obtain ⟨d, hd, hdm, -, hdl, -⟩ := C40_arrow_concs concs aconcs hlen
  have hnad : ∀ s ∈ d, s.1 = -1 := (C40_decoration_usable concs aconcs d hd hlen).2.2.2.mpr hna
  have hiff := perm_decor hlen hd hnad
  have hk : (howManyArrows d).2.2.length ≤ 3 := by
    obtain ⟨-, -, cls, c1, -, c3, c4, -⟩ := C40_how_many_arrows d
    rw [c4, List.length_map]
    have : (cls.map (·.2)).length ≤ (List.range' 1 concs.length).length := by
      apply List.Subperm.length_le
      apply List.subperm_of_subset
      · apply List.Nodup.map_on _ c1
        intro s hs t ht e
        exact Prod.ext ((hnad s ((c3 s).mp hs)).trans (hnad t ((c3 t).mp ht)).symm) e
      · intro v hv
        obtain ⟨s, hs, rfl⟩ := List.mem_map.mp hv
        have := (hdm s ((c3 s).mp hs)).2
        rw [List.mem_range'_1]; omega
    rw [List.length_map, List.length_range'] at this
    omega
  have hsc : SuperCall ⟨(howManyArrows d).2.2, agroup, d, 6, false, concs.sum / nB, chooseSubset rnd.shuffle wanted (total : ℤ), false, rnd.acceptDraw, rnd.acceptArrow⟩ :=
    { nonempty := by intro e; have e : d = [] := e; rw [e] at hdl; simp at hdl; omega
      concs := rfl
      supers := rfl
      accept := rfl
      nosub := chooseSubset_all hall
      noarrow := hnad
      grp := by rw [show List.length _ = concs.sum from hdl]; exact hG
      enough := ht.enough
      first := by rw [show List.length _ = concs.sum from hdl]; exact ht.first
      distinct := ht.distinct
      normal := ht.normal }
  obtain ⟨L, hL, l1, l2, l3⟩ := C08_three_species _ hsc hk
  refine ⟨L, by rw [enumSys_plain h2 hd hnad hmod htot]; exact hL, l1, ?_, ?_⟩
  · intro z hz
    obtain ⟨a, b⟩ := l2 z hz
    obtain ⟨c, e⟩ := (hiff z).mp a
    exact ⟨c, e, b⟩
  · rintro z ⟨a, b, c⟩
    exact l3 z ((hiff z).mpr ⟨a, b⟩) c

theorem chain4_translations : HasTranslations 4 chain4 4 := ⟨by decide, by decide, by decide, by decide⟩

/-- C43 fails: two structures exist on the chain of four sites with two species; asked for both, `enum_sys` with
`supers=False` returns one of them and raises no error. -/
theorem C43_fewer : polya [2, 2] chain4 .none = some (.ok (2 : ℕ)) ∧
    ∃ z, enumSys chain4 [2, 2] [0, 0] 2 1 false false exRandom = some (.ok [z]) := by
  refine ⟨chain4_two, ?_⟩
  obtain ⟨L, hL, l1, l2, l3⟩ := C43_request_super chain4 [2, 2] [0, 0] 2 1 exRandom (by decide) (by decide) (by decide) (by decide)
    (by intro i hi; have : i = 0 ∨ i = 1 := by simp at hi; omega
        rcases this with rfl | rfl <;> (unfold arrowCount; decide +kernel))
    chain4_ok.permGroup chain4_translations (Or.inl (by decide)) 2 chain4_two (Or.inr (Or.inl (by decide)))
  have hz0 : (∀ s ∈ noArrows [1, 1, 2, 2], s.1 = -1) ∧ IsLabelling [2, 2] ((noArrows [1, 1, 2, 2]).map (·.2)) ∧
      ¬ Superperiodic ((chain4.take (([2, 2] : List ℕ).sum / 1)).map (·.1)) (noArrows [1, 1, 2, 2]) := by
    refine ⟨by decide, ⟨by decide, ?_⟩, by unfold Superperiodic; decide⟩
    intro i hi
    have : i = 0 ∨ i = 1 := by simp at hi; omega
    rcases this with rfl | rfl <;> rfl
  obtain ⟨z, ⟨hz, -⟩, hu⟩ := l3 _ hz0
  have hall : ∀ w ∈ L, w = z := by
    intro w hw
    apply hu w ⟨hw, ?_⟩
    obtain ⟨w1, w2, w3⟩ := l2 w hw
    have hwe : noArrows (w.map (·.2)) = w := by
      unfold noArrows
      rw [List.map_map]
      conv_rhs => rw [← List.map_id w]
      apply List.map_congr_left
      intro s hs
      exact Prod.ext (w1 s hs).symm rfl
    obtain ⟨a, ha, b, hb, c, hc, d, hd, e, h1⟩ := chain4_labelling w2
    have key : ∀ a ∈ [1, 2], ∀ b ∈ [1, 2], ∀ c ∈ [1, 2], ∀ d ∈ [1, 2], [a, b, c, d].count 1 = 2 →
        (∃ τ ∈ (chain4.take 4).map (·.1), τ ≠ List.range 4 ∧ permute τ (noArrows [a, b, c, d]) = noArrows [a, b, c, d]) ∨
        ∃ σ ∈ chain4.map (·.1), permute σ (noArrows [a, b, c, d]) = noArrows [1, 1, 2, 2] := by decide
    rcases key a ha b hb c hc d hd h1 with h | h
    · rw [← hwe, e] at w3
      exact absurd h w3
    · rw [← hwe, e]
      exact h
  have hLz : L = [z] := by
    have hr := List.eq_replicate_of_mem hall
    have h1 : L.length ≤ 1 := by
      rw [hr] at l1
      exact List.nodup_replicate.mp l1
    have h0 := List.length_pos_of_mem hz
    rw [hr, show L.length = 1 by omega]
    rfl
  exact ⟨z, by rw [hL, hLz]⟩

end Phenum
