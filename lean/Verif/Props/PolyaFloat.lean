import Verif.Proof.PolyaExact
import Verif.Props.Polya
import Verif.Props.Numerics
/-
C68: the count in floating point.
-/
namespace Phenum
open Spec

/-- A rounding function that keeps the integers from 0 to 2^53 (as IEEE double precision does). -/
def Spec.KeepsIntegers (fl : ℚ → ℚ) : Prop := ∀ z : ℕ, z ≤ 2 ^ 53 → fl z = z

/-! double precision -/

theorem roundEven_int (z : Int) : roundEven z = z := by
  unfold roundEven
  have : (z : ℚ).floor = z := Int.floor_intCast (R := ℚ) z
  simp only [this, sub_self]
  norm_num

theorem fl53_keeps : Spec.KeepsIntegers fl53 := by
  intro z hz
  unfold fl53
  by_cases h0 : z = 0
  · rw [if_pos (by exact_mod_cast h0), h0]; rfl
  rw [if_neg (by exact_mod_cast h0)]
  have he : binExp (z : ℚ) = Nat.log2 z := by
    unfold binExp
    have h1 : ((z : ℚ)).num = z := Rat.num_natCast z
    have h2 : ((z : ℚ)).den = 1 := Rat.den_natCast z
    simp only [h1, h2, Int.natAbs_natCast]
    have h3 : Nat.log2 1 = 0 := by decide
    simp only [h3, Nat.cast_zero, sub_zero, zpow_natCast]
    rw [if_neg]
    rw [abs_of_nonneg (by positivity), not_lt]
    exact_mod_cast Nat.log2_self_le h0
  rw [he]
  have hl : Nat.log2 z ≤ 53 := by
    rw [← Nat.lt_succ_iff, Nat.log2_lt h0]
    omega
  have key : ∃ w : Int, (z : ℚ) * (2 : ℚ) ^ (52 - (Nat.log2 z : Int)) = w := by
    rcases Nat.lt_or_ge (Nat.log2 z) 53 with h | h
    · refine ⟨(z * 2 ^ (52 - Nat.log2 z) : Nat), ?_⟩
      rw [show (52 : Int) - (Nat.log2 z : Int) = ((52 - Nat.log2 z : Nat) : Int) by omega, zpow_natCast]
      push_cast
      rfl
    · have h53 : Nat.log2 z = 53 := by omega
      have hz2 : z = 2 ^ 53 := by
        have := Nat.log2_self_le h0
        rw [h53] at this
        omega
      refine ⟨2 ^ 52, ?_⟩
      rw [h53, hz2]
      norm_num
  obtain ⟨w, hw⟩ := key
  rw [hw, roundEven_int, ← hw, mul_assoc, ← zpow_add₀ (by norm_num)]
  simp

/-! the bound -/

theorem multi_coefficient (concs : List Nat) : multi concs = Spec.multinomialCoefficient concs := by
  have h := multi_spec concs concs.length le_rfl
  have e : (List.range concs.length).map (fun i => (concs.getD i 0).factorial) = concs.map Nat.factorial := by
    apply List.ext_getElem
    · simp
    · intro i h1 h2
      simp only [List.length_map, List.length_range] at h1
      simp [h1]
  rw [e, List.take_length] at h
  unfold Spec.multinomialCoefficient
  rw [← h]
  unfold multi
  rw [Nat.mul_div_cancel]
  apply List.prod_pos
  intro x hx
  obtain ⟨y, -, rfl⟩ := List.mem_map.mp hx
  exact Nat.factorial_pos y

/-- number of atoms whose colour carries arrows -/
def Spec.arrowed (concs : List Nat) (flags : List Bool) : Nat := ((concs.zip flags).map (fun p => if p.2 then p.1 else 0)).sum

theorem arrows_pow (d : Nat) (flags : List Bool) (concs : List Nat) (h : flags.length = concs.length) :
    ((List.range flags.length).map (fun i => if flags.getD i false then d ^ (concs.getD i 0) else 1)).prod =
      d ^ Spec.arrowed concs flags := by
  induction flags generalizing concs with
  | nil => cases concs with
    | nil => simp [Spec.arrowed]
    | cons => simp at h
  | cons b flags ih =>
    cases concs with
    | nil => simp at h
    | cons c concs =>
      have ih' := ih concs (by simpa using h)
      rw [List.length_cons, List.range_succ_eq_map, List.map_cons, List.prod_cons, List.map_map]
      simp only [Function.comp_def, List.getD_cons_zero, List.getD_cons_succ]
      rw [ih']
      unfold Spec.arrowed
      rw [List.zip_cons_cons, List.map_cons, List.sum_cons, pow_add]
      cases b <;> simp

theorem allConfs_count (d : Nat) (flags : List Bool) (concs : List Nat) (h : flags.length = concs.length) :
    allConfs d flags concs = Spec.multinomialCoefficient concs * d ^ Spec.arrowed concs flags := by
  rw [allConfs_eq, arrows_pow d flags concs h, multi_coefficient]

theorem arrowed_none (concs : List Nat) : Spec.arrowed concs (List.replicate concs.length false) = 0 := by
  unfold Spec.arrowed
  apply List.sum_eq_zero
  intro x hx
  obtain ⟨p, hp, rfl⟩ := List.mem_map.mp hx
  have := (List.of_mem_zip hp).2
  rw [List.mem_replicate] at this
  rw [this.2]
  rfl

/-- C68. In floating point, with any rounding that keeps the integers up to 2^53: `polya` without arrows is the number of orbits, if
the number of all labellings times the number of sites, and times the number of operations, is at most 2^53. -/
theorem C68_polya_float (fl : ℚ → ℚ) (hfl : KeepsIntegers fl) (concs : List Nat) (group : List (List Nat × List Nat))
    (hn : 1 ≤ concs.sum) (hG : IsPermGroup concs.sum (group.map (·.1))) (hb : Balanced (group.map (·.1)))
    (h2 : ∀ g ∈ group, ∃ d, g.2.Perm (List.range d))
    (hB : max concs.sum group.length * multinomialCoefficient concs ≤ 2 ^ 53) :
    ∀ L, IsTransversal (IsLabelling concs) (Equiv (group.map (·.1))) L →
      polyaF fl concs group .none = some (.ok L.length) := by
  intro L hL
  have hrad := rad_plain hG hb L hL.nodup hL.mem hL.unique
  have hd : ∃ d, 1 ≤ d ∧ ∀ g ∈ group, ∃ e, e ≤ d ∧ g.2.Perm (List.range e) := by
    refine ⟨(group.map (fun g => g.2.length)).sum + 1, by omega, fun g hg => ?_⟩
    obtain ⟨e, he⟩ := h2 g hg
    refine ⟨e, ?_, he⟩
    have := List.single_le_sum (fun _ _ => Nat.zero_le _) _ (List.mem_map_of_mem (f := fun g : List Nat × List Nat => g.2.length) hg)
    rw [perm_range_length he] at this
    omega
  obtain ⟨d, hd1, hd2⟩ := hd
  refine polyaF_of_rad hfl (k := concs.length) (flags := List.replicate concs.length false) (by simp) hd1 rfl hn
    (by rintro rfl; exact absurd hG.one (by simp)) (fun g hg => hG.perm g.1 (List.mem_map_of_mem hg)) hd2 rfl hrad ?_
  rw [allConfs_count _ _ _ (by simp), arrowed_none, pow_zero, mul_one]
  exact hB

theorem float_decorated (fl : ℚ → ℚ) (hfl : KeepsIntegers fl) (concs : List Nat) (dim : Nat) (group : List Op) (hn : 1 ≤ concs.sum)
    (hd : 1 ≤ dim) (hH : IsOpGroup concs.sum dim group) (hb : Balanced group) (carries : Nat → Bool) (arrowings : Arrowings)
    (hfl' : arrowings.toFlags concs.length = (pattern concs.length carries).map (fun s => decide (0 ≤ s.1)))
    (hB : max concs.sum group.length * (multinomialCoefficient concs * dim ^ arrowed concs (arrowings.toFlags concs.length)) ≤ 2 ^ 53) :
    ∀ L, IsTransversal (IsDecorated concs (fun v => carries v = true) dim) (OpEquiv group) L →
      polyaF fl concs group arrowings = some (.ok L.length) := by
  intro L hL
  have hrad := ((decorated_orbits concs dim group hn hH hb carries arrowings hfl').2 L hL).2
  rw [← hfl'] at hrad
  have hlen : (arrowings.toFlags concs.length).length = concs.length := by rw [hfl', List.length_map, pattern_length]
  refine polyaF_of_rad hfl hlen hd rfl hn (by rintro rfl; exact absurd hH.one (by simp)) hH.sites
    (fun g hg => ⟨dim, le_rfl, hH.arrows g hg⟩) rfl hrad ?_
  rw [allConfs_count _ _ _ hlen]
  exact hB

/-- C68. The same with arrows on the last `m` colours: the number of all configurations is the multinomial coefficient times the number
of directions to the power of the number of arrows. -/
theorem C68_polya_float_arrows (fl : ℚ → ℚ) (hfl : KeepsIntegers fl) (concs : List Nat) (dim m : Nat)
    (group : List (List Nat × List Nat)) (hn : 1 ≤ concs.sum) (hd : 1 ≤ dim) (hm : m ≤ concs.length)
    (hH : IsOpGroup concs.sum dim group) (hb : Balanced group)
    (hB : max concs.sum group.length * (multinomialCoefficient concs * dim ^ (concs.drop (concs.length - m)).sum) ≤ 2 ^ 53) :
    ∀ L, IsTransversal (IsDecorated concs (fun v => concs.length - m < v) dim) (OpEquiv group) L →
      polyaF fl concs group (.num m) = some (.ok L.length) := by
  have harr : arrowed concs ((Arrowings.num m).toFlags concs.length) = (concs.drop (concs.length - m)).sum := by
    have h1 : concs = concs.take (concs.length - m) ++ concs.drop (concs.length - m) := (List.take_append_drop _ _).symm
    unfold arrowed
    simp only [Arrowings.toFlags]
    have key : ∀ (l : List Nat) (b : Bool), ((l.zip (List.replicate l.length b)).map (fun p => if p.2 then p.1 else 0)).sum =
        if b then l.sum else 0 := by
      intro l b
      induction l with
      | nil => cases b <;> rfl
      | cons x l ih =>
        rw [List.length_cons, List.replicate_succ, List.zip_cons_cons, List.map_cons, List.sum_cons, ih]
        cases b <;> simp
    have h2 : concs.zip (List.replicate (concs.length - m) false ++ List.replicate m true) =
        (concs.take (concs.length - m)).zip (List.replicate (concs.length - m) false) ++
          (concs.drop (concs.length - m)).zip (List.replicate m true) := by
      have hl : (concs.take (concs.length - m)).length = (List.replicate (concs.length - m) false).length := by simp
      rw [← List.zip_append hl, List.take_append_drop]
    rw [h2, List.map_append, List.sum_append]
    have e1 := key (concs.take (concs.length - m)) false
    have e2 := key (concs.drop (concs.length - m)) true
    rw [List.length_take, show min (concs.length - m) concs.length = concs.length - m by omega] at e1
    rw [List.length_drop, show concs.length - (concs.length - m) = m by omega] at e2
    rw [e1, e2]
    simp
  have := float_decorated fl hfl concs dim group hn hd hH hb (fun v => decide (concs.length - m < v)) (.num m) (by
    apply List.ext_getElem
    · simp [Arrowings.toFlags, pattern]; omega
    · intro i h1 h2
      simp only [List.length_map, pattern_length] at h2
      simp only [Arrowings.toFlags, pattern, List.getElem_map, List.getElem_range, List.getElem_append,
        List.length_replicate, List.getElem_replicate, decide_eq_true_eq]
      split
      · rw [if_neg (by omega)]; rfl
      · rw [if_pos (by omega)]; rfl) (by rw [harr]; exact hB)
  simpa only [decide_eq_true_eq] using this

/-- C68. The same with the colours that carry arrows given by flags. -/
theorem C68_polya_float_flags (fl : ℚ → ℚ) (hfl : KeepsIntegers fl) (concs : List Nat) (dim : Nat) (flags : List Bool)
    (group : List (List Nat × List Nat)) (hn : 1 ≤ concs.sum) (hd : 1 ≤ dim) (hf : flags.length = concs.length)
    (hH : IsOpGroup concs.sum dim group) (hb : Balanced group)
    (hB : max concs.sum group.length * (multinomialCoefficient concs * dim ^ arrowed concs flags) ≤ 2 ^ 53) :
    ∀ L, IsTransversal (IsDecorated concs (fun v => flags[v - 1]? = some true) dim) (OpEquiv group) L →
      polyaF fl concs group (.flags flags) = some (.ok L.length) := by
  have := float_decorated fl hfl concs dim group hn hd hH hb (fun v => decide (flags[v - 1]? = some true)) (.flags flags) (by
    apply List.ext_getElem
    · simp [Arrowings.toFlags, pattern]; omega
    · intro i h1 h2
      have h1' : i < flags.length := h1
      simp only [Arrowings.toFlags, pattern, List.getElem_map, List.getElem_range, decide_eq_true_eq,
        Nat.add_sub_cancel, List.getElem?_eq_getElem h1', Option.some.injEq]
      cases flags[i] <;> rfl) hB
  simpa only [decide_eq_true_eq] using this

/-- C68. IEEE double precision keeps the integers up to 2^53. -/
theorem C68_double : KeepsIntegers fl53 := fl53_keeps

/-! the identity alone -/

theorem identity_cycles {n : Nat} {cs : List (List Nat)} (h : CycleDecomp (List.range n) cs) :
    cs.map List.length = List.replicate n 1 := by
  obtain ⟨hp, hc⟩ := h
  have hnd : cs.flatten.Nodup := hp.nodup_iff.mpr List.nodup_range
  have h1 : ∀ c ∈ cs, c.length = 1 := by
    intro c hcm
    obtain ⟨hne, hcyc⟩ := hc c hcm
    have h0 := List.length_pos_iff.mpr hne
    by_contra hlen
    have h2 : 1 < c.length := by omega
    have := hcyc 0 h0
    have hcn : c.Nodup := (List.nodup_flatten.mp hnd).1 c hcm
    simp only [Nat.zero_add, Nat.mod_eq_of_lt h2] at this
    have hlt : c[0] < n := by
      by_contra hge
      rw [List.getElem?_eq_none (by simp; omega)] at this
      cases this
    rw [List.getElem?_eq_getElem (by simpa using hlt)] at this
    simp only [List.getElem_range, Option.some.injEq] at this
    have := (List.Nodup.getElem_inj_iff hcn).mp this
    omega
  have h2 : cs.length = n := by
    have := hp.length_eq
    rw [List.length_flatten, List.length_range, List.length_range] at this
    rw [← this, List.map_congr_left h1]
    simp
  rw [List.map_congr_left h1, ← h2]
  simp

theorem identity_poly {n : Nat} (hn : 1 ≤ n) :
    groupToCyclic [(List.range n, [0])] = some (.ok [[((1, 1), n)]]) := by
  obtain ⟨cs, hcs, e⟩ := opPolynomials_ok (op := (List.range n, [0])) (n := n) (d := 1) (List.Perm.refl _)
    (show ([0] : List Nat).Perm (List.range 1) by decide)
  have := groupToCyclic_ok (n := n) hn (group := [(List.range n, [0])]) (by simp) (by simp)
    (fun _ => [((1, 1), n)]) ?_
  · exact this
  · intro g hg
    rw [List.mem_singleton] at hg
    subst hg
    rw [e, identity_cycles hcs]
    have hf : fixedDirs [0] 1 = 1 := by decide
    have key : ∀ m v, (List.replicate m 1).foldl (fun d r => bumpKey (r, fixedDirs [0] r) d) [((1, 1), v)] = [((1, 1), v + m)] := by
      intro m
      induction m with
      | zero => intro v; rfl
      | succ m ih =>
        intro v
        rw [List.replicate_succ, List.foldl_cons]
        simp only [hf, bumpKey, if_true]
        rw [ih, Nat.add_right_comm, Nat.add_assoc]
    obtain ⟨m, rfl⟩ : ∃ m, n = m + 1 := ⟨n - 1, by omega⟩
    rw [List.replicate_succ, List.foldl_cons]
    simp only [hf, bumpKey]
    rw [key, Nat.add_comm 1 m]

/-- C68, limit. In double precision the count is wrong for larger systems: 27 and 28 atoms of two species on 55 sites without any symmetry.
There are 3824345300380220 labellings, `polya` returns one less. -/
theorem C68_limit : polyaF fl53 [27, 28] [(List.range 55, [0])] .none = some (.ok 3824345300380219) ∧
    ∀ L, IsTransversal (IsLabelling [27, 28]) (Equiv [List.range 55]) L → L.length = 3824345300380220 := by
  have hz : zeroBase (List.range 55) = List.range 55 := zeroBase_perm (List.Perm.refl _)
  have hz0 : zeroBase [0] = [0] := by decide
  constructor
  · unfold polyaF
    simp only [List.map_cons, List.map_nil, hz, hz0, identity_poly (show 1 ≤ 55 by omega)]
    decide +kernel
  · intro L hL
    have hone : permute (List.range 55) (List.range 55) = List.range 55 := by decide +kernel
    have h13 := (C13_polya_counts_orbits [27, 28] [(List.range 55, [0])] (by decide)
      ⟨by simp, by simp, by simpa using hone, by simpa using hone⟩ ⟨1, by simp⟩ (by
        intro g hg
        rw [List.mem_singleton] at hg
        subst hg
        exact ⟨1, by decide⟩)).2 L hL
    have hp : polya [27, 28] [(List.range 55, [0])] .none = some (.ok 3824345300380220) := by
      unfold polya
      simp only [List.map_cons, List.map_nil, hz, hz0, identity_poly (show 1 ≤ 55 by omega)]
      decide +kernel
    rw [hp] at h13
    simp only [Option.some.injEq, Except.ok.injEq] at h13
    omega

example : max ([4, 4] : List Nat).sum 48 * multinomialCoefficient [4, 4] ≤ 2 ^ 53 := by decide
example : max ([4, 4] : List Nat).sum 48 * (multinomialCoefficient [4, 4] * 6 ^ (([4, 4] : List Nat).drop (2 - 1)).sum) ≤ 2 ^ 53 := by decide

end Phenum
