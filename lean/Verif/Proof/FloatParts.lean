import Verif.Model.DriversFloat
import Verif.Proof.ConcsSorted
import Verif.Proof.NoiseSym
import Verif.Proof.EnumRun
import Verif.Props.PolyaFloat
import Verif.Props.DecorateFloat
import Verif.Props.ConcsFloat
import Verif.Props.Program
/-
The parts of the program in floating point: each of them returns what exact arithmetic gives.
-/
namespace Phenum
open Spec

/-! ## Calls that follow exact arithmetic -/

section
variable {α β : Type}

/-- Whenever the exact call returns a result, this is the only outcome of the call with errors. -/
def Follows (y : Noisy α) (x : Run α) : Prop := ∀ b, x = (Pure.pure b : Run α) → y = sure (.ok b)

theorem Settled.follows {y : Noisy α} {x : Run α} (h : Settled y x) : Follows y x := by
  obtain ⟨r, rfl, rfl⟩ := h
  intro b hb
  rw [show r = .ok b from Option.some.inj hb]

theorem Follows.py (x : Py α) : Follows (sure x) (runPy x) := by
  intro b hb
  rw [show x = .ok b from Option.some.inj hb]

theorem Follows.o (x : Option (Py α)) : Follows (sureO x) (runO x) := by
  intro b hb
  rw [show x = some (.ok b) from hb]
  rfl

theorem Follows.pure (a : α) : Follows (Pure.pure a) (Pure.pure a) := (Settled.pure a).follows

theorem Follows.bind {y : Noisy α} {x : Run α} {f : α → Noisy β} {g : α → Run β} (h : Follows y x)
    (hf : ∀ a, x = (Pure.pure a : Run α) → Follows (f a) (g a)) : Follows (y >>= f) (x >>= g) := by
  intro b hb
  obtain ⟨a, ha, hb⟩ := run_bind_ok hb
  rw [h a ha, sure_ok_bind]
  exact hf a ha b hb

theorem Follows.mapM {f : α → Noisy β} {g : α → Run β} : ∀ l : List α, (∀ a ∈ l, Follows (f a) (g a)) → Follows (mapN f l) (l.mapM g)
  | [], _ => Follows.pure []
  | a :: l, h => by
    rw [List.mapM_cons]
    unfold mapN
    exact (h a (by simp)).bind fun x _ => (Follows.mapM l (fun b hb => h b (by simp [hb]))).bind fun r _ => Follows.pure _

end

/-! ## The size of the numbers -/

/-- the number of configurations of one composition is at most the number of all of them -/
theorem allConfs_le (d : ℕ) (flags : List Bool) (s : List ℕ) (h : flags.length = s.length) :
    allConfs d flags s ≤ ((flags.map (fun f => if f then d else 1)).sum) ^ s.sum := by
  rw [← allConfs_coeff (k := s.length) h rfl]
  have key : ∀ p : MvPolynomial (Fin s.length) ℕ, ∀ b, MvPolynomial.coeff b p ≤ MvPolynomial.eval (fun _ => 1) p := by
    intro p b
    rw [MvPolynomial.eval_eq]
    by_cases hb : b ∈ p.support
    · refine le_trans ?_ (Finset.single_le_sum (f := fun d => MvPolynomial.coeff d p * ∏ i ∈ d.support, 1 ^ d i) (fun _ _ => Nat.zero_le _) hb)
      simp
    · rw [MvPolynomial.notMem_support_iff.mp hb]
      exact Nat.zero_le _
  refine le_trans (key _ _) (le_of_eq ?_)
  rw [map_pow]
  congr 1
  unfold sitePoly
  rw [map_sum]
  simp only [map_mul, MvPolynomial.eval_C, MvPolynomial.eval_X, mul_one]
  rw [← Fin.sum_univ_fun_getElem]
  have e : ∀ n : ℕ, flags.length = n → ∑ x : Fin n, (if flags.getD x false then d else 1) = ∑ i : Fin flags.length, (if flags[i.1] then d else 1) := by
    rintro n rfl
    apply Finset.sum_congr rfl
    intro x _
    simp
  exact e _ h

theorem multinomial_le_pow (c : List ℕ) : multinomialCoefficient c ≤ c.length ^ c.sum := by
  have := allConfs_le 1 (List.replicate c.length false) c (by simp)
  rw [allConfs_count _ _ _ (by simp), one_pow, mul_one] at this
  simpa using this

/-- the numbers of the kinds of atoms: `k` species, each without and with arrows -/
theorem classes_bound {d : Config} {k : ℕ} (h : ∀ s ∈ d, (s.1 = 1 ∨ s.1 = -1) ∧ 1 ≤ s.2 ∧ s.2 ≤ k) :
    (howManyArrows d).2.1 ≤ (howManyArrows d).2.2.length ∧ (howManyArrows d).2.1 ≤ k ∧ (howManyArrows d).2.2.length ≤ (howManyArrows d).2.1 + k := by
  obtain ⟨-, h2, cls, h3, -, h5, h6, -⟩ := C40_how_many_arrows d
  have hcard : ∀ l : List Site, l.Nodup → ∀ z : ℤ, (∀ s ∈ l, s.1 = z) → (l.map (·.2)).Nodup := by
    intro l hl z hz
    apply List.Nodup.map_on _ hl
    intro a ha b hb e
    exact Prod.ext ((hz a ha).trans (hz b hb).symm) e
  have hbd : ∀ l : List Site, l.Nodup → ∀ z : ℤ, (∀ s ∈ l, s.1 = z) → (∀ s ∈ l, s ∈ d) → l.length ≤ k := by
    intro l hl z hz hd
    have hn := hcard l hl z hz
    have : (l.map (·.2)).toFinset ⊆ Finset.Icc 1 k := by
      intro v hv
      rw [List.mem_toFinset, List.mem_map] at hv
      obtain ⟨s, hs, rfl⟩ := hv
      exact Finset.mem_Icc.mpr (h s (hd s hs)).2
    have := Finset.card_le_card this
    rw [List.toFinset_card_of_nodup hn, List.length_map, Nat.card_Icc] at this
    omega
  set A := cls.filter (fun s => decide (0 ≤ s.1)) with hA
  set B := cls.filter (fun s => !decide (0 ≤ s.1)) with hB
  have hlen : cls.length = A.length + B.length := by
    have := List.length_eq_length_filter_add (l := cls) (fun s => decide (0 ≤ s.1))
    exact this
  have hA1 : ∀ s ∈ A, s.1 = 1 := by
    intro s hs
    rw [hA, List.mem_filter] at hs
    have h0 : 0 ≤ s.1 := by simpa using hs.2
    have := (h s ((h5 s).mp hs.1)).1
    omega
  have hB1 : ∀ s ∈ B, s.1 = -1 := by
    intro s hs
    rw [hB, List.mem_filter] at hs
    have h0 : ¬ 0 ≤ s.1 := by simpa using hs.2
    have := (h s ((h5 s).mp hs.1)).1
    omega
  have eA : A.length = (howManyArrows d).2.1 := by
    rw [h2, ← List.length_map (f := (·.2)) (as := A), ← List.toFinset_card_of_nodup (hcard A (h3.filter _) 1 hA1)]
    congr 1
    ext v
    simp only [List.mem_toFinset, List.mem_map, hA, List.mem_filter, h5]
  have hAk := hbd A (h3.filter _) 1 hA1 (fun s hs => (h5 s).mp (List.mem_of_mem_filter hs))
  have hBk := hbd B (h3.filter _) (-1) hB1 (fun s hs => (h5 s).mp (List.mem_of_mem_filter hs))
  rw [h6, List.length_map]
  omega

/-! ## The counts -/

/-- the bound under which the counts are exact: all configurations of the sites, each of `k` species without or with one of six arrows -/
theorem polya_arrows_float {fl : ℚ → ℚ} (hfl : KeepsIntegers fl) {c : List ℕ} {aconcs : List ℚ} {d : Config} (hd : arrowConcs c aconcs = .ok d)
    (hlen : c.length ≤ aconcs.length) {G : List Op} (hG : IsOpGroup c.sum 6 G) (hnd : G.Nodup) (hpos : 1 ≤ c.sum)
    (hB : max c.sum G.length * (7 * c.length) ^ c.sum ≤ 2 ^ 53) {r : ℤ}
    (hr : polya (howManyArrows d).2.2 G (.num (howManyArrows d).2.1) = some (.ok r)) :
    polyaF fl (howManyArrows d).2.2 G (.num (howManyArrows d).2.1) = some (.ok r) := by
  obtain ⟨d', hd', hm, -, hdl, -⟩ := C40_arrow_concs c aconcs hlen
  obtain rfl : d = d' := Except.ok.inj (hd.symm.trans hd')
  obtain ⟨b1, b2, b3⟩ := classes_bound hm
  obtain ⟨-, -, -, -, -, -, -, hsum⟩ := C40_how_many_arrows d
  set cs := (howManyArrows d).2.2 with hcs
  set m := (howManyArrows d).2.1 with hmdef
  have hs : cs.sum = c.sum := by rw [hsum, hdl]
  have hG' : IsOpGroup cs.sum 6 G := by rw [hs]; exact hG
  have hb := balanced_of_nodup hnd
  obtain ⟨⟨L, hL⟩, h14⟩ := C14_polya_arrows_number cs 6 m G (by rw [hs]; exact hpos) b1 hG' hb
  have e := h14 L hL
  rw [hr] at e
  rw [e]
  refine C68_polya_float_arrows fl hfl cs 6 m G (by rw [hs]; exact hpos) (by norm_num) b1 hG' hb ?_ L hL
  rw [hs]
  refine le_trans (Nat.mul_le_mul_left _ ?_) hB
  have hle := allConfs_le 6 (List.replicate (cs.length - m) false ++ List.replicate m true) cs (by simp; omega)
  have hlast : arrowed cs (List.replicate (cs.length - m) false ++ List.replicate m true) = (cs.drop (cs.length - m)).sum := by
    have h1 : cs = cs.take (cs.length - m) ++ cs.drop (cs.length - m) := (List.take_append_drop _ _).symm
    unfold arrowed
    have key : ∀ (l : List Nat) (b : Bool), ((l.zip (List.replicate l.length b)).map (fun p => if p.2 then p.1 else 0)).sum =
        if b then l.sum else 0 := by
      intro l b
      induction l with
      | nil => cases b <;> rfl
      | cons x l ih =>
        rw [List.length_cons, List.replicate_succ, List.zip_cons_cons, List.map_cons, List.sum_cons, ih]
        cases b <;> simp
    have h2 : cs.zip (List.replicate (cs.length - m) false ++ List.replicate m true) =
        (cs.take (cs.length - m)).zip (List.replicate (cs.length - m) false) ++
          (cs.drop (cs.length - m)).zip (List.replicate m true) := by
      have hl : (cs.take (cs.length - m)).length = (List.replicate (cs.length - m) false).length := by simp
      rw [← List.zip_append hl, List.take_append_drop]
    have h3 := key (cs.take (cs.length - m)) false
    have h4 := key (cs.drop (cs.length - m)) true
    rw [List.length_take, Nat.min_eq_left (by omega)] at h3
    rw [List.length_drop, show cs.length - (cs.length - m) = m by omega] at h4
    rw [h2, List.map_append, List.sum_append, h3, h4]
    simp
  rw [allConfs_count _ _ _ (by simp; omega), hlast, hs] at hle
  refine le_trans hle (Nat.pow_le_pow_left ?_ _)
  simp
  omega

theorem polya_plain_float {fl : ℚ → ℚ} (hfl : KeepsIntegers fl) {c : List ℕ} {G : List Op} (hG : IsOpGroup c.sum 6 G) (hnd : G.Nodup) (hpos : 1 ≤ c.sum)
    (hB : max c.sum G.length * c.length ^ c.sum ≤ 2 ^ 53) {r : ℤ} (hr : polya c G .none = some (.ok r)) : polyaF fl c G .none = some (.ok r) := by
  obtain ⟨⟨L, hL⟩, h13⟩ := C13_polya_counts_orbits c G hpos (opGroup_sites hG) (sites_balanced hG hnd) (fun g hg => ⟨6, hG.arrows g hg⟩)
  have e := h13 L hL
  rw [hr] at e
  rw [e]
  exact C68_polya_float fl hfl c G hpos (opGroup_sites hG) (sites_balanced hG hnd) (fun g hg => ⟨6, hG.arrows g hg⟩)
    (le_trans (Nat.mul_le_mul_left _ (multinomial_le_pow c)) hB) L hL

/-- What the rounding is required to do: it keeps the integers, and the numbers of displaced atoms come out right. -/
theorem arrowEntriesF_same {fl : ℚ → ℚ} : ∀ (cs : List ℕ) (as : List ℚ) (lab : ℕ),
    (∀ x ∈ cs, ∀ a ∈ as, pyTrunc (fl (x * fl a)) = pyTrunc (x * a)) → arrowEntriesF fl lab cs (as.map fl) = arrowEntries lab cs as
  | [], _, _, _ => by simp [arrowEntriesF, arrowEntries]
  | _ :: _, [], _, _ => by simp [arrowEntriesF, arrowEntries]
  | c :: cs, a :: as, lab, h => by
    rw [List.map_cons]
    simp only [arrowEntriesF, arrowEntries]
    rw [arrowEntriesF_same cs as (lab + 1) (fun x hx b hb => h x (by simp [hx]) b (by simp [hb])), h c (by simp) a (by simp)]

theorem arrowConcsF_same {fl : ℚ → ℚ} (c : List ℕ) (as : List ℚ) (h : ∀ x ∈ c, ∀ a ∈ as, pyTrunc (fl (x * fl a)) = pyTrunc (x * a)) :
    arrowConcsF fl c (as.map fl) = arrowConcs c as := by
  unfold arrowConcsF arrowConcs
  rw [arrowEntriesF_same c as 1 h]

/-- The bound on the number of configurations: those of `k` species, each without or with one of six arrows if arrows are used. -/
def sizeBase (arrows : Bool) (k : ℕ) : ℕ := if arrows then 7 * k else k

section
variable {fl : ℚ → ℚ} (hfl : KeepsIntegers fl) {c : List ℕ} {aconcs : List ℚ} (hlen : c.length ≤ aconcs.length)
  (hsame : ∀ x ∈ c, ∀ a ∈ aconcs, pyTrunc (fl (x * fl a)) = pyTrunc (x * a))
  {G : List Op} (hG : IsOpGroup c.sum 6 G) (hnd : G.Nodup) (hpos : 1 ≤ c.sum) {arrows : Bool} (harr : arrows = true ∨ NoArrows aconcs c)
  (hB : max c.sum G.length * sizeBase arrows c.length ^ c.sum ≤ 2 ^ 53)
include hfl hlen hG hnd hpos harr hB

omit hfl hlen hG hnd hpos harr in
theorem bound_plain : max c.sum G.length * c.length ^ c.sum ≤ 2 ^ 53 := by
  refine le_trans (Nat.mul_le_mul_left _ (Nat.pow_le_pow_left ?_ _)) hB
  unfold sizeBase
  split <;> omega

include hsame in
theorem polyaCountF_follows : Follows (polyaCountF fl G (aconcs.map fl) c) (polyaCount G aconcs c) := by
  unfold polyaCountF polyaCount
  rw [arrowConcsF_same c aconcs hsame]
  refine (Follows.py _).bind fun d hd => ?_
  have hd : arrowConcs c aconcs = .ok d := Option.some.inj hd
  refine Follows.bind ?_ fun n _ => Follows.pure _
  intro n hn
  by_cases h0 : (howManyArrows d).2.1 ≠ 0 ∨ (howManyArrows d).1 ≠ 0
  · rw [if_pos h0] at hn ⊢
    have ha : arrows = true := by
      rcases harr with h | h
      · exact h
      · have hna := (C40_decoration_usable c aconcs d hd hlen).2.2.2.mpr h
        have e2 : (howManyArrows d).1 = 0 := by
          rw [(C40_how_many_arrows d).1, List.length_eq_zero_iff, List.filter_eq_nil_iff]
          intro s hs
          rw [hna s hs]; decide
        rcases h0 with h0 | h0
        · exact absurd (howMany_types_zero hna) h0
        · exact absurd e2 h0
    rw [polya_arrows_float hfl hd hlen hG hnd hpos (by rw [ha] at hB; exact hB) (r := n) hn]
    rfl
  · rw [if_neg h0] at hn ⊢
    rw [polya_plain_float hfl hG hnd hpos (bound_plain hB) (r := n) hn]
    rfl

theorem enumTotalF_follows {d : Config} (hd : arrowConcs c aconcs = .ok d) {large : Bool} {wanted : ℕ} {rnd : EnumRandom} {r : Int × Option Subset}
    (hr : enumTotal G c (howManyArrows d).2.2 (howManyArrows d).2.1 large wanted rnd = some (.ok r)) :
    enumTotalF fl G c (howManyArrows d).2.2 (howManyArrows d).2.1 large wanted rnd = some (.ok r) := by
  unfold enumTotal at hr
  unfold enumTotalF
  by_cases hl : large = true
  · rw [if_pos hl] at hr ⊢
    exact hr
  · rw [if_neg hl] at hr ⊢
    by_cases h0 : (howManyArrows d).2.1 ≠ 0
    · rw [if_pos h0] at hr ⊢
      have ha : arrows = true := by
        rcases harr with h | h
        · exact h
        · exact absurd (howMany_types_zero ((C40_decoration_usable c aconcs d hd hlen).2.2.2.mpr h)) h0
      cases hp : polya (howManyArrows d).2.2 G (.num (howManyArrows d).2.1) with
      | none => rw [hp] at hr; cases hr
      | some q =>
        cases q with
        | error e => rw [hp] at hr; cases hr
        | ok n =>
          rw [polya_arrows_float hfl hd hlen hG hnd hpos (by rw [ha] at hB; exact hB) hp]
          rw [hp] at hr
          exact hr
    · rw [if_neg h0] at hr ⊢
      cases hp : polya c G .none with
      | none => rw [hp] at hr; cases hr
      | some q =>
        cases q with
        | error e => rw [hp] at hr; cases hr
        | ok n =>
          rw [polya_plain_float hfl hG hnd hpos (bound_plain hB) hp]
          rw [hp] at hr
          exact hr

include hsame in
theorem enumSysF_follows (h2 : 2 ≤ c.length) {wanted nB : ℕ} {supers accept : Bool} {rnd : EnumRandom} {r : List Config}
    (hr : enumSys G c aconcs wanted nB supers accept rnd = some (.ok r)) :
    enumSysF fl G c (aconcs.map fl) wanted nB supers accept rnd = some (.ok r) := by
  unfold enumSys at hr
  unfold enumSysF
  rw [arrowConcsF_same c aconcs hsame]
  cases hd : arrowConcs c aconcs with
  | error e => rw [hd] at hr; cases hr
  | ok d =>
    rw [hd] at hr
    simp only at hr ⊢
    cases hm : multinomial (c.map (fun c : ℕ => (c : ℤ))) with
    | error e => rw [hm] at hr; cases hr
    | ok multi =>
      rw [hm] at hr
      simp only at hr ⊢
      cases ht : enumTotal G c (howManyArrows d).2.2 (howManyArrows d).2.1 (largeSystem multi (howManyArrows d).2.1 c.sum wanted) wanted rnd with
      | none => rw [ht] at hr; cases hr
      | some q =>
        cases q with
        | error e => rw [ht] at hr; cases hr
        | ok t =>
          rw [enumTotalF_follows hfl hlen hG hnd hpos harr hB hd ht]
          rw [ht] at hr
          obtain ⟨total, subset⟩ := t
          simp only at hr ⊢
          have hcore : enumCoreF fl G c d (howManyArrows d).2.2 (c.sum / nB) (largeSystem multi (howManyArrows d).2.1 c.sum wanted) total subset wanted supers accept rnd =
              enumCore G c d (howManyArrows d).2.2 (c.sum / nB) (largeSystem multi (howManyArrows d).2.1 c.sum wanted) total subset wanted supers accept rnd := by
            have h1 : ¬ c.length = 1 := by omega
            unfold enumCoreF enumCore
            rw [if_neg h1, if_neg h1]
            rfl
          rw [hcore]
          exact hr

end

/-- the sum of the fractions, each addition rounded -/
theorem sumF_ne {fl : ℚ → ℚ} (hfl : RoundsToNearest fl) {l : List ℚ} (h : ∀ x ∈ l, 0 ≤ x) : sumF fl (l.map fl) ≠ 0 ↔ l.sum ≠ 0 := by
  have f0 : fl 0 = 0 := fl_of_isDouble hfl isDouble_zero
  have hr := nearest_rounds hfl
  have fpos : ∀ x, 0 < x → 0 < fl x := by
    intro x hx
    have := (abs_le.mp (hr x)).1
    rw [abs_of_pos hx] at this
    have h2 : x * (1 / 2 ^ 53) < x := by
      have : (1 / 2 ^ 53 : ℚ) < 1 := by norm_num
      nlinarith
    linarith
  have fnn : ∀ x, 0 ≤ x → 0 ≤ fl x := by
    intro x hx
    rcases hx.lt_or_eq with h | h
    · exact (fpos x h).le
    · rw [← h, f0]
  have key : ∀ (l : List ℚ), (∀ x ∈ l, 0 ≤ x) → ∀ s : ℚ, 0 ≤ s → 0 ≤ (l.map fl).foldl (fun s x => fl (s + x)) s ∧
      ((l.map fl).foldl (fun s x => fl (s + x)) s ≠ 0 ↔ s + l.sum ≠ 0) := by
    intro l
    induction l with
    | nil => intro _ s hs; simp [hs]
    | cons a l ih =>
      intro h s hs
      rw [List.map_cons, List.foldl_cons, List.sum_cons]
      have ha := h a (by simp)
      have hl : ∀ x ∈ l, 0 ≤ x := fun x hx => h x (by simp [hx])
      have hls : 0 ≤ l.sum := List.sum_nonneg hl
      have h1 : 0 ≤ fl (s + fl a) := fnn _ (add_nonneg hs (fnn a ha))
      obtain ⟨i1, i2⟩ := ih hl _ h1
      refine ⟨i1, i2.trans ?_⟩
      have e : fl (s + fl a) = 0 ↔ s + a = 0 := by
        constructor
        · intro h0
          by_contra hne
          have hp : 0 < s + fl a := by
            rcases ha.lt_or_eq with h | h
            · have := fpos a h; linarith
            · rw [← h, f0]
              rw [← h] at hne
              exact lt_of_le_of_ne (by linarith) (Ne.symm hne)
          exact absurd h0 (fpos _ hp).ne'
        · intro h0
          have h3 : s = 0 := by linarith
          have h4 : a = 0 := by linarith
          rw [h3, h4, f0, add_zero, f0]
      constructor
      · intro hne h0
        apply hne
        have h3 : s + a = 0 := by linarith
        rw [e.mpr h3]
        linarith
      · intro hne h0
        apply hne
        have h3 : fl (s + fl a) = 0 := by linarith
        have h4 := e.mp h3
        linarith
  have := (key l h 0 (le_refl _)).2
  rwa [zero_add] at this

end Phenum
