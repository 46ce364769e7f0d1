import Verif.Proof.PolyaFloat
/-
Every number that occurs in the count is at most the number of all configurations.
-/
namespace Phenum
open Spec MvPolynomial

section
variable {k : Nat}

/-- coefficientwise comparison -/
def Dom (f g : MvPolynomial (Fin k) ℕ) : Prop := ∀ b, coeff b f ≤ coeff b g

theorem Dom.refl (f : MvPolynomial (Fin k) ℕ) : Dom f f := fun _ => le_rfl
theorem Dom.trans {f g h : MvPolynomial (Fin k) ℕ} (h1 : Dom f g) (h2 : Dom g h) : Dom f h := fun b => le_trans (h1 b) (h2 b)

theorem Dom.mul {f g f' g' : MvPolynomial (Fin k) ℕ} (h1 : Dom f g) (h2 : Dom f' g') : Dom (f * f') (g * g') := by
  intro b
  rw [coeff_mul, coeff_mul]
  exact Finset.sum_le_sum (fun x _ => Nat.mul_le_mul (h1 _) (h2 _))

theorem Dom.pow {f g : MvPolynomial (Fin k) ℕ} (h : Dom f g) (n : Nat) : Dom (f ^ n) (g ^ n) := by
  induction n with
  | zero => simpa using Dom.refl _
  | succ n ih => rw [pow_succ, pow_succ]; exact ih.mul h

theorem Dom.sum {ι : Type} (s : Finset ι) {f g : ι → MvPolynomial (Fin k) ℕ} (h : ∀ i ∈ s, Dom (f i) (g i)) :
    Dom (∑ i ∈ s, f i) (∑ i ∈ s, g i) := by
  intro b
  rw [coeff_sum, coeff_sum]
  exact Finset.sum_le_sum (fun i hi => h i hi b)

theorem Dom.single {ι : Type} [DecidableEq ι] (s : Finset ι) (f : ι → MvPolynomial (Fin k) ℕ) {i : ι} (hi : i ∈ s) : Dom (f i) (∑ i ∈ s, f i) := by
  intro b
  rw [coeff_sum]
  exact Finset.single_le_sum (f := fun i => coeff b (f i)) (fun _ _ => Nat.zero_le _) hi

theorem Dom.powers (x : Fin k → MvPolynomial (Fin k) ℕ) {p : Nat} (hp : 1 ≤ p) : Dom (∑ j, x j ^ p) ((∑ j, x j) ^ p) := by
  induction p with
  | zero => omega
  | succ p ih =>
    rcases Nat.eq_zero_or_pos p with rfl | h0
    · simpa using Dom.refl _
    · rw [pow_succ]
      refine Dom.trans ?_ ((ih h0).mul (Dom.refl _))
      rw [Finset.sum_mul]
      apply Dom.sum
      intro j _
      rw [pow_succ]
      exact (Dom.refl _).mul (Dom.single Finset.univ x (Finset.mem_univ j))

/-- the polynomial of all configurations of one site -/
noncomputable def sitePoly (k d : Nat) (flags : List Bool) : MvPolynomial (Fin k) ℕ :=
  ∑ j : Fin k, C (if flags.getD j false then d else 1) * X j

theorem mnPoly_dom {m : Multinom} (hp : 1 ≤ m.power) {d : Nat} (hd : 1 ≤ d) (hc : m.coeff ≤ d) :
    Dom (mnPoly k m) (sitePoly k d m.arrowings ^ m.powersum) := by
  unfold mnPoly factor sitePoly Multinom.powersum
  rw [pow_mul]
  apply Dom.pow
  refine Dom.trans ?_ (Dom.powers _ hp)
  apply Dom.sum
  intro j _ b
  rw [mul_pow, ← C_pow, coeff_C_mul, coeff_C_mul]
  apply Nat.mul_le_mul_right
  split
  · exact le_trans hc (Nat.le_self_pow (by omega) d)
  · simp

theorem mnPoly_one (d e : Nat) (flags : List Bool) : mnPoly k ⟨1, d, flags, e⟩ = sitePoly k d flags ^ e := by
  unfold mnPoly factor sitePoly
  simp only [pow_one]

/-- the number of all configurations with composition `s` -/
def allConfs (d : Nat) (flags : List Bool) (s : List Nat) : Nat := nck ⟨1, d, flags, 0⟩ s

theorem allConfs_eq (d : Nat) (flags : List Bool) (s : List Nat) :
    allConfs d flags s = multi s * ((List.range flags.length).map (fun i => if flags.getD i false then d ^ (s.getD i 0) else 1)).prod := by
  unfold allConfs nck
  rw [if_pos (by rw [List.all_eq_true]; intro x _; simp [Nat.mod_one])]
  simp only [Nat.div_one, List.map_id']

theorem allConfs_coeff {d : Nat} {flags : List Bool} (hf : flags.length = k) {s : List Nat} (hs : s.length = k) :
    coeff (expo k s) (sitePoly k d flags ^ s.sum) = allConfs d flags s := by
  rw [← mnPoly_one]
  exact mnPoly_coeff_expo' (m := ⟨1, d, flags, s.sum⟩) le_rfl hf hs (by simp [Multinom.powersum])

theorem pcoeff_pos (m : Multinom) (norm : List Nat) (hc : 1 ≤ m.coeff) : 1 ≤ pcoeff m norm := by
  unfold pcoeff
  refine Nat.one_le_iff_ne_zero.mpr ?_
  rw [Ne, List.prod_eq_zero_iff]
  intro h0
  obtain ⟨j, -, e⟩ := List.mem_map.mp h0
  split at e
  · exact absurd e (pow_ne_zero _ (by omega))
  · omega

theorem allConfs_pos {d : Nat} (hd : 1 ≤ d) (flags : List Bool) (s : List Nat) : 1 ≤ allConfs d flags s := by
  rw [allConfs_eq]
  exact Nat.mul_pos (multi_pos s) (pcoeff_pos ⟨1, d, flags, 0⟩ s hd)

theorem pcoeff_mono (m : Multinom) {d : Nat} (hc : m.coeff ≤ d) (norm : List Nat) :
    pcoeff m norm ≤ pcoeff { m with coeff := d } norm := by
  unfold pcoeff
  apply List.prod_le_prod'
  intro i _
  split
  · exact Nat.pow_le_pow_left hc _
  · exact le_rfl

theorem nck_dom {m : Multinom} (hp : 1 ≤ m.power) (hf : m.arrowings.length = k) {d : Nat} (hd : 1 ≤ d) (hc : m.coeff ≤ d)
    {s : List Nat} (hs : s.length = k) : nck m s ≤ allConfs d m.arrowings s := by
  by_cases hall : s.all (fun x => x % m.power = 0) = true
  · have hdvd : m.power ∣ s.sum := by
      apply List.dvd_sum
      intro x hx
      rw [List.all_eq_true] at hall
      exact Nat.dvd_of_mod_eq_zero (by simpa using hall x hx)
    obtain ⟨e, he⟩ := hdvd
    have h1 := mnPoly_coeff_expo' (k := k) (m := { m with exponent := e }) hp hf hs (by simpa [Multinom.powersum] using he)
    have h2 : nck { m with exponent := e } s = nck m s := rfl
    rw [← h2, ← h1, ← allConfs_coeff hf hs]
    have := mnPoly_dom (k := k) (m := { m with exponent := e }) hp hd hc (expo k s)
    refine le_trans this ?_
    simp only [Multinom.powersum]
    rw [← he]
  · unfold nck
    rw [if_neg hall]
    exact Nat.zero_le _

/-- the three numbers formed in `nchoosekm` -/
theorem nck_parts {m : Multinom} (hp : 1 ≤ m.power) (hf : m.arrowings.length = k) {d : Nat} (hd : 1 ≤ d) (hc : m.coeff ≤ d)
    {s : List Nat} (hs : s.length = k) (hall : s.all (fun x => x % m.power = 0) = true) :
    multi (s.map (fun x => x / m.power)) ≤ allConfs d m.arrowings s ∧
    pcoeff m (s.map (fun x => x / m.power)) ≤ allConfs d m.arrowings s ∧
    multi (s.map (fun x => x / m.power)) * pcoeff m (s.map (fun x => x / m.power)) ≤ allConfs d m.arrowings s := by
  have h := nck_dom (k := k) (m := { m with coeff := d }) hp hf hd le_rfl hs
  unfold nck at h
  simp only [hall, if_true] at h
  have h' : multi (s.map (fun x => x / m.power)) * pcoeff { m with coeff := d } (s.map (fun x => x / m.power)) ≤
    allConfs d m.arrowings s := h
  have h1 := multi_pos (s.map (fun x => x / m.power))
  have h2 := pcoeff_pos { m with coeff := d } (s.map (fun x => x / m.power)) hd
  have h3 := pcoeff_mono m hc (s.map (fun x => x / m.power))
  refine ⟨le_trans (Nat.le_mul_of_pos_right _ h2) h', le_trans h3 (le_trans (Nat.le_mul_of_pos_left _ h1) h'), ?_⟩
  exact le_trans (Nat.mul_le_mul_left _ h3) h'

theorem prod_coeff_le {ι : Type} (l : List ι) (b : ι → Fin k →₀ ℕ) (f : ι → MvPolynomial (Fin k) ℕ) :
    (l.map (fun i => coeff (b i) (f i))).prod ≤ coeff (l.map b).sum (l.map f).prod := by
  induction l with
  | nil => simp
  | cons i l ih =>
    simp only [List.map_cons, List.prod_cons, List.sum_cons]
    rw [coeff_mul]
    refine le_trans (Nat.mul_le_mul_left _ ih) ?_
    exact Finset.single_le_sum (f := fun x : (Fin k →₀ ℕ) × (Fin k →₀ ℕ) => coeff x.1 (f i) * coeff x.2 (l.map f).prod)
      (fun _ _ => Nat.zero_le _) (a := (b i, (l.map b).sum)) (Finset.mem_antidiagonal.mpr rfl)

/-- superadditivity: the parts of a composition -/
theorem allConfs_prod {d : Nat} {flags : List Bool} (hf : flags.length = k) {seqs : List (List Nat)} (hne : seqs ≠ [])
    (hl : ∀ s ∈ seqs, s.length = k) {t : List Nat} (ht : t.length = k) (hcol : colSums k seqs = t) :
    (seqs.map (allConfs d flags)).prod ≤ allConfs d flags t := by
  have h1 : seqs.map (allConfs d flags) = seqs.map (fun s => coeff (expo k s) (sitePoly k d flags ^ s.sum)) := by
    apply List.map_congr_left
    intro s hs
    rw [allConfs_coeff hf (hl s hs)]
  have h2 : (seqs.map (expo k)).sum = expo k t := by rw [← expo_colSums hne, hcol]
  have h3 : (seqs.map (fun s => sitePoly k d flags ^ s.sum)).prod = sitePoly k d flags ^ t.sum := by
    have : t.sum = (seqs.map List.sum).sum := by
      rw [← expo_sum ht, ← h2]
      clear h1 h2 hcol hne
      induction seqs with
      | nil => simp
      | cons s seqs ih =>
        simp only [List.map_cons, List.sum_cons, Finsupp.add_apply, Finset.sum_add_distrib]
        rw [ih (fun x hx => hl x (List.mem_cons_of_mem _ hx)), expo_sum (hl s (by simp))]
    rw [this]
    clear h1 h2 hcol hne hl this
    induction seqs with
    | nil => simp
    | cons s seqs ih => simp only [List.map_cons, List.prod_cons, List.sum_cons, ih, pow_add]
  rw [h1, ← allConfs_coeff hf ht, ← h2, ← h3]
  exact prod_coeff_le seqs (expo k) (fun s => sitePoly k d flags ^ s.sum)

theorem prodCoeff_le {n : Nat} {ms : List Multinom} (hms : ProdOk k n ms) {flags : List Bool} {d : Nat} (hd : 1 ≤ d)
    (hf : flags.length = k) (hm : ∀ m ∈ ms, m.arrowings = flags ∧ m.coeff ≤ d) {t : List Nat} (ht : t.length = k) (hs : t.sum = n) :
    prodCoeff k t ms ≤ allConfs d flags t := by
  unfold prodCoeff
  rw [← allConfs_coeff hf ht, hs, ← hms.sum]
  have hfac := hms.fac
  clear hms hs
  have : Dom (ms.map (mnPoly k)).prod (sitePoly k d flags ^ (ms.map Multinom.powersum).sum) := by
    induction ms with
    | nil => simpa using Dom.refl _
    | cons m ms ih =>
      simp only [List.map_cons, List.prod_cons, List.sum_cons, pow_add]
      refine Dom.mul ?_ (ih (fun x hx => hm x (List.mem_cons_of_mem _ hx)) (fun x hx => hfac x (List.mem_cons_of_mem _ hx)))
      have := mnPoly_dom (k := k) (hfac m (by simp)).power hd (hm m (by simp)).2
      rwa [(hm m (by simp)).1] at this
  exact this _

end
end Phenum
