import Verif.Proof.Text
import Verif.Props.RealSpace
/-
C32: labels and arrows survive the encoding as strings.
-/
namespace Phenum

theorem intStr_digit {z : ℤ} (h0 : 0 ≤ z) (h1 : z ≤ 9) : ∃ ch : Char, intStr z = [ch] ∧ ch.isDigit = true ∧ digitOf ch = .ok z.toNat := by
  obtain ⟨n, rfl⟩ := Int.eq_ofNat_of_zero_le h0
  have hn : n < 10 := by omega
  obtain ⟨d1, d2⟩ := digitChar_facts hn
  refine ⟨digitChar n, ?_, d1, ?_⟩
  · rw [show intStr ((n : ℕ) : ℤ) = natStr n from rfl, natStr_lt hn]
  · rw [digitOf, if_pos d1, d2]; simp

theorem encode_digits {α : Type} (f : α → ℤ) (l : List α) (h : ∀ a ∈ l, 0 ≤ f a ∧ f a ≤ 9) :
    (l.flatMap (fun a => intStr (f a))).length = l.length ∧
    (l.flatMap (fun a => intStr (f a))).mapM digitOf = .ok (l.map (fun a => (f a).toNat)) := by
  induction l with
  | nil => exact ⟨rfl, rfl⟩
  | cons a l ih =>
    obtain ⟨h1, h2⟩ := ih (fun b hb => h b (List.mem_cons_of_mem _ hb))
    obtain ⟨ch, e1, -, e3⟩ := intStr_digit (h a List.mem_cons_self).1 (h a List.mem_cons_self).2
    rw [List.flatMap_cons, e1, List.singleton_append, List.length_cons, h1, List.mapM_cons, e3, h2]
    exact ⟨rfl, rfl⟩

theorem toNat_pred {c : ℤ} (h : 1 ≤ c) : (((c - 1).toNat : ℕ) : ℤ) = c - 1 := Int.toNat_of_nonneg (by omega)

/-- C32. A configuration without arrows of at most ten species (colours 1 to 10): the labeling string has one character per site,
which read as a number is the colour of the site less one, and the arrow string has a `0` for each site. -/
theorem C32_labels (config : List ℤ) (h : ∀ c ∈ config, 1 ≤ c ∧ c ≤ 10) :
    (createLabelingPlain config).1.length = config.length ∧
    (∃ digits, (createLabelingPlain config).1.mapM digitOf = .ok digits ∧ digits.map (fun d : ℕ => (d : ℤ) + 1) = config) ∧
    (createLabelingPlain config).2 = List.replicate config.length '0' := by
  obtain ⟨h1, h2⟩ := encode_digits (fun c : ℤ => c - 1) config (fun c hc => by have := h c hc; omega)
  refine ⟨h1, ⟨_, h2, ?_⟩, ?_⟩
  · rw [List.map_map]
    conv_rhs => rw [← List.map_id config]
    apply List.map_congr_left
    intro c hc
    simp only [Function.comp_apply, toNat_pred (h c hc).1, id]
    omega
  · show config.map (fun _ => '0') = _
    exact List.map_const' ..

/-- C32. A configuration with arrows, each site being `[arrow, colour]` with arrow -1 (none) or 0 to 5: both strings have
one character per site; the arrow string is 0 where there is no arrow and the number of the arrow plus one elsewhere. -/
theorem C32_labels_and_arrows (config : List (ℤ × ℤ)) (h : ∀ s ∈ config, (-1 ≤ s.1 ∧ s.1 ≤ 5) ∧ 1 ≤ s.2 ∧ s.2 ≤ 10) :
    (createLabelingArrows config).1.length = config.length ∧ (createLabelingArrows config).2.length = config.length ∧
    (∃ digits arrows, (createLabelingArrows config).1.mapM digitOf = .ok digits ∧
      (createLabelingArrows config).2.mapM digitOf = .ok arrows ∧
      digits.map (fun d : ℕ => (d : ℤ) + 1) = config.map Prod.snd ∧ arrows.map (fun d : ℕ => (d : ℤ) - 1) = config.map Prod.fst) := by
  obtain ⟨h1, h2⟩ := encode_digits (fun s : ℤ × ℤ => s.2 - 1) config (fun s hs => by have := h s hs; omega)
  obtain ⟨h3, h4⟩ := encode_digits (fun s : ℤ × ℤ => s.1 + 1) config (fun s hs => by have := h s hs; omega)
  refine ⟨h1, h3, _, _, h2, h4, ?_, ?_⟩
  · rw [List.map_map]
    apply List.map_congr_left
    intro s hs
    have := h s hs
    simp only [Function.comp_apply, toNat_pred this.2.1]
    omega
  · rw [List.map_map]
    apply List.map_congr_left
    intro s hs
    have := h s hs
    have : (((s.1 + 1).toNat : ℕ) : ℤ) = s.1 + 1 := Int.toNat_of_nonneg (by omega)
    simp only [Function.comp_apply, this]
    omega

/-- C32. Different configurations are written differently. -/
theorem C32_injective (c c' : List ℤ) (h : ∀ x ∈ c, 1 ≤ x ∧ x ≤ 10) (h' : ∀ x ∈ c', 1 ≤ x ∧ x ≤ 10)
    (he : (createLabelingPlain c).1 = (createLabelingPlain c').1) : c = c' := by
  obtain ⟨-, ⟨d, h1, h2⟩, -⟩ := C32_labels c h
  obtain ⟨-, ⟨d', h1', h2'⟩, -⟩ := C32_labels c' h'
  rw [he, h1'] at h1
  rw [← h2, ← h2', Except.ok.inj h1]

/-- C32. The labeling of a configuration of `k` species is a labeling that `map_enumStr_to_real_space` accepts, for up to
ten species. -/
theorem C32_readable (config : List ℤ) (k : ℕ) (hk : k ≤ 10) (h : ∀ c ∈ config, 1 ≤ c ∧ c ≤ k) :
    LabelsBelow k (createLabelingPlain config).1 := by
  intro ch hch
  obtain ⟨c, hc, hch⟩ := List.mem_flatMap.mp hch
  obtain ⟨ch', e1, e2, e3⟩ := intStr_digit (z := c - 1) (by have := h c hc; omega) (by have := h c hc; omega)
  rw [e1, List.mem_singleton] at hch
  subst hch
  refine ⟨e2, ?_⟩
  rw [digitOf, if_pos e2] at e3
  have := Except.ok.inj e3
  have := h c hc
  omega

/-- C32. With more than ten species this is lost: two configurations of two sites, both written as `110`. -/
theorem C32_eleven_species : createLabelingPlain [2, 11] = ("110".toList, "00".toList) ∧ createLabelingPlain [12, 1] = ("110".toList, "00".toList) := by
  have n10 : natStr 10 = ['1', '0'] := by rw [natStr_ge (by norm_num), natStr_lt (by norm_num)]; decide
  have n11 : natStr 11 = ['1', '1'] := by rw [natStr_ge (by norm_num), natStr_lt (by norm_num)]; decide
  have n0 : natStr 0 = ['0'] := by rw [natStr_lt (by norm_num)]; decide
  have n1 : natStr 1 = ['1'] := by rw [natStr_lt (by norm_num)]; decide
  have i10 : intStr (11 - 1) = ['1', '0'] := n10
  have i11 : intStr (12 - 1) = ['1', '1'] := n11
  have i0 : intStr (1 - 1) = ['0'] := n0
  have i1 : intStr (2 - 1) = ['1'] := n1
  constructor
  · show ([2, 11].flatMap (fun i : ℤ => intStr (i - 1)), _) = _
    simp only [List.flatMap_cons, List.flatMap_nil, i1, i10]
    rfl
  · show ([12, 1].flatMap (fun i : ℤ => intStr (i - 1)), _) = _
    simp only [List.flatMap_cons, List.flatMap_nil, i0, i11]
    rfl

/-- Four sites, two species, arrows on two of them. -/
example : ∀ s ∈ ([(-1, 1), (-1, 1), (0, 2), (5, 2)] : List (ℤ × ℤ)), (-1 ≤ s.1 ∧ s.1 ≤ 5) ∧ 1 ≤ s.2 ∧ s.2 ≤ 10 := by decide

end Phenum
