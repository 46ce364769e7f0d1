import Verif.Proof.Lattice
import Mathlib.Data.Set.Card
/-
Removal of duplicate superlattices; operations fixing a superlattice.
-/
namespace Phenum
open Spec

variable {K : Type} [Field K] [LinearOrder K] [IsStrictOrderedRing K]

theorem colLat_image (s L : M3 K) : ColLattice (s * L) = (fun v => s.mulVec v) '' ColLattice L := by
  ext v
  constructor
  · rintro ⟨x, rfl⟩
    exact ⟨_, ⟨x, rfl⟩, by simp only [Matrix.mulVec_mulVec]⟩
  · rintro ⟨_, ⟨x, rfl⟩, rfl⟩
    exact ⟨x, by simp only [Matrix.mulVec_mulVec]⟩

theorem colLat_mul (s : M3 K) {L L' : M3 K} (h : ColLattice L = ColLattice L') : ColLattice (s * L) = ColLattice (s * L') := by
  rw [colLat_image, colLat_image, h]

theorem colLat_int (A : M3 K) {M H : M3 ℤ} (h : IntLattice M = IntLattice H) :
    ColLattice (A * castM M) = ColLattice (A * castM H) := by
  have key : ∀ M : M3 ℤ, ColLattice (A * castM M) = (fun v : Fin 3 → ℤ => A.mulVec (fun i => (v i : K))) '' IntLattice M := by
    intro M
    ext v
    constructor
    · rintro ⟨x, rfl⟩
      exact ⟨M.mulVec x, ⟨x, rfl⟩, by simp only [← Matrix.mulVec_mulVec, castM_mulVec]⟩
    · rintro ⟨_, ⟨x, rfl⟩, rfl⟩
      exact ⟨x, by simp only [← Matrix.mulVec_mulVec, castM_mulVec]⟩
  rw [key, key, h]

section
variable {A : M3 K} (hA : A.det ≠ 0) {rots : List (M3 K)} (hG : IsMatGroup rots)

include hG in
theorem Spec.IsMatGroup.det_ne {r : M3 K} (hr : r ∈ rots) : r.det ≠ 0 := by
  obtain ⟨s, -, h⟩ := hG.inv r hr
  have := congrArg Matrix.det h
  rw [Matrix.det_mul, Matrix.det_one] at this
  intro h0
  rw [h0] at this
  simp at this

include hG in
theorem Spec.IsMatGroup.symm {L L' : M3 K} (h : ∃ r ∈ rots, ColLattice (r * L) = ColLattice L') :
    ∃ r ∈ rots, ColLattice (r * L') = ColLattice L := by
  obtain ⟨r, hr, h⟩ := h
  obtain ⟨s, hs, hsr⟩ := hG.inv r hr
  refine ⟨s, hs, ?_⟩
  rw [colLat_mul s h.symm, ← mul_assoc, hsr, one_mul]

include hG in
theorem Spec.IsMatGroup.trans {L L' L'' : M3 K} (h : ∃ r ∈ rots, ColLattice (r * L) = ColLattice L')
    (h' : ∃ r ∈ rots, ColLattice (r * L') = ColLattice L'') : ∃ r ∈ rots, ColLattice (r * L) = ColLattice L'' := by
  obtain ⟨r, hr, h⟩ := h
  obtain ⟨s, hs, h'⟩ := h'
  refine ⟨s * r, hG.mul s hs r hr, ?_⟩
  rw [mul_assoc, colLat_mul s h, h']

/-- the product of the index and a vector of the parent lattice is in every superlattice of that index -/
theorem colLat_index {B : M3 K} {H : M3 ℤ} {n : ℕ} (hH : H.det.natAbs = n) :
    ∀ v ∈ ColLattice B, (n : K) • v ∈ ColLattice (B * castM H) := by
  rintro v ⟨x, rfl⟩
  obtain ⟨w, hw⟩ : (n : ℤ) • x ∈ IntLattice H := by
    have h1 := lat_det H x
    rcases Int.natAbs_eq H.det with h | h
    · rw [h, hH] at h1; exact h1
    · rw [h, hH] at h1
      have := lat_smul (-1) h1
      simpa using this
  refine ⟨w, ?_⟩
  rw [← Matrix.mulVec_mulVec, castM_mulVec, hw, ← Matrix.mulVec_smul]
  congr 1
  funext i
  simp

include hA hG in
theorem super_den (hpres : ∀ r ∈ rots, ColLattice (r * A) = ColLattice A) {n : ℕ} {H H' : M3 ℤ} (hH : H.det.natAbs = n)
    {r r' : M3 K} (hr : r ∈ rots) (hr' : r' ∈ rots) :
    ∀ v ∈ ColLattice (r' * (A * castM H')), (n : K) • v ∈ ColLattice (r * (A * castM H)) := by
  intro v hv
  have h1 : v ∈ ColLattice (r' * A) := by
    obtain ⟨x, rfl⟩ := hv
    exact ⟨H'.mulVec x, by rw [← castM_mulVec, Matrix.mulVec_mulVec, mul_assoc]⟩
  rw [hpres r' hr', ← hpres r hr] at h1
  rw [← mul_assoc]
  exact colLat_index hH v h1

variable [FloorRing K]

/-- conditions under which all comparisons are exact -/
structure DedupOk (A : M3 K) (rots : List (M3 K)) (n : ℕ) (eps : K) : Prop where
  det : A.det ≠ 0
  grp : IsMatGroup rots
  pres : ∀ r ∈ rots, ColLattice (r * A) = ColLattice A
  n_pos : 1 ≤ n
  eps_nonneg : 0 ≤ eps
  eps_lt : eps * n < 1

theorem DedupOk.test {n : ℕ} {eps : K} (h : DedupOk A rots n eps) {H H' : M3 ℤ} (hH : H.det.natAbs = n)
    {r r' : M3 K} (hr : r ∈ rots) (hr' : r' ∈ rots) :
    ∃ b, isEquivLattice (r * (A * castM H)) (r' * (A * castM H')) eps = .ok b ∧
      (b = true ↔ ColLattice (r * (A * castM H)) = ColLattice (r' * (A * castM H'))) := by
  apply equiv_test _ h.eps_nonneg h.n_pos h.eps_lt (Or.inr (super_den h.det h.grp h.pres hH hr hr'))
  rw [Matrix.det_mul, Matrix.det_mul, castM_det]
  apply mul_ne_zero (h.grp.det_ne hr) (mul_ne_zero h.det _)
  have hn := h.n_pos
  have : H.det ≠ 0 := by intro h0; rw [h0] at hH; simp at hH; omega
  exact_mod_cast this

/-- the relation tested -/
def SupRel (A : M3 K) (rots : List (M3 K)) (h u : M3 ℤ) : Prop :=
  ∃ r ∈ rots, ColLattice (r * (A * castM h)) = ColLattice (A * castM u)

omit [LinearOrder K] [IsStrictOrderedRing K] [FloorRing K] in
theorem one_mul_castM (A : M3 K) (H : M3 ℤ) : (1 : M3 K) * (A * castM H) = A * castM H := one_mul _

theorem dupWith_ok {n : ℕ} {eps : K} (h : DedupOk A rots n eps) {hi hj : M3 ℤ} (hH : hi.det.natAbs = n)
    (l : List (M3 K)) (hl : ∀ r ∈ l, r ∈ rots) :
    ∃ b, dupWith A hi hj eps l = .ok b ∧ (b = true ↔ ∃ r ∈ l, ColLattice (r * (A * castM hi)) = ColLattice (A * castM hj)) := by
  induction l with
  | nil => exact ⟨false, rfl, by simp⟩
  | cons r l ih =>
    obtain ⟨b, e, hb⟩ := ih (fun r hr => hl r (List.mem_cons_of_mem _ hr))
    obtain ⟨b', e', hb'⟩ := h.test (H' := hj) hH (hl r (by simp)) h.grp.one
    rw [one_mul_castM] at e' hb'
    unfold dupWith
    rw [e']
    cases b' with
    | true => exact ⟨true, rfl, by simp [hb'.mp rfl]⟩
    | false =>
      refine ⟨b, by simpa [bind, Except.bind] using e, ?_⟩
      have : ¬ ColLattice (r * (A * castM hi)) = ColLattice (A * castM hj) := fun hc => by simpa using hb'.mpr hc
      rw [hb]
      simp [this]

theorem dupAny_ok {n : ℕ} {eps : K} (h : DedupOk A rots n eps) {hi : M3 ℤ} (hH : hi.det.natAbs = n) (u : List (M3 ℤ)) :
    ∃ b, dupAny A rots eps hi u = .ok b ∧ (b = true ↔ ∃ hj ∈ u, SupRel A rots hi hj) := by
  induction u with
  | nil => exact ⟨false, rfl, by simp⟩
  | cons hj u ih =>
    obtain ⟨b, e, hb⟩ := ih
    obtain ⟨b', e', hb'⟩ := dupWith_ok h (hi := hi) (hj := hj) hH rots (fun _ hr => hr)
    unfold dupAny
    rw [e']
    cases b' with
    | true => exact ⟨true, rfl, by simp only [true_iff]; exact ⟨hj, by simp, hb'.mp rfl⟩⟩
    | false =>
      refine ⟨b, by simpa [bind, Except.bind] using e, ?_⟩
      have : ¬ SupRel A rots hi hj := fun hc => by simpa using hb'.mpr hc
      rw [hb]
      simp [this]

theorem dupLoop_ok {n : ℕ} {eps : K} (h : DedupOk A rots n eps) (l : List (M3 ℤ)) (hl : ∀ H ∈ l, H.det.natAbs = n)
    (u : List (M3 ℤ)) (hu : u.Pairwise (fun x y => ¬ SupRel A rots y x)) :
    ∃ U, dupLoop A rots eps l u = .ok (u ++ U) ∧ U.Sublist l ∧ (u ++ U).Pairwise (fun x y => ¬ SupRel A rots y x) ∧
      ∀ H ∈ l, ∃ v ∈ u ++ U, SupRel A rots H v := by
  induction l generalizing u with
  | nil => exact ⟨[], by simp [dupLoop], by simp, by simpa using hu, by simp⟩
  | cons H l ih =>
    have hl' : ∀ H ∈ l, H.det.natAbs = n := fun H hH => hl H (List.mem_cons_of_mem _ hH)
    obtain ⟨b, e, hb⟩ := dupAny_ok h (hl H (by simp)) u
    unfold dupLoop
    rw [e]
    cases b with
    | true =>
      obtain ⟨U, e1, s1, p1, r1⟩ := ih hl' u hu
      refine ⟨U, by simpa [bind, Except.bind] using e1, s1.cons _, p1, ?_⟩
      intro H' hH'
      rcases List.mem_cons.mp hH' with rfl | hH'
      · obtain ⟨v, hv, hr⟩ := hb.mp rfl
        exact ⟨v, List.mem_append_left _ hv, hr⟩
      · exact r1 H' hH'
    | false =>
      have hno : ∀ v ∈ u, ¬ SupRel A rots H v := fun v hv hc => by simpa using hb.mpr ⟨v, hv, hc⟩
      obtain ⟨U, e1, s1, p1, r1⟩ := ih hl' (u ++ [H]) (by
        rw [List.pairwise_append]
        refine ⟨hu, by simp, ?_⟩
        intro x hx y hy
        rw [List.mem_singleton] at hy
        rw [hy]; exact hno x hx)
      refine ⟨H :: U, by simpa [bind, Except.bind] using e1, s1.cons_cons _, by simpa using p1, ?_⟩
      intro H' hH'
      rcases List.mem_cons.mp hH' with rfl | hH'
      · exact ⟨H', by simp, 1, h.grp.one, by rw [one_mul]⟩
      · have := r1 H' hH'
        simpa using this

theorem removeDuplicates_ok {n : ℕ} {eps : K} (h : DedupOk A rots n eps) (l : List (M3 ℤ)) (hl : ∀ H ∈ l, H.det.natAbs = n) :
    ∃ U, removeDuplicates l A rots eps = .ok U ∧ U.Sublist l ∧ U.Pairwise (fun x y => ¬ SupRel A rots y x) ∧
      ∀ H ∈ l, ∃ v ∈ U, SupRel A rots H v := by
  unfold removeDuplicates
  split
  · rename_i h1
    obtain ⟨H, rfl⟩ := List.length_eq_one_iff.mp h1
    refine ⟨[H], rfl, List.Sublist.refl _, by simp, ?_⟩
    intro H' hH'
    exact ⟨H', hH', 1, h.grp.one, by rw [one_mul]⟩
  · obtain ⟨U, e, s, p, r⟩ := dupLoop_ok h l hl [] (by simp)
    exact ⟨U, by simpa using e, s, by simpa using p, by simpa using r⟩

/-- exactly one per class -/
theorem removeDuplicates_unique {n : ℕ} {eps : K} (h : DedupOk A rots n eps) :
    ∃ U, removeDuplicates (findAllHNFs n) A rots eps = .ok U ∧ U.Sublist (findAllHNFs n) ∧
      ∀ M : M3 ℤ, M.det.natAbs = n → ∃! u, u ∈ U ∧ SupRel A rots M u := by
  have hdet : ∀ H ∈ findAllHNFs n, H.det.natAbs = n := by
    intro H hH
    obtain ⟨a, b, c, d, e, f, h1, -, -, -, rfl⟩ := (mem_findAllHNFs h.n_pos H).mp hH
    rw [hnf_det]
    exact_mod_cast h1
  obtain ⟨U, e, s, p, r⟩ := removeDuplicates_ok h _ hdet
  refine ⟨U, e, s, ?_⟩
  intro M hM
  have hM0 : M.det ≠ 0 := by
    have := h.n_pos
    intro h0; rw [h0] at hM; simp at hM; omega
  obtain ⟨a, b, c, d, e', f, h1, h2, h3, h4, h5⟩ := exists_hnf hM0
  have hmem : hnfMat a b c d e' f ∈ findAllHNFs n :=
    (mem_findAllHNFs h.n_pos _).mpr ⟨a, b, c, d, e', f, by rw [h1, hM], h2, h3, h4, rfl⟩
  obtain ⟨v, hv, hr⟩ := r _ hmem
  have hMv : SupRel A rots M v := by
    obtain ⟨r', hr', e''⟩ := hr
    exact ⟨r', hr', by rw [← e'']; exact colLat_mul r' (colLat_int A h5.symm)⟩
  refine ⟨v, ⟨hv, hMv⟩, ?_⟩
  rintro w ⟨hw, hMw⟩
  by_contra hne
  have hrel : SupRel A rots v w := h.grp.trans (h.grp.symm hMv) hMw
  have hrel' : SupRel A rots w v := h.grp.trans (h.grp.symm hMw) hMv
  have hsym : ∀ x ∈ U, ∀ y ∈ U, x ≠ y → ¬ (SupRel A rots x y ∧ SupRel A rots y x) := by
    have hp : U.Pairwise (fun x y => ¬ (SupRel A rots x y ∧ SupRel A rots y x)) := p.imp (fun hh hc => hh hc.2)
    intro x hx y hy hxy
    haveI : Std.Symm (fun x y => ¬ (SupRel A rots x y ∧ SupRel A rots y x)) := ⟨fun _ _ hh hc => hh ⟨hc.2, hc.1⟩⟩
    exact hp.forall hx hy hxy
  exact hsym v hv w hw (fun hc => hne hc.symm) ⟨hrel, hrel'⟩

/-! operations fixing a superlattice -/

theorem inDegen_ok {n : ℕ} {eps : K} (h : DedupOk A rots n eps) {H : M3 ℤ} (hH : H.det.natAbs = n) {r : M3 K} (hr : r ∈ rots)
    (dg : List (M3 K)) (hdg : ∀ D ∈ dg, ∃ r' ∈ rots, D = r' * (A * castM H)) :
    ∃ b, inDegen eps (r * (A * castM H)) dg = .ok b ∧
      (b = true ↔ ∃ D ∈ dg, ColLattice D = ColLattice (r * (A * castM H))) := by
  induction dg with
  | nil => exact ⟨false, rfl, by simp⟩
  | cons D dg ih =>
    obtain ⟨b, e, hb⟩ := ih (fun D hD => hdg D (List.mem_cons_of_mem _ hD))
    obtain ⟨r', hr', rfl⟩ := hdg D (by simp)
    obtain ⟨b', e', hb'⟩ := h.test (H' := H) hH hr' hr
    unfold inDegen
    rw [e']
    cases b' with
    | true => exact ⟨true, rfl, by simp [hb'.mp rfl]⟩
    | false =>
      refine ⟨b, by simpa [bind, Except.bind] using e, ?_⟩
      have : ¬ ColLattice (r' * (A * castM H)) = ColLattice (r * (A * castM H)) := fun hc => by simpa using hb'.mpr hc
      rw [hb]
      simp [this]

open Classical in
theorem fixLoop_ok {D : Type} {n : ℕ} {eps : K} (h : DedupOk A rots n eps) {H : M3 ℤ} (hH : H.det.natAbs = n)
    (ops : List (M3 K × D)) (hops : ∀ op ∈ ops, op.1 ∈ rots) (fixed : List (M3 K × D)) (dg : List (M3 K))
    (hdg : ∀ D ∈ dg, ∃ r' ∈ rots, D = r' * (A * castM H))
    (hnd : (dg.map ColLattice).Nodup) (hno : ∀ D ∈ dg, ColLattice D ≠ ColLattice (A * castM H)) :
    ∃ dg' : List (M3 K), fixLoop A H eps ops fixed dg = .ok (fixed ++ ops.filter (fun op =>
        decide (ColLattice (op.1 * (A * castM H)) = ColLattice (A * castM H))), dg'.length) ∧
      (dg'.map ColLattice).Nodup ∧ (∀ D ∈ dg', ColLattice D ≠ ColLattice (A * castM H)) ∧
      ∀ L, L ∈ dg'.map ColLattice ↔ L ∈ dg.map ColLattice ∨
        (L ≠ ColLattice (A * castM H) ∧ ∃ op ∈ ops, L = ColLattice (op.1 * (A * castM H))) := by
  induction ops generalizing fixed dg with
  | nil => exact ⟨dg, by simp [fixLoop], hnd, hno, by simp⟩
  | cons op ops ih =>
    have hops' : ∀ op ∈ ops, op.1 ∈ rots := fun op ho => hops op (List.mem_cons_of_mem _ ho)
    obtain ⟨b, e, hb⟩ := h.test (H := H) (H' := H) hH (hops op (by simp)) h.grp.one
    rw [one_mul_castM] at e hb
    unfold fixLoop
    simp only [e]
    cases b with
    | true =>
      obtain ⟨dg', e1, n1, n2, n3⟩ := ih hops' (fixed ++ [op]) dg hdg hnd hno
      refine ⟨dg', ?_, n1, n2, ?_⟩
      · rw [List.filter_cons, if_pos (by simpa using hb.mp rfl)]
        simpa [bind, Except.bind] using e1
      · intro L
        rw [n3, List.exists_mem_cons_iff, ← hb.mp rfl]
        constructor
        · rintro (hh | ⟨h1, h2⟩)
          · exact Or.inl hh
          · exact Or.inr ⟨h1, Or.inr h2⟩
        · rintro (hh | ⟨h1, h2 | h2⟩)
          · exact Or.inl hh
          · exact absurd h2 h1
          · exact Or.inr ⟨h1, h2⟩
    | false =>
      have hne : ColLattice (op.1 * (A * castM H)) ≠ ColLattice (A * castM H) := fun hc => by simpa using hb.mpr hc
      obtain ⟨b', e', hb'⟩ := inDegen_ok h hH (hops op (by simp)) dg hdg
      have hfil : (op :: ops).filter (fun op => decide (ColLattice (op.1 * (A * castM H)) = ColLattice (A * castM H))) =
          ops.filter (fun op => decide (ColLattice (op.1 * (A * castM H)) = ColLattice (A * castM H))) := by
        rw [List.filter_cons, if_neg (by simpa using hne)]
      rw [hfil]
      cases b' with
      | true =>
        obtain ⟨dg', e1, n1, n2, n3⟩ := ih hops' fixed dg hdg hnd hno
        refine ⟨dg', ?_, n1, n2, ?_⟩
        · simp only [bind, Except.bind, Bool.false_eq_true, if_false, e', if_true]; exact e1
        · intro L
          rw [n3, List.exists_mem_cons_iff]
          obtain ⟨D, hD, hDe⟩ := hb'.mp rfl
          constructor
          · rintro (hh | ⟨h1, h2⟩)
            · exact Or.inl hh
            · exact Or.inr ⟨h1, Or.inr h2⟩
          · rintro (hh | ⟨h1, h2 | h2⟩)
            · exact Or.inl hh
            · exact Or.inl (List.mem_map.mpr ⟨D, hD, by rw [h2, hDe]⟩)
            · exact Or.inr ⟨h1, h2⟩
      | false =>
        have hnin : ∀ D ∈ dg, ColLattice D ≠ ColLattice (op.1 * (A * castM H)) := fun D hD hc => by
          simpa using hb'.mpr ⟨D, hD, hc⟩
        obtain ⟨dg', e1, n1, n2, n3⟩ := ih hops' fixed (dg ++ [op.1 * (A * castM H)]) (by
            intro D hD
            rcases List.mem_append.mp hD with hD | hD
            · exact hdg D hD
            · rw [List.mem_singleton] at hD
              exact ⟨op.1, hops op (by simp), hD⟩) (by
            rw [List.map_append, List.nodup_append]
            refine ⟨hnd, by simp, ?_⟩
            intro x hx y hy
            obtain ⟨D, hD, rfl⟩ := List.mem_map.mp hx
            rw [List.map_singleton, List.mem_singleton] at hy
            rw [hy]; exact hnin D hD) (by
            intro D hD
            rcases List.mem_append.mp hD with hD | hD
            · exact hno D hD
            · rw [List.mem_singleton] at hD
              rw [hD]; exact hne)
        refine ⟨dg', ?_, n1, n2, ?_⟩
        · simp only [bind, Except.bind, Bool.false_eq_true, if_false, e']; exact e1
        · intro L
          rw [n3, List.map_append, List.mem_append, List.map_singleton, List.mem_singleton, List.exists_mem_cons_iff]
          constructor
          · rintro ((hh | hh) | ⟨h1, h2⟩)
            · exact Or.inl hh
            · exact Or.inr ⟨by rw [hh]; exact hne, Or.inl hh⟩
            · exact Or.inr ⟨h1, Or.inr h2⟩
          · rintro (hh | ⟨h1, h2 | h2⟩)
            · exact Or.inl (Or.inl hh)
            · exact Or.inl (Or.inr h2)
            · exact Or.inr ⟨h1, h2⟩

end
end Phenum
