import Verif.Props.AcceptRate
import Verif.Props.ProgramExamples
/-
C101 for the program.
-/
namespace Phenum
open Spec

theorem run_bind_congr_at {α β : Type} (m : Run α) {f g : α → Run β} (h : ∀ x, m = pure x → f x = g x) : m >>= f = m >>= g := by
  unfold Run at m f g
  match m, h with
  | none, _ => rfl
  | some (.error e), _ => rfl
  | some (.ok x), h => exact h x rfl

/-- No displaced atoms, and for every group of symmetries found for the supercell, fewer than a million structures or no proper part of
them wanted. -/
def Spec.FewWanted (tol : Tol) (lat : LatticeIn) (sys : List ℤ × List ℤ × ℤ) : Prop :=
  2 ≤ sys.2.1.length ∧ sys.2.1.length ≤ lat.arrowFractions.length ∧ (∀ q ∈ lat.arrowFractions, q = 0) ∧
  ∀ geo agroup total, lat.geometry = .ok geo →
    getSymGroup (realMat geo.1) (realVecs geo.2) (getFullHNF sys.1) 3 tol.sym false = pure agroup →
    polya (sys.2.1.map Int.toNat) agroup .none = some (.ok total) → total < 1000000 ∨ total ≤ sys.2.2.toNat

theorem enumSystem_accept {tol : Tol} {lat : LatticeIn} {supers : Bool} {rnd : EnumRandom} {sys : List ℤ × List ℤ × ℤ} (h : FewWanted tol lat sys) :
    enumSystem tol lat supers true rnd sys = enumSystem tol lat supers false rnd sys := by
  obtain ⟨h1, h2, h3, h4⟩ := h
  have hsum : lat.arrowFractions.sum = 0 := List.sum_eq_zero h3
  unfold enumSystem
  apply run_bind_congr_at
  intro geo hgeo
  apply run_bind_congr_at
  intro H hH
  apply run_bind_congr_at
  intro snf _
  apply run_bind_congr_at
  intro _ _
  apply run_bind_congr_at
  intro agroup hag
  have hg : lat.geometry = .ok geo := by
    have : some lat.geometry = some (Except.ok geo) := hgeo
    exact Option.some.inj this
  have hHH : H = getFullHNF sys.1 := by
    by_cases hl : sys.1.length < 6
    · rw [if_pos hl] at hH
      have : some (Except.error PyErr.indexError) = some (Except.ok H) := hH
      cases this
    · rw [if_neg hl] at hH
      have : some (Except.ok (getFullHNF sys.1)) = some (Except.ok H) := hH
      exact (Except.ok.inj (Option.some.inj this)).symm
  have : enumSys agroup (sys.2.1.map Int.toNat) lat.arrowFractions sys.2.2.toNat (realVecs geo.2).length supers true rnd =
      enumSys agroup (sys.2.1.map Int.toNat) lat.arrowFractions sys.2.2.toNat (realVecs geo.2).length supers false rnd := by
    apply C101_no_effect
    · simpa using h1
    · simpa using h2
    · intro i hi
      have hlt : i < lat.arrowFractions.length := by simp at hi; omega
      have : lat.arrowFractions.getD i 0 = 0 := by
        rw [List.getD_eq_getElem?_getD, List.getElem?_eq_getElem hlt]
        exact h3 _ (List.getElem_mem hlt)
      rw [this]
      unfold arrowCount
      simp
    · intro total ht
      refine h4 geo agroup total hg ?_ ht
      rw [hHH, hsum] at hag
      simpa using hag
  rw [this]

theorem enumLoop_accept {w : World} {tol : Tol} {lat : LatticeIn} {supers : Bool} (systems : List (List ℤ × List ℤ × ℤ))
    (h : ∀ sys ∈ systems, FewWanted tol lat sys) (i : ℕ) :
    enumLoop w tol lat supers true i systems = enumLoop w tol lat supers false i systems := by
  induction systems generalizing i with
  | nil => rfl
  | cons sys rest ih =>
    unfold enumLoop
    rw [enumSystem_accept (h sys (by simp)), ih (fun s hs => h s (by simp [hs]))]

/-- C101 for the program: an existing file of systems is enumerated by `enum.x -enum` with `-acceptrate` exactly as without (the
same `enum.out`, or the same error), if no atoms are displaced and of no supercell a proper part of a million or more
structures is wanted. -/
theorem C101_program (w : World) (tol : Tol) (a : Args) (q : ℚ) (input outfile : Str) (d : Dir)
    (hin : (dictGet d input).isSome)
    (hfew : ∀ lat systems, (readFile d a.lattice >>= readLattice) = .ok lat → (readFile d input >>= readEnum) = .ok systems →
      ∀ sys ∈ systems, FewWanted tol lat sys) :
    enumOut w tol { a with accept := some q } input outfile d = enumOut w tol { a with accept := none } input outfile d := by
  unfold enumOut
  apply run_bind_congr_at
  intro lat hlat
  simp only [hin, if_true, pure_bind]
  apply run_bind_congr_at
  intro systems hsys
  have h1 : (readFile d a.lattice >>= readLattice) = .ok lat := Option.some.inj (show some _ = some (Except.ok lat) from hlat)
  have h2 : (readFile d input >>= readEnum) = .ok systems := Option.some.inj (show some _ = some (Except.ok systems) from hsys)
  have := enumLoop_accept (w := w) (supers := a.super) systems (hfew lat systems h1 h2) 0
  unfold enumWrite
  apply run_bind_congr_at
  intro geo _
  simp only [Option.isSome_some, Option.isSome_none, this]

theorem labellings_bound {c : List ℕ} {L : List (List ℕ)} (hnd : L.Nodup) (hL : ∀ x ∈ L, IsLabelling c x) :
    L.length ≤ (c.length + 1) ^ c.sum := by
  have hlt : ∀ x ∈ L, (∀ v ∈ x, v < c.length + 1) ∧ x.length = c.sum := by
    intro x hx
    refine ⟨fun v hv => ?_, lab_len (hL x hx)⟩
    have := (hL x hx).1 v hv
    omega
  have hm : (L.map (fun x => ahash x (c.length + 1))).Nodup := by
    apply List.Nodup.map_on _ hnd
    intro x hx y hy e
    have h1 := (C10_decode_encode (c.length + 1) x (hlt x hx).1).2
    have h2 := (C10_decode_encode (c.length + 1) y (hlt y hy).1).2
    have e' : ahash x (c.length + 1) = ahash y (c.length + 1) := e
    rw [e', (hlt x hx).2, ← (hlt y hy).2, h2] at h1
    exact h1.symm
  have := (List.subperm_of_subset hm (fun m hm => by
    obtain ⟨x, hx, rfl⟩ := List.mem_map.mp hm
    have := (C10_decode_encode (c.length + 1) x (hlt x hx).1).1
    rw [(hlt x hx).2] at this
    exact List.mem_range.mpr this : L.map (fun x => ahash x (c.length + 1)) ⊆ List.range ((c.length + 1) ^ c.sum))).length_le
  simpa using this

/-- The file lists supercells of the crystal of `lo` to `hi` cells with concentrations of `k` species. -/
def Spec.ListsCells (b0 : List (Fin 3 → ℚ)) (lo hi k : ℕ) (systems : List (List ℤ × List ℤ × ℤ)) : Prop :=
  ∀ sys ∈ systems, ∃ (n : ℕ) (u : M3 ℤ) (c : List ℕ), lo ≤ n ∧ n ≤ hi ∧ u ∈ findAllHNFs n ∧ sys.1 = hnfNumbers u ∧ sys.2.1 = c.map (fun x : ℕ => (x : ℤ)) ∧
    c.length = k ∧ c.sum = b0.length * n

/-- C101 for the program and a crystal without displaced atoms, supercells with fewer than a million labellings: an existing
file of systems is enumerated by `enum.x -enum` with `-acceptrate` exactly as without. -/
theorem C101_program_small {text : Str} {lat : LatticeIn} {P0 : Matrix (Fin 3) (Fin 3) ℚ} {b0 : List (Fin 3 → ℚ)} {lo hi k : ℕ} {T : Set ℚ}
    {C : ℕ → List Conc} (h : EnumInput text lat P0 b0 lo hi k T C) (hz : lat.arrowFractions.sum = 0)
    (hs : (k + 1) ^ (b0.length * hi) < 1000000) {tol : Tol} (ht : ExactTol P0 b0 hi tol)
    (w : World) (a : Args) (q : ℚ) (input outfile : Str) (d : Dir) (hlat : dictGet d a.lattice = some text)
    (etext : Str) (systems : List (List ℤ × List ℤ × ℤ)) (hin : dictGet d input = some etext) (hread : readEnum etext = .ok systems)
    (hsys : ListsCells b0 lo hi k systems) :
    enumOut w tol { a with accept := some q } input outfile d = enumOut w tol { a with accept := none } input outfile d := by
  apply C101_program
  · rw [hin]; rfl
  intro lat' systems' h1 h2 sys hm
  have e1 : lat' = lat := by
    unfold readFile at h1
    rw [hlat] at h1
    have : readLattice text = .ok lat' := h1
    rw [h.read] at this
    exact (Except.ok.inj this).symm
  have e2 : systems' = systems := by
    unfold readFile at h2
    rw [hin] at h2
    have : readEnum etext = .ok systems' := h2
    rw [hread] at this
    exact (Except.ok.inj this).symm
  subst e1 e2
  obtain ⟨n, u, c, a1, a2, a3, a4, a5, a6, a7⟩ := hsys sys hm
  have hzero := sum_zero h.fractions.2 hz
  refine ⟨by rw [a5, List.length_map, a6]; exact h.species.1, by rw [a5, List.length_map, a6]; exact h.fractions.1, hzero, ?_⟩
  intro geo agroup total hg hag hp
  left
  rw [h.geometry] at hg
  have hg := (Except.ok.inj hg).symm
  subst hg
  have horig : (false : Bool) = true ∨ (realVecs b0).getD 0 0 = 0 := by
    right
    rcases h.origin with h0 | h0
    · exact absurd hz h0
    · exact h0
  have hn1 : 1 ≤ n := le_trans h.lo_pos a1
  have hsm : tol.sym * n < 1 := by
    have : (n : ℝ) ≤ hi := by exact_mod_cast a2
    have := ht.sym.pos
    have := ht.sym_small
    nlinarith
  obtain ⟨G, G', snf, hd⟩ := cell_data_at h.cell h.primitive (flag := false) horig n hn1 (lt_of_le_of_lt a2 h.hi_lt) ht.sym hsm u a3
  have hfull := (hnf_numbers_full hn1 a3).1
  rw [a4, hfull, hd.group'] at hag
  have hag : G' = agroup := Except.ok.inj (Option.some.inj (show some (Except.ok G') = some (Except.ok agroup) from hag))
  subst hag
  rw [a5, map_toNat] at hp
  have hG' : IsOpGroup c.sum 6 G' := by rw [a7, ← realVecs_length]; exact hd.isGroup'
  have hb : 0 < b0.length := by
    have := List.length_pos_iff.mpr h.cell.nonempty
    rwa [realVecs_length] at this
  have hpos : 1 ≤ c.sum := by rw [a7]; exact Nat.mul_pos hb hn1
  obtain ⟨⟨L, hL⟩, hcount⟩ := C13_polya_counts_orbits c G' hpos (opGroup_sites hG') (sites_balanced hG' hd.nodup') (fun g hg => ⟨6, hG'.arrows g hg⟩)
  rw [hcount L hL] at hp
  have hp : (L.length : ℤ) = total := Except.ok.inj (Option.some.inj hp)
  have hle := labellings_bound hL.nodup hL.mem
  rw [a6, a7] at hle
  have : (k + 1) ^ (b0.length * n) ≤ (k + 1) ^ (b0.length * hi) := Nat.pow_le_pow_right (by omega) (Nat.mul_le_mul_left _ a2)
  omega

/-- the simple cubic crystal, a file with one system, a supercell of two cells -/
example (w : World) (q : ℚ) : ∃ tol : Tol,
    enumOut w tol { scArgs with accept := some q } "enum.in".toList "enum.out".toList
      [("lattice.in".toList, scText), ("enum.in".toList, printAll [((2, [1, 0, 1, 0, 0, 2], [1, 1]), 1)])] =
    enumOut w tol { scArgs with accept := none } "enum.in".toList "enum.out".toList
      [("lattice.in".toList, scText), ("enum.in".toList, printAll [((2, [1, 0, 1, 0, 0, 2], [1, 1]), 1)])] := by
  have h := free_input sc_crystal rfl (by norm_num)
  obtain ⟨e, he, ht⟩ := small_tol h.cell.det h.cell.nonempty 2 (Q := fun tol => ExactTol (Matrix.of ![![1, 0, 0], ![0, 1, 0], ![0, 0, 1]]) [![0, 0, 0]] 2 tol)
    (fun tol ht => ht)
  refine ⟨⟨e / 2, e / 2, 0⟩, ?_⟩
  refine C101_program_small h (by decide +kernel) (by norm_num)
    (ht ⟨e / 2, e / 2, 0⟩ (by simp only; linarith) (by simp only; linarith) (by simp only; linarith) (by simp only; linarith))
    w scArgs q _ _ _ (by decide +kernel) (printAll [((2, [1, 0, 1, 0, 0, 2], [1, 1]), 1)]) [([1, 0, 1, 0, 0, 2], [1, 1], 1)] (by decide +kernel) ?_ ?_
  · have := C30_enum_in_round_trip [((2, [1, 0, 1, 0, 0, 2], [1, 1]), 1)] 2 (by intro p hp; rw [List.mem_singleton] at hp; subst hp; rfl)
      (by intro p hp; rw [List.mem_singleton] at hp; subst hp; rfl)
    simpa using this
  · intro sys hs
    rw [List.mem_singleton] at hs
    subst hs
    refine ⟨2, !![1, 0, 0; 0, 1, 0; 0, 0, 2], [1, 1], by norm_num, le_refl _, ?_, ?_, by simp, rfl, rfl⟩
    · rw [mem_findAllHNFs (by norm_num)]
      exact ⟨1, 0, 1, 0, 0, 2, by norm_num, by norm_num, by norm_num, by norm_num, rfl⟩
    · simp [hnfNumbers]

end Phenum
