import Verif.Props.ProgramSome
import Verif.Props.Filter
import Verif.Props.ProgramExamples
/-
C82: the command line program asked for some sizes only (`-sizes A B`) and for the shapes or compositions of a file (`-filter KIND FILE`).
-/
namespace Phenum
open Spec

/-- `enumeration.py -enum -super -lattice lattice` with `-distribution all N`, `-sizes A B` and `-filter KIND FILE`, each of which may be missing
(without a number, `-distribution all all` may be given or not). -/
structure SelectCall (a : Args) (lattice : Str) (number : Option ℕ) (sizes : Option (ℕ × ℕ)) (filter : Option (Str × Str)) : Prop where
  polya : a.polya = false
  enum : a.enum = true
  lattice : a.lattice = lattice
  input : a.input = none
  outfile : a.outfile = none
  distribution : (number = none ∧ (a.distribution = none ∨ a.distribution = some ["all".toList, "all".toList])) ∨
    ∃ n, number = some n ∧ a.distribution = some ["all".toList, natStr n]
  sizes : a.sizes = sizes.map (fun s => ((s.1 : ℤ), (s.2 : ℤ)))
  super : a.super = true
  accept : a.accept = none
  filter : a.filter = filter

/-- `-sizes A B` asks for the sizes from A to B - 1. -/
def Spec.SizeWanted (sizes : Option (ℕ × ℕ)) (n : ℕ) : Prop := ∀ s, sizes = some s → s.1 ≤ n ∧ n < s.2

/-- What the filter allows: `ok h c` means that the HNF `h` and the composition `c` are allowed. Without a filter everything is allowed. The file
is a distribution over shapes or over the compositions of two species, as written by an earlier run with `-savedist`. -/
def Spec.FilterMeans (d : Dir) (filter : Option (Str × Str)) (ok : List ℤ → Conc → Prop) : Prop :=
  (filter = none ∧ ∀ h c, ok h c) ∨
  (∃ file F, filter = some ("shape".toList, file) ∧ dictGet d file = some (shapeFile F) ∧ (∀ p ∈ F, p.2.1.length = 6) ∧ ∀ h c, ok h c ↔ ∃ p ∈ F, p.2.1 = h) ∨
  ∃ file F, filter = some ("conc".toList, file) ∧ dictGet d file = some (concFile F) ∧ (∀ p ∈ F, p.2.1.length = 2) ∧ ∀ h c, ok h c ↔ ∃ p ∈ F, p.2.1 = c

/-- The rows are those of the structures wanted, each once: of sizes between `lo` and `hi`, with a composition in `C`, that satisfy `want n h c`, `h` being the HNF of the supercell
among the supercells `U n` of polya.out. -/
structure Spec.ListsWanted (P : M3 ℝ) (bas : List V3) (lo hi : ℕ) (C : ℕ → List Conc) (aconcs : List ℚ) (U : ℕ → List (M3 ℤ)) (want : ℕ → List ℤ → Conc → Prop)
    (rows : List EnumEntry) : Prop where
  nodup : rows.Nodup
  valid : ∀ row ∈ rows, ∃ n, lo ≤ n ∧ n ≤ hi ∧ row.size = n ∧ ∃ c ∈ C n, want n row.hnf c ∧ ∃ ψ, RowDescribes P bas row ψ ∧
    PeriodicOn (CrystalSites (ColLattice P.transpose) bas) (rowLattice P row) ψ ∧
    HasContents (CrystalSites (ColLattice P.transpose) bas) (rowLattice P row) (bas.length * n) (Composed c aconcs 6) ψ
  complete : ∀ (n : ℕ) (M : M3 ℤ), lo ≤ n → n ≤ hi → M.det = n ∨ M.det = -n → ∀ χ,
    PeriodicOn (CrystalSites (ColLattice P.transpose) bas) (SupLat P M) χ → ∀ c ∈ C n,
    HasContents (CrystalSites (ColLattice P.transpose) bas) (SupLat P M) (bas.length * n) (Composed c aconcs 6) χ →
    (∀ u ∈ U n, (∃ R s, PSym (ColLattice P.transpose) bas R s ∧ R.mulVec '' SupLat P M = SupLat P u) → want n (hnfNumbers u) c) →
    ∃! row, row ∈ rows ∧ ∃ ψ, RowDescribes P bas row ψ ∧
      SameStructure (ColLattice P.transpose) bas (SupLat P M) χ (rowLattice P row) ψ

/-! ## the requests -/

theorem entries_restrict (tables : List PolyaTable) (res : Restrict) :
    entries res tables = (entries .none tables).filter (fun e => passes res e.2.1 e.2.2.1) := by
  unfold entries
  rw [List.filter_flatMap]
  congr 1
  funext t
  unfold tableEntries
  rw [List.filter_flatMap]
  congr 1
  funext r
  have hnone : ∀ l : List (Conc × ℕ), l.filter (fun p => passes .none r.1 p.1) = l := fun l => List.filter_eq_self.mpr (fun _ _ => rfl)
  rw [hnone, List.filter_map]
  rfl

section
variable {l : List ℤ} {U : ℕ → List (M3 ℤ)} {C : ℕ → List Conc} {cnt : ℕ → M3 ℤ → Conc → ℕ} {k : ℕ}

/-- what is selected of the tables -/
structure SelFacts (l : List ℤ) (U : ℕ → List (M3 ℤ)) (C : ℕ → List Conc) (cnt : ℕ → M3 ℤ → Conc → ℕ) (res : Restrict) (K' : List (ℕ × M3 ℤ × Conc)) : Prop where
  avail : ∀ x ∈ K', available .all (entries res (tablesOf l U C cnt)) (keyOf x) = cnt x.1 x.2.1 x.2.2
  keys : ∀ key, 0 < available .all (entries res (tablesOf l U C cnt)) key → ∃ x ∈ K', key = keyOf x
  total : grandTotal (entries res (tablesOf l U C cnt)) = (K'.map (fun x => cnt x.1 x.2.1 x.2.2)).sum

theorem sel_facts {K : List (ℕ × M3 ℤ × Conc)} (hF : TablesFacts l U C cnt K) (res : Restrict) :
    SelFacts l U C cnt res (K.filter (fun x => passes res (hnfNumbers x.2.1) x.2.2)) := by
  have hE : entries res (tablesOf l U C cnt) = (K.filter (fun x => passes res (hnfNumbers x.2.1) x.2.2)).map
      (fun x => (x.1, hnfNumbers x.2.1, x.2.2, cnt x.1 x.2.1 x.2.2)) := by
    rw [entries_restrict, hF.list, List.filter_map]
    rfl
  refine ⟨?_, ?_, ?_⟩
  · intro x hx
    obtain ⟨h1, h2⟩ := List.mem_filter.mp hx
    unfold keyOf
    rw [available_restrict, if_pos h2]
    exact hF.avail x h1
  · intro key hkey
    obtain ⟨e, he, hk, -⟩ := available_pos hkey
    rw [hE] at he
    obtain ⟨x, hx, rfl⟩ := List.mem_map.mp he
    exact ⟨x, hx, hk.symm⟩
  · unfold grandTotal
    rw [hE, List.map_map]
    rfl

/-- the requests for a number of structures -/
theorem requests_res {K K' : List (ℕ × M3 ℤ × Conc)} (hF : TablesFacts l U C cnt K) {res : Restrict} (hS : SelFacts l U C cnt res K') (hsub : ∀ x ∈ K', x ∈ K)
    (hk : ∀ x ∈ K, x.2.2.length = k) (hpos : ∀ x ∈ K, 1 ≤ cnt x.1 x.2.1 x.2.2) (n : ℕ) {draws : ℕ → ℚ} (hd : ∀ i, 0 ≤ draws i) :
    ∃ V : List ((ℕ × M3 ℤ × Conc) × ℕ), RequestsOk K' (fun x => cnt x.1 x.2.1 x.2.2) n V ∧
      ((∀ i, draws i < 1 ∧ ∀ x ∈ K', (n : ℚ) * cnt x.1 x.2.1 x.2.2 ≤ draws i * ((K'.map (fun x => cnt x.1 x.2.1 x.2.2)).sum : ℕ)) → V = []) ∧
      readEnum (printDist .all (distribute (tablesOf l U C cnt) res .all (some n) draws)) = .ok (V.map sysOfRequest) := by
  set E := entries res (tablesOf l U C cnt) with hE
  set D := distribute (tablesOf l U C cnt) res .all (some n) draws with hD
  have hkinj : ∀ x ∈ K, ∀ y ∈ K, keyOf x = keyOf y → x = y := by
    intro x hx y hy h
    unfold keyOf at h
    simp only [Prod.mk.injEq, Option.some.injEq] at h
    obtain ⟨h1, h2, h3⟩ := h
    have : x.2.1 = y.2.1 := by rw [← (hF.full x hx).1, h2, (hF.full y hy).1]
    exact Prod.ext h1 (Prod.ext this h3)
  have hav : ∀ x ∈ K', available .all E (keyOf x) = cnt x.1 x.2.1 x.2.2 := hS.avail
  have htot : grandTotal E = (K'.map (fun x => cnt x.1 x.2.1 x.2.2)).sum := hS.total
  have hres : Ftype.all = .shape → ∀ l, res ≠ .concs l := by intro h; cases h
  have hM : ∀ key M, (∀ x ∈ K', cnt x.1 x.2.1 x.2.2 ≤ M) → available .all E key ≤ M := by
    intro key M h
    rcases Nat.eq_zero_or_pos (available .all E key) with h0 | h0
    · omega
    · obtain ⟨x, hx, rfl⟩ := hS.keys key h0
      rw [hav x hx]
      exact h x hx
  have hfull := C33_full_distribution (tablesOf l U C cnt) res .all draws hF.ok hF.sizes hres
  have hDall : grandTotal E ≤ n → D = distribute (tablesOf l U C cnt) res .all none draws :=
    fun h => C34_ample (tablesOf l U C cnt) res .all draws hF.ok hF.sizes hres n h
  have hDsome := fun (h : n < grandTotal E) => C34_bounds (tablesOf l U C cnt) res .all draws hF.ok hF.sizes hres hd n h
  have hDgood : (D.map (·.1)).Nodup ∧ ∀ p ∈ D, 0 < p.2 ∧ 0 < available .all E p.1 := by
    rcases Nat.lt_or_ge n (grandTotal E) with h | h
    · obtain ⟨h1, h2, -⟩ := hDsome h (K'.map keyOf) (fun key hkey => by
        obtain ⟨x, hx, rfl⟩ := hS.keys key hkey
        exact List.mem_map_of_mem hx) _ (fun key => hM key _ (fun x hx => List.single_le_sum (by simp) _ (List.mem_map_of_mem hx)))
      exact ⟨h1, fun p hp => ⟨(h2 p hp).1, (h2 p hp).2.1⟩⟩
    · rw [hDall h]
      refine ⟨hfull.1, fun p hp => ?_⟩
      obtain ⟨e, hp0⟩ := (hfull.2.1 p.1 p.2).mp hp
      exact ⟨hp0, by rw [← hE] at e; rw [← e]; exact hp0⟩
  obtain ⟨V, hV, hVK0, hread⟩ := requests_ok hF hk (D := D) (fun p hp => by
    obtain ⟨x, hx, e⟩ := hS.keys _ (hDgood.2 p hp).2
    rw [e, hF.avail x (hsub x hx)]
    exact hpos x (hsub x hx))
  have hVK : ∀ x ∈ V, x.1 ∈ K' := by
    intro x hx
    have : (keyOf x.1, x.2) ∈ D := by rw [hV]; exact List.mem_map_of_mem (f := fun x => (keyOf x.1, x.2)) hx
    obtain ⟨y, hy, e⟩ := hS.keys _ (hDgood.2 _ this).2
    rw [hkinj x.1 (hVK0 x hx) y (hsub y hy) e]
    exact hy
  have hmemV : ∀ x ∈ K', ∀ v, (x, v) ∈ V ↔ (keyOf x, v) ∈ D := by
    intro x hx v
    rw [hV, List.mem_map]
    constructor
    · exact fun h => ⟨(x, v), h, rfl⟩
    · rintro ⟨y, hy, e⟩
      have e1 := hkinj _ (hVK0 y hy) _ (hsub x hx) (congrArg Prod.fst e)
      have e2 : y.2 = v := congrArg Prod.snd e
      have : y = (x, v) := Prod.ext e1 e2
      exact this ▸ hy
  have hsum : (V.map (·.2)).sum = (D.map (·.2)).sum := by
    rw [hV, List.map_map]; rfl
  refine ⟨V, ⟨?_, ?_, ?_, ?_, ?_, ?_, ?_⟩, ?_, hread⟩
  · have := hDgood.1
    rw [hV, List.map_map] at this
    have h2 : (V.map (·.1)).map keyOf = V.map ((fun x : DKey × ℕ => x.1) ∘ fun x => (keyOf x.1, x.2)) := by rw [List.map_map]; rfl
    rw [← h2] at this
    exact this.of_map
  · intro x hx
    refine ⟨hVK x hx, ?_⟩
    exact (hDgood.2 (keyOf x.1, x.2) ((hmemV x.1 (hVK x hx) x.2).mp hx)).1
  · intro hn x v
    rw [← htot] at hn
    constructor
    · intro h
      have hx := hVK _ h
      refine ⟨hx, ?_⟩
      have := (hmemV x hx v).mp h
      rw [hDall hn, hfull.2.1] at this
      rw [this.1]
      exact hav x hx
    · rintro ⟨hx, rfl⟩
      rw [hmemV x hx, hDall hn, hfull.2.1]
      exact ⟨(hav x hx).symm, hpos x (hsub x hx)⟩
  · intro hn x hx
    rw [← htot] at hn ⊢
    obtain ⟨-, h2, -⟩ := hDsome hn (K'.map keyOf) (fun key hkey => by
      obtain ⟨x, hx, rfl⟩ := hS.keys key hkey
      exact List.mem_map_of_mem hx) _ (fun key => hM key _ (fun x hx => List.single_le_sum (by simp) _ (List.mem_map_of_mem hx)))
    have := (h2 _ ((hmemV x.1 (hVK x hx) x.2).mp hx)).2.2
    rw [← hE, hav _ (hVK x hx)] at this
    exact this
  · intro hn
    rw [← htot] at hn
    obtain ⟨-, -, h3, -⟩ := hDsome hn (K'.map keyOf) (fun key hkey => by
      obtain ⟨x, hx, rfl⟩ := hS.keys key hkey
      exact List.mem_map_of_mem hx) _ (fun key => hM key _ (fun x hx => List.single_le_sum (by simp) _ (List.mem_map_of_mem hx)))
    rw [List.length_map] at h3
    rw [hsum]
    exact h3
  · intro hn M hMx
    rw [← htot] at hn ⊢
    obtain ⟨-, -, -, h4⟩ := hDsome hn (K'.map keyOf) (fun key hkey => by
      obtain ⟨x, hx, rfl⟩ := hS.keys key hkey
      exact List.mem_map_of_mem hx) M (fun key => hM key M hMx)
    rw [hsum]
    exact h4
  · intro hn0 hn hw
    rw [← htot] at hn hw ⊢
    obtain ⟨h1, -, -, h4⟩ := C34_whole_shares (tablesOf l U C cnt) res .all draws hF.ok hF.sizes hres hd n hn0 hn (by
      intro key
      rcases Nat.eq_zero_or_pos (available .all E key) with h0 | h0
      · rw [← hE, h0, Nat.mul_zero]; exact dvd_zero _
      · obtain ⟨x, hx, rfl⟩ := hS.keys key h0
        rw [← hE, hav x hx]
        exact hw x hx)
    refine ⟨?_, by rw [hsum]; exact h4⟩
    intro x v
    constructor
    · intro h
      have hx := hVK _ h
      have := ((h1 _ _).mp ((hmemV x hx v).mp h)).1
      rw [← hE, hav x hx] at this
      exact ⟨hx, this⟩
    · rintro ⟨hx, e⟩
      rw [hmemV x hx]
      refine (h1 _ _).mpr ⟨by rw [← hE, hav x hx]; exact e, ?_⟩
      rcases Nat.eq_zero_or_pos v with h0 | h0
      · subst h0
        have := Nat.mul_pos hn0 (hpos x (hsub x hx))
        omega
      · exact h0
  · intro hdr
    by_cases hKne : K' = []
    · rw [List.eq_nil_iff_forall_not_mem]
      intro x hx
      have := hVK x hx
      rw [hKne] at this
      simp at this
    rw [← htot] at hdr
    obtain ⟨r1, r2, r3, r4⟩ := relOk_tables (tablesOf l U C cnt) res .all hF.ok hF.sizes hres
    obtain ⟨x0, hx0⟩ := List.exists_mem_of_ne_nil _ hKne
    have hG0 : 0 < grandTotal E := by
      rw [htot]
      exact lt_of_lt_of_le (hpos x0 (hsub x0 hx0)) (List.single_le_sum (by simp) _ (List.mem_map_of_mem hx0))
    have hG0' : (0 : ℚ) < (grandTotal E : ℕ) := by exact_mod_cast hG0
    have hdr1 : ∀ i, ∀ key, (n : ℚ) * available .all E key ≤ draws i * (grandTotal E : ℕ) := by
      intro i key
      rcases Nat.eq_zero_or_pos (available .all E key) with h0 | h0
      · rw [h0, Nat.cast_zero, mul_zero]
        exact mul_nonneg (hd i) hG0'.le
      · obtain ⟨x, hx, rfl⟩ := hS.keys key h0
        rw [hav x hx]
        exact (hdr i).2 x hx
    have hsh : ∀ key i, share n (grandTotal E) (available .all E key) ≤ draws i := by
      intro key i
      unfold share
      rw [div_mul_eq_mul_div, div_le_iff₀ hG0', mul_comm]
      exact hdr1 i key
    have hnlt : n < grandTotal E := by
      by_contra hge
      have h1 := (hdr 0).2 x0 hx0
      have h2 := (hdr 0).1
      have h3 : ((grandTotal E : ℕ) : ℚ) ≤ n := by exact_mod_cast not_lt.mp hge
      have h4 : (1 : ℚ) ≤ cnt x0.1 x0.2.1 x0.2.2 := by exact_mod_cast hpos x0 (hsub x0 hx0)
      nlinarith
    have : D = [] := by
      rw [hD]
      unfold distribute
      simp only
      rw [if_neg (show ¬ n > (distSummary (tablesOf l U C cnt) res).2 by rw [r4]; exact not_lt.mpr hnlt.le), if_neg (by rw [r4]; exact hnlt.ne)]
      rw [recount_nothing]
      · intro p hp
        rw [r4]
        rw [r2 p ((sortShares_perm _ _ _).mem_iff.mp hp)]
        exact lt_of_le_of_lt (hsh _ 0) (hdr 0).1
      · intro p hp i
        rw [r4]
        rw [r2 p ((sortShares_perm _ _ _).mem_iff.mp hp)]
        exact hsh _ i
    rw [hV] at this
    exact List.map_eq_nil_iff.mp this

/-- the requests for all structures -/
theorem requests_all {K K' : List (ℕ × M3 ℤ × Conc)} (hF : TablesFacts l U C cnt K) {res : Restrict} (hS : SelFacts l U C cnt res K') (hsub : ∀ x ∈ K', x ∈ K)
    (hk : ∀ x ∈ K, x.2.2.length = k) (hpos : ∀ x ∈ K, 1 ≤ cnt x.1 x.2.1 x.2.2) (draws : ℕ → ℚ) :
    ∃ V : List ((ℕ × M3 ℤ × Conc) × ℕ), (V.map (·.1)).Nodup ∧ (∀ x v, (x, v) ∈ V ↔ x ∈ K' ∧ v = cnt x.1 x.2.1 x.2.2) ∧
      readEnum (printDist .all (distribute (tablesOf l U C cnt) res .all none draws)) = .ok (V.map sysOfRequest) := by
  have hres : Ftype.all = .shape → ∀ l, res ≠ .concs l := by intro h; cases h
  have e := C34_ample (tablesOf l U C cnt) res .all (fun _ => 0) hF.ok hF.sizes hres _ (le_refl _)
  have e' : distribute (tablesOf l U C cnt) res .all none draws = distribute (tablesOf l U C cnt) res .all none (fun _ => 0) := by
    unfold distribute; simp
  obtain ⟨V, h1, -, h2⟩ := requests_res hF hS hsub hk hpos (grandTotal (entries res (tablesOf l U C cnt))) (draws := fun _ => 0) (fun _ => le_refl _)
  exact ⟨V, h1.nodup, h1.all hS.total.ge, by rw [e', ← e]; exact h2⟩

end

/-! ## the structures wanted -/

/-- structures that are the same up to a symmetry have the same size and composition -/
theorem same_composition {Λ : Set V3} (hΛ : IsSub Λ) {bas : List V3} {L L' : Set V3} (hL : IsSub L) (hL' : IsSub L') (hsub : L' ⊆ Λ) {N N' : ℕ} (hN : 0 < N) {χ χ' : Decoration}
    (hper : PeriodicOn (CrystalSites Λ bas) L' χ') {c c' : Conc} {aconcs : List ℚ} (hlen : c.length = c'.length) (hs : SameStructure Λ bas L χ L' χ')
    (h : HasContents (CrystalSites Λ bas) L N (Composed c aconcs 6) χ) (h' : HasContents (CrystalSites Λ bas) L' N' (Composed c' aconcs 6) χ') : N = N' ∧ c = c' := by
  obtain ⟨R, s, hR, hRL, hx⟩ := hs
  obtain ⟨pos, z, hp, hd, hc⟩ := h
  obtain ⟨pos', z', hp', hd', hc'⟩ := h'
  have hmv := numbering_move hR hRL hp
  have hNN : N = N' := le_antisymm (numbering_card hL' hmv hp') (numbering_card hL' hp' hmv)
  refine ⟨hNN, ?_⟩
  subst hNN
  have hS : ∀ x ∈ CrystalSites Λ bas, ∀ t ∈ L', x + t ∈ CrystalSites Λ bas := by
    rintro x ⟨b, hb, hm⟩ t ht
    refine ⟨b, hb, ?_⟩
    have := hΛ.add _ hm _ (hsub ht)
    convert this using 1
    abel
  obtain ⟨q, hq, hcount⟩ := count_scale hL' hL' (subset_refl _) hS hmv hp'
  have hq1 : q = 1 := by
    rcases Nat.lt_trichotomy q 1 with h | h | h
    · have : q = 0 := by omega
      subst this; omega
    · exact h
    · nlinarith
  subst hq1
  apply List.ext_getElem hlen
  intro i h1 h2
  have e1 := composed_count_sites hL hp hd hc h1
  have e2 := composed_count_sites hL' hp' hd' hc' h2
  have e3 := hcount (fun x => (χ' x).1 = i + 1) (fun x hx t ht => by rw [hper x hx t ht])
  rw [one_mul, ← e2] at e3
  rw [← getD_lt h1, ← getD_lt h2, e1, ← e3]
  congr 1
  apply Finset.filter_congr
  intro k hk
  rw [Finset.mem_range] at hk
  rw [hx _ (hp.site k hk)]

/-- the superlattice of a row with the numbers of the HNF `u` -/
theorem rowLattice_of_hnf {P : M3 ℝ} {n : ℕ} (hn : 1 ≤ n) {u : M3 ℤ} (hu : u ∈ findAllHNFs n) {row : EnumEntry} (h : row.hnf = hnfNumbers u) : rowLattice P row = SupLat P u := by
  rw [← rowLattice_entry hn hu P ⟨0, 0, 0⟩ []]
  unfold rowLattice
  rw [h]
  rfl

/-- the rows of the requests for everything that is wanted -/
theorem lists_wanted {text : Str} {lat : LatticeIn} {P0 : Matrix (Fin 3) (Fin 3) ℚ} {b0 : List (Fin 3 → ℚ)} {lo hi k : ℕ} {T : Set ℚ}
    {C : ℕ → List Conc} (h : EnumInput text lat P0 b0 lo hi k T C) {tol : Tol} (ht : ExactTol P0 b0 hi tol)
    {U : ℕ → List (M3 ℤ)} {cnt : ℕ → M3 ℤ → Conc → ℕ} (hcnt : CountsAll tol lat P0 b0 lo hi C U cnt)
    {K : List (ℕ × M3 ℤ × Conc)} {V : List ((ℕ × M3 ℤ × Conc) × ℕ)} (hKm : ∀ n u c, (n, u, c) ∈ K ↔ lo ≤ n ∧ n ≤ hi ∧ u ∈ U n ∧ c ∈ C n)
    (hVm : ∀ x ∈ V, x.1 ∈ K) {want : ℕ → List ℤ → Conc → Prop} (hw : ∀ n u c v, ((n, u, c), v) ∈ V ↔ (n, u, c) ∈ K ∧ want n (hnfNumbers u) c ∧ v = cnt n u c)
    {rows full : List EnumEntry} (hr : RowsSome lat P0 b0 lo hi C cnt K V rows full)
    (hfull : ∀ row ∈ full, ∃ x ∈ K, row.size = (x.1 : ℤ) ∧ row.hnf = hnfNumbers x.2.1 ∧ ∃ ψ, RowDescribes (realMat P0) (realVecs b0) row ψ ∧
        PeriodicOn (CrystalSites (ColLattice (realMat P0).transpose) (realVecs b0)) (rowLattice (realMat P0) row) ψ ∧
        HasContents (CrystalSites (ColLattice (realMat P0).transpose) (realVecs b0)) (rowLattice (realMat P0) row) (b0.length * x.1) (Composed x.2.2 lat.arrowFractions 6) ψ)
    (hall : ∀ x ∈ V, x.2 = cnt x.1.1 x.1.2.1 x.1.2.2 → ∀ row ∈ full, row.size = (x.1.1 : ℤ) → row.hnf = hnfNumbers x.1.2.1 →
        (∃ ψ, RowDescribes (realMat P0) (realVecs b0) row ψ ∧
          HasContents (CrystalSites (ColLattice (realMat P0).transpose) (realVecs b0)) (rowLattice (realMat P0) row) (b0.length * x.1.1)
            (Composed x.1.2.2 lat.arrowFractions 6) ψ) → row ∈ rows) :
    ListsWanted (realMat P0) (realVecs b0) lo hi C lat.arrowFractions U want rows := by
  obtain ⟨r1, r2, r3, -, -, blocks, r6, r7⟩ := hr
  have hbl : (realVecs b0).length = b0.length := realVecs_length b0
  have hU : ∀ n, lo ≤ n → n ≤ hi → (∀ u ∈ U n, u ∈ findAllHNFs n) ∧
      (∀ M : M3 ℤ, M.det = n ∨ M.det = -n → ∃! u, u ∈ U n ∧ ∃ R s, PSym (ColLattice (realMat P0).transpose) (realVecs b0) R s ∧
        R.mulVec '' SupLat (realMat P0) M = SupLat (realMat P0) u) := by
    intro n a b
    obtain ⟨u1, u2, u3, -⟩ := hcnt n a b
    obtain ⟨U', v1, v2, v3, v4⟩ := hnf_calls_at h.cell n (le_trans h.lo_pos a) 3 (by norm_num) ht.hnf (by
      have : (n : ℝ) ≤ hi := by exact_mod_cast b
      nlinarith [ht.hnf.pos, ht.hnf_small])
    have e : U' = U n := Except.ok.inj (Option.some.inj (v1.symm.trans u1))
    subst e
    exact ⟨v3, v4⟩
  refine ⟨r1, ?_, ?_⟩
  · intro row hrow
    rw [r6, List.mem_flatten] at hrow
    obtain ⟨B, hB, hrow⟩ := hrow
    obtain ⟨i, hi', rfl⟩ := List.getElem_of_mem hB
    have hiV : i < V.length := by rw [r7.length_eq]; exact hi'
    have hx := (List.forall₂_iff_get.mp r7).2 i hiV hi'
    simp only [List.get_eq_getElem] at hx
    obtain ⟨-, hx⟩ := hx
    obtain ⟨x1, x2, ψ, x3, x4, x5⟩ := hx row hrow
    have hmem : V[i] ∈ V := List.getElem_mem hiV
    generalize V[i] = x at *
    obtain ⟨⟨n, u, c⟩, v⟩ := x
    obtain ⟨y1, y2, -⟩ := (hw n u c v).mp hmem
    obtain ⟨k1, k2, k3, k4⟩ := (hKm n u c).mp y1
    refine ⟨n, k1, k2, x1, c, k4, ?_, ψ, x3, x4, ?_⟩
    · rw [x2]; exact y2
    · rw [hbl]; exact x5
  · intro n M a b hM χ hper c hc hχ hwant'
    obtain ⟨u, ⟨hu, hequiv⟩, -⟩ := (hU n a b).2 M hM
    have hwant := hwant' u hu hequiv
    obtain ⟨row, ⟨h1, ψ, h2, h3⟩, hun⟩ := r3.complete n M a b hM χ hper c hc hχ
    refine ⟨row, ⟨?_, ψ, h2, h3⟩, fun y hy => hun y ⟨r2 y hy.1, hy.2⟩⟩
    obtain ⟨x, hx, x1, x2, ψ', x3, x4, x5⟩ := hfull row h1
    obtain ⟨k1, k2, k3, k4⟩ := (hKm x.1 x.2.1 x.2.2).mp hx
    have hrl := rowLattice_of_hnf (P := realMat P0) (le_trans h.lo_pos k1) ((hU _ k1 k2).1 _ k3) x2
    have e0 := row_describes_unique x3 h2
    have x5' : HasContents (CrystalSites (ColLattice (realMat P0).transpose) (realVecs b0)) (rowLattice (realMat P0) row) ((realVecs b0).length * x.1)
        (Composed x.2.2 lat.arrowFractions 6) ψ := by
      rw [hbl]; exact contents_congr x5 e0
    have hsite : ∀ z ∈ CrystalSites (ColLattice (realMat P0).transpose) (realVecs b0), ∀ t ∈ rowLattice (realMat P0) row,
        z + t ∈ CrystalSites (ColLattice (realMat P0).transpose) (realVecs b0) := by
      rintro z ⟨b, hb, hm⟩ t ht
      refine ⟨b, hb, ?_⟩
      have := (colLat_isSub (realMat P0).transpose).add _ hm _ (rowLattice_sub _ row ht)
      convert this using 1
      abel
    have hper' : PeriodicOn (CrystalSites (ColLattice (realMat P0).transpose) (realVecs b0)) (rowLattice (realMat P0) row) ψ := by
      intro z hz t ht
      rw [← e0 z hz, ← e0 _ (hsite z hz t ht)]
      exact x4 z hz t ht
    have hbpos : 0 < (realVecs b0).length := List.length_pos_iff.mpr h.cell.nonempty
    have hlat : IsSub (rowLattice (realMat P0) row) := by unfold rowLattice; exact colLat_isSub _
    obtain ⟨e1, e2⟩ := same_composition (colLat_isSub _) (colLat_isSub _) hlat (rowLattice_sub _ row) (Nat.mul_pos hbpos (by have := h.lo_pos; omega)) hper'
      (by rw [((h.concs n a b).2.2 c hc).1, ((h.concs _ k1 k2).2.2 _ k4).1]) h3 hχ x5'
    have e3 : n = x.1 := Nat.eq_of_mul_eq_mul_left hbpos e1
    have e4 : u = x.2.1 := by
      obtain ⟨R, s, hR, hRL, -⟩ := h3
      rw [hrl] at hRL
      exact ((hU n a b).2 M hM).unique ⟨hu, hequiv⟩ ⟨by rw [e3]; exact k3, R, s, hR, hRL⟩
    have exx : x = (n, u, c) := by rw [e3, e4, e2]
    subst exx
    have hv := (hw n u c (cnt n u c)).mpr ⟨hx, hwant, rfl⟩
    exact hall _ hv rfl row h1 x1 x2 ⟨ψ', x3, x5⟩

/-! ## the call -/

/-- the run of the program from the tables on -/
theorem select_run {w : World} {tol : Tol} {a : Args} {lattice text : Str} {number : Option ℕ} {sizes : Option (ℕ × ℕ)} {filter : Option (Str × Str)}
    (ha : SelectCall a lattice number sizes filter) {d d1 : Dir} (hd : FreshDir lattice text d) {lat : LatticeIn} (hlat : readLattice text = .ok lat)
    (hpolya : polyaOut tol lattice "polya.out".toList d = (pure d1 : Run _)) (hany : anyNumbered d1 "polya.out".toList = true) :
    scriptEnum w tol a d = (do
      let d2 ← runPy (makeEnumIn w "polya.out".toList "all".toList "enum.in".toList (number.map (fun n : ℕ => (n : ℤ)))
        (sizes.map (fun s => pyRange s.1 s.2)) a.savedist filter d1)
      let systems ← runPy (do let s ← readFile d2 "enum.in".toList; readEnum s)
      enumWrite w tol lat true false "enum.out".toList systems d2) := by
  have hnames : fileNames a = (some "enum.in".toList, some "enum.out".toList) := by
    unfold fileNames
    rcases ha.distribution with ⟨-, h | h⟩ | ⟨n, -, h⟩ <;> simp [ha.polya, ha.enum, ha.input, ha.outfile, h]
  have hcheck : checkArgs a d = .ok () := by
    unfold checkArgs
    rcases ha.distribution with ⟨-, h | h⟩ | ⟨n, -, h⟩ <;> simp [ha.polya, ha.accept, h]
  have hdist : a.distribution.getD ["all".toList, "all".toList] = ["all".toList, "all".toList] ∧ number = none ∨
      ∃ n, a.distribution.getD ["all".toList, "all".toList] = ["all".toList, natStr n] ∧ number = some n := by
    rcases ha.distribution with ⟨e, h | h⟩ | ⟨n, e, h⟩
    · left; rw [h]; exact ⟨rfl, e⟩
    · left; rw [h]; exact ⟨rfl, e⟩
    · right; refine ⟨n, ?_, e⟩; rw [h]; rfl
  have hin : enumIn w tol a "polya.out".toList "enum.in".toList (a.distribution.getD ["all".toList, "all".toList]) d1 =
      runPy (makeEnumIn w "polya.out".toList "all".toList "enum.in".toList (number.map (fun n : ℕ => (n : ℤ)))
        (sizes.map (fun s => pyRange s.1 s.2)) a.savedist filter d1) := by
    have hsz : a.sizes.map (fun s => pyRange s.1 s.2) = sizes.map (fun s => pyRange s.1 s.2) := by
      rw [ha.sizes, Option.map_map]; rfl
    unfold enumIn
    rw [hany, hsz, ha.filter]
    simp only [if_true, pure_bind]
    rcases hdist with ⟨h, rfl⟩ | ⟨n, h, rfl⟩
    · rw [h, show pyGet ["all".toList, "all".toList] 0 = .ok "all".toList from rfl, show pyGet ["all".toList, "all".toList] 1 = .ok "all".toList from rfl]
      simp only [runPy_ok, pure_bind]
      rw [show lowerStr "all".toList = "all".toList by decide, if_pos rfl, runPy_ok, pure_bind]
      rfl
    · rw [h, show pyGet ["all".toList, natStr n] 0 = .ok "all".toList from rfl, show pyGet ["all".toList, natStr n] 1 = .ok (natStr n) from rfl]
      simp only [runPy_ok, pure_bind]
      rw [if_neg (lower_natStr n), strip_word (natStr_word n), parseInt_natStr, show (Except.map some (Except.ok (n : ℤ)) : Py _) = .ok (some (n : ℤ)) from rfl,
        runPy_ok, pure_bind, show lowerStr "all".toList = "all".toList by decide]
      rfl
  have hout : enumOut w tol a "enum.in".toList "enum.out".toList d = (do
      let d2 ← runPy (makeEnumIn w "polya.out".toList "all".toList "enum.in".toList (number.map (fun n : ℕ => (n : ℤ)))
        (sizes.map (fun s => pyRange s.1 s.2)) a.savedist filter d1)
      let systems ← runPy (do let s ← readFile d2 "enum.in".toList; readEnum s)
      enumWrite w tol lat true false "enum.out".toList systems d2) := by
    unfold enumOut
    rw [ha.lattice]
    have e1 : (do let s ← readFile d lattice; readLattice s) = .ok lat := by
      unfold readFile
      rw [hd.text]
      exact hlat
    rw [e1, runPy_ok, pure_bind, hd.noEnumIn, like_of_numbered hd.noPolya]
    simp only [Option.isSome_none, Bool.false_eq_true, if_false]
    rw [hpolya, pure_bind, hin, ha.super, ha.accept]
    rfl
  unfold scriptEnum
  rw [hnames, hcheck]
  simp only [runPy_ok, pure_bind, ha.polya, ha.enum, Option.getD_some, if_true, Bool.false_eq_true, if_false, hout]
  simp

/-- the filter -/
theorem filter_means {d : Dir} {filter : Option (Str × Str)} {ok : List ℤ → Conc → Prop} (h : FilterMeans d filter ok) :
    ∃ res, readRestrict d filter = .ok res ∧ ∀ hnf c, passes res hnf c = true ↔ ok hnf c := by
  rcases h with ⟨rfl, h⟩ | ⟨file, F, rfl, h1, h2, h3⟩ | ⟨file, F, rfl, h1, h2, h3⟩
  · exact ⟨.none, rfl, fun hnf c => ⟨fun _ => h hnf c, fun _ => rfl⟩⟩
  · refine ⟨.shapes (F.map (·.2.1)), ?_, fun hnf c => ?_⟩
    · unfold readRestrict readFile
      simp only [h1]
      exact readFilter_shape F h2
    · rw [h3]
      simp only [passes, decide_eq_true_eq, List.mem_map]
  · refine ⟨.concs (F.map (fun p => p.2.1.take 2)), ?_, fun hnf c => ?_⟩
    · unfold readRestrict readFile
      simp only [h1]
      exact readFilter_conc F (fun p hp => (h2 p hp).ge)
    · rw [h3]
      simp only [passes, decide_eq_true_eq, List.mem_map]
      constructor
      · rintro ⟨p, hp, e⟩
        rw [List.take_of_length_le (h2 p hp).le] at e
        exact ⟨p, hp, e⟩
      · rintro ⟨p, hp, e⟩
        exact ⟨p, hp, by rw [List.take_of_length_le (h2 p hp).le]; exact e⟩

/-- the filter is not changed by files with other names -/
theorem restrict_kept {d d1 : Dir} {filter : Option (Str × Str)} {res : Restrict} (h : readRestrict d filter = .ok res)
    (he : ∀ f ∈ d.map (·.1), dictGet d1 f = dictGet d f) : readRestrict d1 filter = .ok res := by
  cases filter with
  | none => exact h
  | some p =>
    obtain ⟨kind, file⟩ := p
    have hm : file ∈ d.map (·.1) := by
      by_contra hn
      rw [← dictGet_none] at hn
      unfold readRestrict readFile at h
      simp only [hn] at h
      cases h
    unfold readRestrict readFile at h ⊢
    simp only [he file hm]
    exact h

/-- the distribution with sizes and a filter -/
theorem makeEnumIn_select {w : World} {d1 : Dir} {sizes : Option (List ℤ)} {l : List ℤ} {tables : List PolyaTable} {filter : Option (Str × Str)} {res : Restrict}
    (h1 : sizesUsed w d1 "polya.out".toList sizes = .ok l) (h2 : readTables d1 "polya.out".toList l = .ok tables) (h3 : readRestrict d1 filter = .ok res)
    {number : Option ℤ} (h4 : distributePy tables res .all (number.map Int.toNat) w.draws = .ok (distribute tables res .all (number.map Int.toNat) w.draws)) (save : Bool) :
    makeEnumIn w "polya.out".toList "all".toList "enum.in".toList number sizes save filter d1 = .ok (dictSet d1 "enum.in".toList
      (printDist .all (distribute tables res .all (number.map Int.toNat) w.draws))) := by
  unfold makeEnumIn
  simp only [h1, h2, h3, bind, Except.bind, show ftypeOf "all".toList = .ok .all from rfl, h4, true_or, if_true]

/-! ## the program -/

/-- The program asked for some sizes and shapes or compositions only (all structures or a number of them), in a directory with the file lattice.in and no results of earlier runs, whatever the
order of the directory listing and the random numbers. `K` lists all supercells with the compositions, `K'` those that are wanted; `V` are the requests, for all structures of each
entry of `K'` or for a number as in `RequestsOk`. If nothing is requested the program stops with a NameError. Otherwise it finishes with the files of `OutputSome`,
and if all structures are requested (or a number that is at least as large) enum.out lists the structures wanted, each once. -/
def Spec.RunSelects (tol : Tol) (text : Str) (lat : LatticeIn) (P0 : Matrix (Fin 3) (Fin 3) ℚ) (b0 : List (Fin 3 → ℚ)) (lo hi : ℕ) (C : ℕ → List Conc)
    (U : ℕ → List (M3 ℤ)) (cnt : ℕ → M3 ℤ → Conc → ℕ) : Prop :=
  ∀ (w : World) (a : Args) (lattice : Str) (d : Dir) (number : Option ℕ) (sizes : Option (ℕ × ℕ)) (filter : Option (Str × Str)) (ok : List ℤ → Conc → Prop),
      (∀ l, (w.listdir l).Perm l) → (∀ i l, ((w.rnd i).shuffle l).Perm l) → (∀ i, 0 ≤ w.draws i) →
      SelectCall a lattice number sizes filter → FreshDir lattice text d → FilterMeans d filter ok →
      (∀ s, sizes = some s → ∀ n, s.1 ≤ n → n < s.2 → lo ≤ n ∧ n ≤ hi) →
    ∃ (K K' : List (ℕ × M3 ℤ × Conc)) (V : List ((ℕ × M3 ℤ × Conc) × ℕ)),
      K.Nodup ∧ (∀ n u c, (n, u, c) ∈ K ↔ lo ≤ n ∧ n ≤ hi ∧ u ∈ U n ∧ c ∈ C n) ∧
      K'.Nodup ∧ (∀ n u c, (n, u, c) ∈ K' ↔ (n, u, c) ∈ K ∧ SizeWanted sizes n ∧ ok (hnfNumbers u) c) ∧
      (V.map (·.1)).Nodup ∧
      (number = none → ∀ x v, (x, v) ∈ V ↔ x ∈ K' ∧ v = cnt x.1 x.2.1 x.2.2) ∧
      (∀ m, number = some m → RequestsOk K' (fun x => cnt x.1 x.2.1 x.2.2) m V) ∧
      (V = [] → scriptEnum w tol a d = (throw .nameError : Run Dir)) ∧
      (V ≠ [] → ∃ (rows full : List EnumEntry) (d' : Dir), scriptEnum w tol a d = (pure d' : Run Dir) ∧
        OutputSome lat P0 b0 lo hi C U cnt w.now K V d rows full d' ∧
        ((∀ m, number = some m → (K'.map (fun x => cnt x.1 x.2.1 x.2.2)).sum ≤ m) →
          rows.length = (K'.map (fun x => cnt x.1 x.2.1 x.2.2)).sum ∧
          ListsWanted (realMat P0) (realVecs b0) lo hi C lat.arrowFractions U (fun n h c => SizeWanted sizes n ∧ ok h c) rows))

section
variable {text : Str} {lat : LatticeIn} {P0 : Matrix (Fin 3) (Fin 3) ℚ} {b0 : List (Fin 3 → ℚ)} {lo hi k : ℕ} {T : Set ℚ} {C : ℕ → List Conc} {tol : Tol}
  {U : ℕ → List (M3 ℤ)} {cnt : ℕ → M3 ℤ → Conc → ℕ}

/-- the tables of the sizes wanted -/
theorem select_tables (h : EnumInput text lat P0 b0 lo hi k T C) (ht : ExactTol P0 b0 hi tol) (t5 : tol.conc ∈ T)
    (hcnt : CountsAll tol lat P0 b0 lo hi C U cnt) (hfits : ∀ n, lo ≤ n → n ≤ hi → (countTable n (U n) (C n) (cnt n)).Fits) {w : World} (hw : ∀ l, (w.listdir l).Perm l)
    {lattice : Str} {d : Dir} (hd : FreshDir lattice text d) {sizes : Option (ℕ × ℕ)} (hsz : ∀ s, sizes = some s → ∀ n, s.1 ≤ n → n < s.2 → lo ≤ n ∧ n ≤ hi) :
    ∃ (l : List ℤ) (d1 : Dir) (K Kl : List (ℕ × M3 ℤ × Conc)), TablesFacts l U C cnt Kl ∧ K.Nodup ∧
      (∀ n u c, (n, u, c) ∈ K ↔ lo ≤ n ∧ n ≤ hi ∧ u ∈ U n ∧ c ∈ C n) ∧ (∀ n u c, (n, u, c) ∈ Kl ↔ (n, u, c) ∈ K ∧ SizeWanted sizes n) ∧
      (∀ x ∈ K, x.2.2.length = k) ∧ (∀ x ∈ K, 1 ≤ cnt x.1 x.2.1 x.2.2) ∧
      polyaOut tol lattice "polya.out".toList d = (pure d1 : Run _) ∧ anyNumbered d1 "polya.out".toList = true ∧
      sizesUsed w d1 "polya.out".toList (sizes.map (fun s => pyRange s.1 s.2)) = .ok l ∧ readTables d1 "polya.out".toList l = .ok (tablesOf l U C cnt) ∧
      (∀ n, lo ≤ n → n ≤ hi → dictGet d1 (polyaName n) = some (writePolya (countTable n (U n) (C n) (cnt n)))) ∧
      ∀ f, (∀ n, lo ≤ n → n ≤ hi → f ≠ polyaName n) → dictGet d1 f = dictGet d f := by
  obtain ⟨l', d1, K, hF, hKm, hk, hpos, hpolya, hany, ⟨hs1, hs2, -⟩, hd1t, hd1o⟩ := tables_some h ht t5 hcnt hfits hw hd
  cases sizes with
  | none =>
    refine ⟨l', d1, K, K, hF, hF.nodup, hKm, ?_, hk, hpos, hpolya, hany, hs1, hs2, hd1t, hd1o⟩
    intro n u c
    exact ⟨fun hx => ⟨hx, fun s hs => by cases hs⟩, fun hx => hx.1⟩
  | some s =>
    have hmem : ∀ z : ℤ, z ∈ pyRange s.1 s.2 → ∃ n : ℕ, z = n ∧ lo ≤ n ∧ n ≤ hi ∧ s.1 ≤ n ∧ n < s.2 := by
      intro z hz
      rw [mem_pyRange] at hz
      obtain ⟨n, rfl⟩ := Int.eq_ofNat_of_zero_le (show 0 ≤ z by omega)
      obtain ⟨h1, h2⟩ := hsz s rfl n (by omega) (by omega)
      exact ⟨n, rfl, h1, h2, by omega, by omega⟩
    obtain ⟨Kl, hFl⟩ := tables_facts (l := pyRange s.1 s.2) (U := U) (C := C) (cnt := cnt) (pyRange_nodup _ _) (by
        intro z hz
        obtain ⟨n, rfl, h1, -⟩ := hmem z hz
        have := h.lo_pos
        omega) (by
        intro z hz
        obtain ⟨n, rfl, h1, h2, -⟩ := hmem z hz
        rw [Int.toNat_natCast]
        obtain ⟨-, u2, u3, -⟩ := hcnt n h1 h2
        exact ⟨u2, u3⟩) (by
        intro z hz
        obtain ⟨n, rfl, h1, h2, -⟩ := hmem z hz
        exact (h.concs n h1 h2).2.1)
    refine ⟨pyRange s.1 s.2, d1, K, Kl, hFl, hF.nodup, hKm, ?_, hk, hpos, hpolya, hany, ?_, ?_, hd1t, hd1o⟩
    · intro n u c
      rw [hFl.mem, hKm, mem_pyRange]
      constructor
      · rintro ⟨⟨h1, h2⟩, h3, h4⟩
        obtain ⟨h5, h6⟩ := hsz s rfl n (by omega) (by omega)
        refine ⟨⟨h5, h6, h3, h4⟩, ?_⟩
        rintro _ ⟨⟩
        omega
      · rintro ⟨⟨h1, h2, h3, h4⟩, h5⟩
        have := h5 s rfl
        exact ⟨by omega, h3, h4⟩
    · unfold sizesUsed
      simp only [Option.map_some]
      rw [if_pos]
      rw [List.all_eq_true]
      intro z hz
      obtain ⟨n, rfl, h1, h2, -⟩ := hmem z hz
      rw [List.contains_iff_mem, (hw _).mem_iff]
      by_contra hn
      rw [← dictGet_none] at hn
      have := hd1t n h1 h2
      rw [show polyaName (n : ℤ) = "polya.out".toList ++ '.' :: intStr (n : ℤ) from rfl, hn] at this
      cases this
    · exact readTables_ok d1 (fun n => countTable n (U n) (C n) (cnt n)) _ (fun z hz => rfl) (by
        intro z hz
        obtain ⟨n, rfl, h1, h2, -⟩ := hmem z hz
        exact hfits n h1 h2) (by
        intro z hz
        obtain ⟨n, rfl, h1, h2, -⟩ := hmem z hz
        exact hd1t n h1 h2)

/-- At tolerances at which the searches are exact. -/
theorem selected_at (h : EnumInput text lat P0 b0 lo hi k T C) (ht : ExactTol P0 b0 hi tol) (t5 : tol.conc ∈ T)
    (hcnt : CountsAll tol lat P0 b0 lo hi C U cnt) (hfits : ∀ n, lo ≤ n → n ≤ hi → (countTable n (U n) (C n) (cnt n)).Fits)
    (hdel : ∀ n c, lo ≤ n → n ≤ hi → c ∈ C n → NoRandomSearch lat.arrowFractions c) : RunSelects tol text lat P0 b0 lo hi C U cnt := by
  intro w a lattice d number sizes filter ok hw hsh hdraws ha hd hfilter hsz
  obtain ⟨l, d1, K, Kl, hF, hKnd, hKm, hKl, hk, hpos, hpolya, hany, hs1, hs2, hd1t, hd1o⟩ := select_tables h ht t5 hcnt hfits hw hd hsz
  obtain ⟨res, hres, hpass⟩ := filter_means hfilter
  have hres1 : readRestrict d1 filter = .ok res := restrict_kept hres (by
    intro f hf
    apply hd1o
    rintro n - - rfl
    exact hd.noPolya _ hf (polyaName_like n))
  set K' := Kl.filter (fun x => passes res (hnfNumbers x.2.1) x.2.2) with hK'
  have hsubl : ∀ x ∈ Kl, x ∈ K := fun x hx => ((hKl x.1 x.2.1 x.2.2).mp hx).1
  have hsub : ∀ x ∈ K', x ∈ Kl := fun x hx => (List.mem_filter.mp hx).1
  have hS := sel_facts hF res
  rw [← hK'] at hS
  have hK'm : ∀ n u c, (n, u, c) ∈ K' ↔ (n, u, c) ∈ K ∧ SizeWanted sizes n ∧ ok (hnfNumbers u) c := by
    intro n u c
    rw [hK', List.mem_filter, hKl, hpass, and_assoc]
  have hreq : ∃ V : List ((ℕ × M3 ℤ × Conc) × ℕ), (V.map (·.1)).Nodup ∧ (∀ x ∈ V, x.1 ∈ K') ∧
      (number = none → ∀ x v, (x, v) ∈ V ↔ x ∈ K' ∧ v = cnt x.1 x.2.1 x.2.2) ∧
      (∀ m, number = some m → RequestsOk K' (fun x => cnt x.1 x.2.1 x.2.2) m V) ∧
      readEnum (printDist .all (distribute (tablesOf l U C cnt) res .all ((number.map (fun n : ℕ => (n : ℤ))).map Int.toNat) w.draws)) = .ok (V.map sysOfRequest) := by
    cases number with
    | none =>
      obtain ⟨V, v1, v2, v3⟩ := requests_all hF hS hsub (fun x hx => hk x (hsubl x hx)) (fun x hx => hpos x (hsubl x hx)) w.draws
      exact ⟨V, v1, fun x hx => ((v2 x.1 x.2).mp hx).1, fun _ => v2, fun m hm => (by cases hm), v3⟩
    | some m =>
      obtain ⟨V, v1, -, v3⟩ := requests_res hF hS hsub (fun x hx => hk x (hsubl x hx)) (fun x hx => hpos x (hsubl x hx)) m hdraws
      refine ⟨V, v1.nodup, fun x hx => (v1.mem x hx).1, fun hm => (by cases hm), fun m' hm => (by cases hm; exact v1), ?_⟩
      simpa using v3
  obtain ⟨V, hVnd, hVm, hVall, hVnum, hread⟩ := hreq
  have hpy : distributePy (tablesOf l U C cnt) res .all ((number.map (fun n : ℕ => (n : ℤ))).map Int.toNat) w.draws =
      .ok (distribute (tablesOf l U C cnt) res .all ((number.map (fun n : ℕ => (n : ℤ))).map Int.toNat) w.draws) := by
    apply distributePy_pos _ _ hF.ok hF.sizes
    intro e he
    rw [entries_restrict, hF.list] at he
    obtain ⟨x, hx, rfl⟩ := List.mem_map.mp (List.mem_filter.mp he).1
    exact hpos x (hsubl x hx)
  have hmake := makeEnumIn_select hs1 hs2 hres1 hpy a.savedist
  have hrun := select_run (w := w) ha hd h.read hpolya hany
  rw [hmake, runPy_ok, pure_bind] at hrun
  have e2 : readFile (dictSet d1 "enum.in".toList (printDist .all (distribute (tablesOf l U C cnt) res .all ((number.map (fun n : ℕ => (n : ℤ))).map Int.toNat) w.draws))) "enum.in".toList =
      .ok (printDist .all (distribute (tablesOf l U C cnt) res .all ((number.map (fun n : ℕ => (n : ℤ))).map Int.toNat) w.draws)) := by
    unfold readFile
    rw [dictGet_set, if_pos rfl]
  rw [e2] at hrun
  have e3 : ∀ s : Str, (do let s ← (Except.ok s : Py Str); readEnum s) = readEnum s := fun _ => rfl
  rw [e3, hread, runPy_ok, pure_bind] at hrun
  refine ⟨K, K', V, hKnd, hKm, hF.nodup.filter _, hK'm, hVnd, hVall, hVnum, ?_, ?_⟩
  · intro hV0
    rw [hrun, hV0]
    unfold enumWrite
    rw [h.geometry, runPy_ok, pure_bind]
    simp [enumLoop]
  intro hV0
  obtain ⟨rows, full, h1, h2, h3, h4⟩ := loop_some_all h ht hcnt hdel hsh hKnd hKm hVnd (fun x hx => hsubl _ (hsub _ (hVm x hx)))
  refine ⟨rows, full, _, ?_, output_some h2 hread hd1t hd1o, ?_⟩
  · rw [hrun]
    unfold enumWrite
    rw [h.geometry, runPy_ok, pure_bind, h1, pure_bind, if_neg (by simpa using hV0)]
  intro hnum
  have hVall' : ∀ x v, (x, v) ∈ V ↔ x ∈ K' ∧ v = cnt x.1 x.2.1 x.2.2 := by
    cases number with
    | none => exact hVall rfl
    | some m => exact (hVnum m rfl).all (hnum m rfl)
  constructor
  · obtain ⟨-, -, -, -, r5, -⟩ := id h2
    rw [r5]
    have hperm : V.Perm (K'.map (fun x => (x, cnt x.1 x.2.1 x.2.2))) := by
      refine (List.perm_ext_iff_of_nodup hVnd.of_map ((hF.nodup.filter _).map (fun x y h => (Prod.mk.inj h).1))).mpr ?_
      rintro ⟨x, v⟩
      rw [hVall', List.mem_map]
      constructor
      · rintro ⟨h1, rfl⟩; exact ⟨x, h1, rfl⟩
      · rintro ⟨y, h1, e⟩
        obtain ⟨rfl, rfl⟩ := Prod.mk.inj e
        exact ⟨h1, rfl⟩
    rw [(hperm.map _).sum_eq, List.map_map]
    congr 1
    apply List.map_congr_left
    intro x _
    exact delivered_all _
  · refine lists_wanted h ht hcnt hKm (fun x hx => hsubl _ (hsub _ (hVm x hx))) ?_ h2 h3 h4
    intro n u c v
    rw [hVall', hK'm]
    simp only
    tauto

/-- C82. The program asked for some sizes, shapes or compositions. For every sufficiently small tolerance, with the supercells and numbers that the routines return: if the
numbers fit into the columns of polya.out and no structures have to be searched for at random, a run is as described in `RunSelects`. -/
theorem C82_selected (h : EnumInput text lat P0 b0 lo hi k T C) (hdel : ∀ n c, lo ≤ n → n ≤ hi → c ∈ C n → NoRandomSearch lat.arrowFractions c) :
    ∃ e > 0, ∀ tol : Tol, 0 < tol.hnf → tol.hnf < e → 0 < tol.sym → tol.sym < e → tol.conc ∈ T →
      ∃ (U : ℕ → List (M3 ℤ)) (cnt : ℕ → M3 ℤ → Conc → ℕ),
        CountsAll tol lat P0 b0 lo hi C U cnt ∧
        ((∀ n, lo ≤ n → n ≤ hi → (countTable n (U n) (C n) (cnt n)).Fits) → RunSelects tol text lat P0 b0 lo hi C U cnt) :=
  small_tol h.cell.det h.cell.nonempty hi (fun _ ht t5 => by
    obtain ⟨U, cnt, hcnt, -⟩ := every_structure_once_at h ht t5
    exact ⟨U, cnt, hcnt, fun hf => selected_at h ht t5 hcnt hf hdel⟩)

theorem selects_small (h : EnumInput text lat P0 b0 lo hi k T C) (hsize : b0.length * hi ≤ 20)
    (harr : lat.arrowFractions.sum = 0 ∨ b0.length * hi < 12) (hN : k ^ (b0.length * hi) ≤ 100000) (ht : ExactTol P0 b0 hi tol) (t5 : tol.conc ∈ T) :
    ∃ (U : ℕ → List (M3 ℤ)) (cnt : ℕ → M3 ℤ → Conc → ℕ), CountsAll tol lat P0 b0 lo hi C U cnt ∧ RunSelects tol text lat P0 b0 lo hi C U cnt := by
  obtain ⟨U, cnt, hcnt, -⟩ := every_structure_once_at h ht t5
  obtain ⟨h1, -⟩ := small_ok h hsize harr hcnt
  refine ⟨U, cnt, hcnt, selected_at h ht t5 hcnt h1 (fun n c a b hc => ?_)⟩
  obtain ⟨c1, c2⟩ := (h.concs n a b).2.2 c hc
  exact no_random_search h.fractions.2 (by have := h.species.1; omega) c1 (by rw [c2]; exact Nat.mul_le_mul_left _ b) hN harr

end

section
variable {text : Str} {lat : LatticeIn} {P0 : Matrix (Fin 3) (Fin 3) ℚ} {b0 : List (Fin 3 → ℚ)} {lo hi k : ℕ}

/-- C82. With the tolerances of the code, without restrictions: `k` species and at most `N` atoms per supercell with `k^N` at most 100000. -/
theorem C82_free (h : CrystalInput text lat P0 b0 lo hi k) (hfree : lat.restricted = false) (hsize : b0.length * hi ≤ 20) (hN : k ^ (b0.length * hi) ≤ 100000)
    {K K' : ℝ} {g D : ℕ} (hc : Coarse (realMat P0) (realVecs b0) K K' g D (1 / 10 ^ 7)) :
    ∃ (U : ℕ → List (M3 ℤ)) (cnt : ℕ → M3 ℤ → Conc → ℕ), CountsAll shippedTol lat P0 b0 lo hi (fun n => concsFree n k b0.length) U cnt ∧
      RunSelects shippedTol text lat P0 b0 lo hi (fun n => concsFree n k b0.length) U cnt := by
  have hal : lat.arrowFractions = List.replicate lat.nspecies.toNat 0 := by
    unfold LatticeIn.arrowFractions getArrowConcs
    rw [hfree]; rfl
  exact selects_small (free_input h hfree (lt_of_le_of_lt (size_hi h hsize) (by norm_num))) hsize (Or.inl (by rw [hal]; simp)) hN
    (coarse_exact h.cell.det hc (size_hi h hsize)) (Set.mem_univ _)

/-- C82. With the tolerances of the code, ranges of concentrations and displaced atoms. -/
theorem C82_ranges {rows : List ConcRange} {d : ℤ} (h : CrystalInput text lat P0 b0 lo hi k) (hr : RangesInput lat k rows d)
    (hsize : b0.length * hi ≤ 20) (harr : lat.arrowFractions.sum = 0 ∨ b0.length * hi < 12) (hN : k ^ (b0.length * hi) ≤ 100000)
    (hne : ∃ n c, lo ≤ n ∧ n ≤ hi ∧ InConcRanges rows (b0.length * n) c) (hd : d ≤ 10 ^ 8)
    {K K' : ℝ} {g D : ℕ} (hc : Coarse (realMat P0) (realVecs b0) K K' g D (1 / 10 ^ 7)) :
    ∃ (C : ℕ → List Conc), (∀ n, lo ≤ n → n ≤ hi → (C n).Nodup ∧ ∀ c, c ∈ C n ↔ InConcRanges rows (b0.length * n) c) ∧
      ∃ (U : ℕ → List (M3 ℤ)) (cnt : ℕ → M3 ℤ → Conc → ℕ), CountsAll shippedTol lat P0 b0 lo hi C U cnt ∧
        RunSelects shippedTol text lat P0 b0 lo hi C U cnt := by
  have hd' : (d : ℚ) ≤ 10 ^ 8 := by exact_mod_cast hd
  obtain ⟨C, h1, h2⟩ := ranges_enum h hr hsize hne (t := 1 / 10 ^ 10) (by norm_num) (by linarith)
  exact ⟨C, h1, selects_small h2 hsize harr hN (coarse_exact h.cell.det hc (size_hi h hsize)) rfl⟩

end

/-! ## consequences -/

section
variable {text : Str} {lat : LatticeIn} {P0 : Matrix (Fin 3) (Fin 3) ℚ} {b0 : List (Fin 3 → ℚ)} {lo hi k : ℕ} {tol : Tol} {C : ℕ → List Conc}
  {U : ℕ → List (M3 ℤ)} {cnt : ℕ → M3 ℤ → Conc → ℕ} {w : World} {a : Args} {lattice : Str} {d : Dir}

/-- the run when something is wanted and no number is given -/
theorem select_all (hrun : RunSelects tol text lat P0 b0 lo hi C U cnt) (hw : ∀ l, (w.listdir l).Perm l) (hsh : ∀ i l, ((w.rnd i).shuffle l).Perm l)
    (hdr : ∀ i, 0 ≤ w.draws i) {sizes : Option (ℕ × ℕ)} {filter : Option (Str × Str)} (ha : SelectCall a lattice none sizes filter) (hd : FreshDir lattice text d)
    {ok : List ℤ → Conc → Prop} (hf : FilterMeans d filter ok) (hsz : ∀ s, sizes = some s → ∀ n, s.1 ≤ n → n < s.2 → lo ≤ n ∧ n ≤ hi)
    (hne : ∃ n u c, lo ≤ n ∧ n ≤ hi ∧ u ∈ U n ∧ c ∈ C n ∧ SizeWanted sizes n ∧ ok (hnfNumbers u) c) :
    ∃ (rows : List EnumEntry) (d' : Dir), scriptEnum w tol a d = (pure d' : Run Dir) ∧
      dictGet d' "enum.out".toList = some (enumOutFile (lat.enumParams (P0, b0)) w.now rows) ∧
      ListsWanted (realMat P0) (realVecs b0) lo hi C lat.arrowFractions U (fun n h c => SizeWanted sizes n ∧ ok h c) rows := by
  obtain ⟨K, K', V, k1, k2, k3, k4, k5, k6, -, -, k9⟩ := hrun w a lattice d none sizes filter ok hw hsh hdr ha hd hf hsz
  obtain ⟨n, u, c, h1, h2, h3, h4, h5, h6⟩ := hne
  have hV : V ≠ [] := List.ne_nil_of_mem ((k6 rfl (n, u, c) _).mpr ⟨(k4 n u c).mpr ⟨(k2 n u c).mpr ⟨h1, h2, h3, h4⟩, h5, h6⟩, rfl⟩)
  obtain ⟨rows, full, d', r1, r2, r3⟩ := k9 hV
  exact ⟨rows, d', r1, r2.1, (r3 (fun m hm => by cases hm)).2⟩

/-- C82. `-sizes A B` without a filter: enum.out lists all structures of the sizes from A to B - 1, each once, and no others. -/
theorem C82_sizes (hrun : RunSelects tol text lat P0 b0 lo hi C U cnt) (hw : ∀ l, (w.listdir l).Perm l) (hsh : ∀ i l, ((w.rnd i).shuffle l).Perm l)
    (hdr : ∀ i, 0 ≤ w.draws i) {A B : ℕ} (ha : SelectCall a lattice none (some (A, B)) none) (hd : FreshDir lattice text d) (hA : lo ≤ A) (hB : B ≤ hi + 1)
    (hne : ∃ n u c, A ≤ n ∧ n < B ∧ u ∈ U n ∧ c ∈ C n) :
    ∃ (rows : List EnumEntry) (d' : Dir), scriptEnum w tol a d = (pure d' : Run Dir) ∧
      dictGet d' "enum.out".toList = some (enumOutFile (lat.enumParams (P0, b0)) w.now rows) ∧
      ListsAll (realMat P0) (realVecs b0) A (B - 1) C lat.arrowFractions rows := by
  have hsw : ∀ n, SizeWanted (some (A, B)) n ↔ A ≤ n ∧ n < B := fun n => ⟨fun h => h _ rfl, fun h s hs => by cases hs; exact h⟩
  obtain ⟨n, u, c, h1, h2, h3, h4⟩ := hne
  obtain ⟨rows, d', r1, r2, r3, r4, r5⟩ := select_all hrun hw hsh hdr ha hd (ok := fun _ _ => True) (Or.inl ⟨rfl, fun _ _ => trivial⟩)
    (by rintro _ ⟨⟩ m m1 m2; simp only at m1 m2; omega) ⟨n, u, c, by omega, by omega, h3, h4, (hsw n).mpr ⟨h1, h2⟩, trivial⟩
  refine ⟨rows, d', r1, r2, r3, ?_, ?_⟩
  · intro row hrow
    obtain ⟨m, -, -, m3, c, hc, ⟨m4, -⟩, ψ⟩ := r4 row hrow
    have := (hsw m).mp m4
    exact ⟨m, this.1, by omega, m3, c, hc, ψ⟩
  · intro m M m1 m2 hM χ hper c hc hχ
    rcases Nat.eq_zero_or_pos B with h0 | h0
    · omega
    exact r5 m M (by omega) (by omega) hM χ hper c hc hχ (fun u _ _ => ⟨(hsw m).mpr ⟨m1, by omega⟩, trivial⟩)

/-- C82. `-filter conc FILE`, the file being a distribution over the compositions of two species: enum.out lists all structures of the compositions in the file, each
once, and no others. -/
theorem C82_compositions (hrun : RunSelects tol text lat P0 b0 lo hi C U cnt) (hw : ∀ l, (w.listdir l).Perm l) (hsh : ∀ i l, ((w.rnd i).shuffle l).Perm l)
    (hdr : ∀ i, 0 ≤ w.draws i) {file : Str} (ha : SelectCall a lattice none none (some ("conc".toList, file))) (hd : FreshDir lattice text d)
    {F : List (ℕ × Conc × ℕ)} (hF : dictGet d file = some (concFile F)) (h2 : ∀ p ∈ F, p.2.1.length = 2)
    (hne : ∃ n u c, lo ≤ n ∧ n ≤ hi ∧ u ∈ U n ∧ c ∈ C n ∧ c ∈ F.map (·.2.1)) :
    ∃ (rows : List EnumEntry) (d' : Dir), scriptEnum w tol a d = (pure d' : Run Dir) ∧
      dictGet d' "enum.out".toList = some (enumOutFile (lat.enumParams (P0, b0)) w.now rows) ∧
      ListsAll (realMat P0) (realVecs b0) lo hi (fun n => (C n).filter (fun c => decide (c ∈ F.map (·.2.1)))) lat.arrowFractions rows := by
  have hsw : ∀ n, SizeWanted none n := fun n s hs => by cases hs
  obtain ⟨n, u, c, h1, h3, h4, h5, h6⟩ := hne
  obtain ⟨rows, d', r1, r2, r3, r4, r5⟩ := select_all hrun hw hsh hdr ha hd (ok := fun _ c => ∃ p ∈ F, p.2.1 = c)
    (Or.inr (Or.inr ⟨file, F, rfl, hF, h2, fun _ _ => Iff.rfl⟩)) (by intro s hs; cases hs) ⟨n, u, c, h1, h3, h4, h5, hsw n, by simpa using h6⟩
  refine ⟨rows, d', r1, r2, r3, ?_, ?_⟩
  · intro row hrow
    obtain ⟨m, m1, m2, m3, c, hc, ⟨-, m4⟩, ψ⟩ := r4 row hrow
    exact ⟨m, m1, m2, m3, c, List.mem_filter.mpr ⟨hc, by simpa using m4⟩, ψ⟩
  · intro m M m1 m2 hM χ hper c hc hχ
    obtain ⟨hc1, hc2⟩ := List.mem_filter.mp hc
    exact r5 m M m1 m2 hM χ hper c hc1 hχ (fun u _ _ => ⟨hsw m, by simpa using hc2⟩)

/-- C82. `-filter shape FILE`, the file being a distribution over shapes: the rows of enum.out have HNFs that are in the file, and every structure whose supercell is
represented in polya.out by an HNF in the file is listed once. -/
theorem C82_shapes (hrun : RunSelects tol text lat P0 b0 lo hi C U cnt) (hw : ∀ l, (w.listdir l).Perm l) (hsh : ∀ i l, ((w.rnd i).shuffle l).Perm l)
    (hdr : ∀ i, 0 ≤ w.draws i) {file : Str} (ha : SelectCall a lattice none none (some ("shape".toList, file))) (hd : FreshDir lattice text d)
    {F : List (ℕ × HNF6 × ℕ)} (hF : dictGet d file = some (shapeFile F)) (h6 : ∀ p ∈ F, p.2.1.length = 6)
    (hne : ∃ n u c, lo ≤ n ∧ n ≤ hi ∧ u ∈ U n ∧ c ∈ C n ∧ hnfNumbers u ∈ F.map (·.2.1)) :
    ∃ (rows : List EnumEntry) (d' : Dir), scriptEnum w tol a d = (pure d' : Run Dir) ∧
      dictGet d' "enum.out".toList = some (enumOutFile (lat.enumParams (P0, b0)) w.now rows) ∧
      ListsWanted (realMat P0) (realVecs b0) lo hi C lat.arrowFractions U (fun _ h _ => h ∈ F.map (·.2.1)) rows := by
  have hsw : ∀ n, SizeWanted none n := fun n s hs => by cases hs
  obtain ⟨n, u, c, h1, h3, h4, h5, h6'⟩ := hne
  obtain ⟨rows, d', r1, r2, r3, r4, r5⟩ := select_all hrun hw hsh hdr ha hd (ok := fun h _ => ∃ p ∈ F, p.2.1 = h)
    (Or.inr (Or.inl ⟨file, F, rfl, hF, h6, fun _ _ => Iff.rfl⟩)) (by intro s hs; cases hs) ⟨n, u, c, h1, h3, h4, h5, hsw n, by simpa using h6'⟩
  refine ⟨rows, d', r1, r2, r3, ?_, ?_⟩
  · intro row hrow
    obtain ⟨m, m1, m2, m3, c, hc, ⟨-, m4⟩, ψ⟩ := r4 row hrow
    exact ⟨m, m1, m2, m3, c, hc, by simpa using m4, ψ⟩
  · intro m M m1 m2 hM χ hper c hc hχ hu
    exact r5 m M m1 m2 hM χ hper c hc hχ (fun u h1 h2 => ⟨hsw m, by simpa using hu u h1 h2⟩)

/-- C82. If nothing in polya.out is of the sizes, shapes and compositions wanted the program stops with a NameError. -/
theorem C82_nothing (hrun : RunSelects tol text lat P0 b0 lo hi C U cnt) (hw : ∀ l, (w.listdir l).Perm l) (hsh : ∀ i l, ((w.rnd i).shuffle l).Perm l)
    (hdr : ∀ i, 0 ≤ w.draws i) {number : Option ℕ} {sizes : Option (ℕ × ℕ)} {filter : Option (Str × Str)} (ha : SelectCall a lattice number sizes filter)
    (hd : FreshDir lattice text d) {ok : List ℤ → Conc → Prop} (hf : FilterMeans d filter ok)
    (hsz : ∀ s, sizes = some s → ∀ n, s.1 ≤ n → n < s.2 → lo ≤ n ∧ n ≤ hi)
    (hno : ∀ n u c, lo ≤ n → n ≤ hi → u ∈ U n → c ∈ C n → SizeWanted sizes n → ¬ ok (hnfNumbers u) c) :
    scriptEnum w tol a d = (throw .nameError : Run Dir) := by
  obtain ⟨K, K', V, k1, k2, k3, k4, k5, k6, k7, k8, -⟩ := hrun w a lattice d number sizes filter ok hw hsh hdr ha hd hf hsz
  apply k8
  rw [List.eq_nil_iff_forall_not_mem]
  rintro ⟨⟨n, u, c⟩, v⟩ hx
  have hK : (n, u, c) ∈ K' := by
    cases number with
    | none => exact ((k6 rfl _ _).mp hx).1
    | some m => exact ((k7 m rfl).mem _ hx).1
  obtain ⟨h1, h2, h3⟩ := (k4 n u c).mp hK
  obtain ⟨h4, h5, h6, h7⟩ := (k2 n u c).mp h1
  exact hno n u c h4 h5 h6 h7 h2 h3

end

/-- C82. `-sizes A B` with a size for which lattice.in does not ask: the program stops with a ValueError, whatever the filter. -/
theorem C82_missing_size {text : Str} {lat : LatticeIn} {P0 : Matrix (Fin 3) (Fin 3) ℚ} {b0 : List (Fin 3 → ℚ)} {lo hi k : ℕ} {T : Set ℚ} {C : ℕ → List Conc} {tol : Tol}
    {U : ℕ → List (M3 ℤ)} {cnt : ℕ → M3 ℤ → Conc → ℕ} (h : EnumInput text lat P0 b0 lo hi k T C) (ht : ExactTol P0 b0 hi tol) (t5 : tol.conc ∈ T)
    (hcnt : CountsAll tol lat P0 b0 lo hi C U cnt) (hfits : ∀ n, lo ≤ n → n ≤ hi → (countTable n (U n) (C n) (cnt n)).Fits) {w : World} (hw : ∀ l, (w.listdir l).Perm l)
    {a : Args} {lattice : Str} {d : Dir} (hd : FreshDir lattice text d) {number : Option ℕ} {A B : ℕ} {filter : Option (Str × Str)}
    (ha : SelectCall a lattice number (some (A, B)) filter) {n : ℕ} (hn1 : A ≤ n) (hn2 : n < B) (hn3 : n < lo ∨ hi < n) :
    scriptEnum w tol a d = (throw .valueError : Run Dir) := by
  obtain ⟨l', d1, K, hF, hKm, hk, hpos, hpolya, hany, -, hd1t, hd1o⟩ := tables_some h ht t5 hcnt hfits hw hd
  have hrun := select_run (w := w) ha hd h.read hpolya hany
  have hnot : dictGet d1 (polyaName (n : ℤ)) = none := by
    rw [hd1o _ (by
      rintro m m1 m2 e
      have := polyaName_inj e
      omega)]
    rw [dictGet_none]
    intro hm
    exact hd.noPolya _ hm (polyaName_like n)
  have hsu : sizesUsed w d1 "polya.out".toList (some (pyRange A B)) = .error .valueError := by
    unfold sizesUsed
    simp only
    rw [if_neg]
    intro hall
    rw [List.all_eq_true] at hall
    have := hall (n : ℤ) (mem_pyRange.mpr ⟨by omega, by omega⟩)
    rw [List.contains_iff_mem, (hw _).mem_iff] at this
    exact (dictGet_none.mp hnot) this
  have hmake : makeEnumIn w "polya.out".toList "all".toList "enum.in".toList (number.map (fun n : ℕ => (n : ℤ)))
        ((some (A, B)).map (fun s : ℕ × ℕ => pyRange s.1 s.2)) a.savedist filter d1 = .error .valueError := by
    unfold makeEnumIn
    simp only [Option.map_some, hsu, bind, Except.bind]
  rw [hrun, hmake]
  rfl

/-! ## examples -/

/-- C82 for the simple cubic file of the examples (sizes 1 and 2, two species), at the tolerances of the code. -/
theorem sc_select : ∃ (U : ℕ → List (M3 ℤ)) (cnt : ℕ → M3 ℤ → Conc → ℕ),
    CountsAll shippedTol scLat (Matrix.of ![![1, 0, 0], ![0, 1, 0], ![0, 0, 1]]) [![0, 0, 0]] 1 2 (fun n => concsFree n 2 1) U cnt ∧
    RunSelects shippedTol scText scLat (Matrix.of ![![1, 0, 0], ![0, 1, 0], ![0, 0, 1]]) [![0, 0, 0]] 1 2 (fun n => concsFree n 2 1) U cnt :=
  C82_free sc_crystal rfl (by simp) (by simp) (decimal_coarse sc_decimal)

/-- the calls of the examples -/
def selectArgs (sizes : Option (ℕ × ℕ)) (filter : Option (Str × Str)) : Args :=
  ⟨false, true, "lattice.in".toList, none, none, none, sizes.map (fun s => ((s.1 : ℤ), (s.2 : ℤ))), true, none, false, filter⟩

theorem selectArgs_call (sizes : Option (ℕ × ℕ)) (filter : Option (Str × Str)) : SelectCall (selectArgs sizes filter) "lattice.in".toList none sizes filter :=
  ⟨rfl, rfl, rfl, rfl, rfl, Or.inl ⟨rfl, Or.inl rfl⟩, rfl, rfl, rfl, rfl⟩

/-- the directory of the examples with a file to filter by -/
def selectDir (file : Str) : Dir := scDir ++ [("wanted.in".toList, file)]

theorem selectDir_call (file : Str) : FreshDir "lattice.in".toList scText (selectDir file) := by
  have hnames : (selectDir file).map (·.1) = ["notes.txt".toList, "lattice.in".toList, "wanted.in".toList] := rfl
  refine ⟨rfl, ?_, ?_⟩
  · have : ∀ f ∈ ["notes.txt".toList, "lattice.in".toList, "wanted.in".toList], ¬ f.head? = some 'p' := by decide +kernel
    intro f hf h
    rw [hnames] at hf
    exact this f hf h.2
  · rw [dictGet_none, hnames]
    decide +kernel

theorem half_mem : [1, 1] ∈ concsFree 2 2 1 := by rw [(C25_concs_complete 2 2 1).2]; decide

/-- C82: `-sizes 2 3` lists all structures with two cells, and `-sizes 2 4` stops with a ValueError. -/
example : (∃ (rows : List EnumEntry) (d' : Dir), scriptEnum scWorld shippedTol (selectArgs (some (2, 3)) none) scDir = (pure d' : Run Dir) ∧
      dictGet d' "enum.out".toList = some (enumOutFile (scLat.enumParams (Matrix.of ![![1, 0, 0], ![0, 1, 0], ![0, 0, 1]], [![0, 0, 0]])) scWorld.now rows) ∧
      ListsAll 1 [0] 2 2 (fun n => concsFree n 2 1) scLat.arrowFractions rows) ∧
    scriptEnum scWorld shippedTol (selectArgs (some (2, 4)) none) scDir = (throw .valueError : Run Dir) := by
  obtain ⟨U, cnt, h1, h2⟩ := sc_select
  have hin := free_input sc_crystal rfl (by norm_num)
  have ht := coarse_exact (hi := 2) sc_crystal.cell.det (decimal_coarse sc_decimal) (by norm_num)
  obtain ⟨u, hu⟩ := counts_nonempty hin ht h1 (n := 2) (by norm_num) (le_refl _)
  constructor
  · have := C82_sizes h2 (w := scWorld) (fun l => List.Perm.refl _) (fun i l => List.Perm.refl _) (fun _ => le_refl _) (selectArgs_call (some (2, 3)) none) scDir_call
      (by norm_num) (le_refl _) ⟨2, u, [1, 1], le_refl _, by norm_num, hu, half_mem⟩
    rw [realVecs_zero, realMat_sc] at this
    exact this
  · exact C82_missing_size hin ht (Set.mem_univ _) h1 (small_ok hin (by simp) (Or.inr (by norm_num)) h1).1 (w := scWorld) (fun l => List.Perm.refl _) scDir_call
      (selectArgs_call (some (2, 4)) none) (n := 3) (by norm_num) (by norm_num) (Or.inr (by norm_num))

/-- C82: with a file of the composition 1:1, `-filter conc` lists all structures with one atom of each species in two cells, alternating layers among them; with a file that has
only a composition of four atoms the program stops with a NameError. -/
example : (∃ (rows : List EnumEntry) (d' : Dir), scriptEnum scWorld shippedTol (selectArgs none (some ("conc".toList, "wanted.in".toList)))
        (selectDir (concFile [(2, [1, 1], 3)])) = (pure d' : Run Dir) ∧
      dictGet d' "enum.out".toList = some (enumOutFile (scLat.enumParams (Matrix.of ![![1, 0, 0], ![0, 1, 0], ![0, 0, 1]], [![0, 0, 0]])) scWorld.now rows) ∧
      (∀ row ∈ rows, row.size = 2) ∧
      ∃! row, row ∈ rows ∧ ∃ ψ, RowDescribes 1 [0] row ψ ∧
        SameStructure (ColLattice (1 : M3 ℝ).transpose) [0] (SupLat 1 !![2, 0, 0; 0, 1, 0; 0, 0, 1]) layers (rowLattice 1 row) ψ) ∧
    scriptEnum scWorld shippedTol (selectArgs none (some ("conc".toList, "wanted.in".toList))) (selectDir (concFile [(2, [2, 2], 3)])) = (throw .nameError : Run Dir) := by
  obtain ⟨U, cnt, h1, h2⟩ := sc_select
  have hin := free_input sc_crystal rfl (by norm_num)
  have ht := coarse_exact (hi := 2) sc_crystal.cell.det (decimal_coarse sc_decimal) (by norm_num)
  obtain ⟨u, hu⟩ := counts_nonempty hin ht h1 (n := 2) (by norm_num) (le_refl _)
  constructor
  · have := C82_compositions h2 (w := scWorld) (fun l => List.Perm.refl _) (fun i l => List.Perm.refl _) (fun _ => le_refl _)
      (selectArgs_call none (some ("conc".toList, "wanted.in".toList))) (selectDir_call _) (F := [(2, [1, 1], 3)]) rfl (by decide)
      ⟨2, u, [1, 1], by norm_num, le_refl _, hu, half_mem, by decide⟩
    rw [realVecs_zero, realMat_sc] at this
    obtain ⟨rows, d', r1, r2, r3, r4, r5⟩ := this
    refine ⟨rows, d', r1, r2, ?_, ?_⟩
    · intro row hrow
      obtain ⟨n, -, -, e, c, hc, -⟩ := r4 row hrow
      obtain ⟨c1, c2⟩ := List.mem_filter.mp hc
      have e1 : c = [1, 1] := by simpa using c2
      subst e1
      have := (((C25_concs_complete n 2 1).2 _).mp c1).2
      simp at this
      rw [e]; exact_mod_cast this.symm
    · refine r5 2 !![2, 0, 0; 0, 1, 0; 0, 0, 1] (by norm_num) (le_refl _) (Or.inl (by decide +kernel)) layers layers_structure.1 [1, 1]
        (List.mem_filter.mpr ⟨half_mem, by decide⟩) ?_
      have hcomp := layers_structure.2.2
      obtain ⟨pos, z, p1, p2, p3⟩ := hcomp
      refine ⟨pos, z, p1, p2, ?_⟩
      have hfr : scLat.arrowFractions = [0, 0] := by
        unfold LatticeIn.arrowFractions getArrowConcs
        rfl
      rw [hfr]
      exact (plain_iff_composed (by decide +kernel) z).mp p3
  · refine C82_nothing h2 (w := scWorld) (fun l => List.Perm.refl _) (fun i l => List.Perm.refl _) (fun _ => le_refl _)
      (selectArgs_call none (some ("conc".toList, "wanted.in".toList))) (selectDir_call _)
      (Or.inr (Or.inr ⟨_, [(2, [2, 2], 3)], rfl, rfl, by decide, fun _ _ => Iff.rfl⟩)) (by intro s hs; cases hs) ?_
    intro n v c a b hv hc _ hok
    obtain ⟨p, hp, rfl⟩ := hok
    have e1 : p = (2, [2, 2], 3) := by simpa using hp
    subst e1
    have := (((C25_concs_complete n 2 1).2 _).mp hc).2
    simp at this
    omega

/-- C82: `-filter shape` with a file of one of the supercells of polya.out. -/
example : ∃ (U : ℕ → List (M3 ℤ)) (u : M3 ℤ), u ∈ U 2 ∧ ∃ (rows : List EnumEntry) (d' : Dir),
    scriptEnum scWorld shippedTol (selectArgs none (some ("shape".toList, "wanted.in".toList))) (selectDir (shapeFile [(2, hnfNumbers u, 3)])) = (pure d' : Run Dir) ∧
    dictGet d' "enum.out".toList = some (enumOutFile (scLat.enumParams (Matrix.of ![![1, 0, 0], ![0, 1, 0], ![0, 0, 1]], [![0, 0, 0]])) scWorld.now rows) ∧
    ListsWanted 1 [0] 1 2 (fun n => concsFree n 2 1) scLat.arrowFractions U (fun _ h _ => h ∈ [hnfNumbers u]) rows := by
  obtain ⟨U, cnt, h1, h2⟩ := sc_select
  have hin := free_input sc_crystal rfl (by norm_num)
  have ht := coarse_exact (hi := 2) sc_crystal.cell.det (decimal_coarse sc_decimal) (by norm_num)
  obtain ⟨u, hu⟩ := counts_nonempty hin ht h1 (n := 2) (by norm_num) (le_refl _)
  have := C82_shapes h2 (w := scWorld) (fun l => List.Perm.refl _) (fun i l => List.Perm.refl _) (fun _ => le_refl _)
    (selectArgs_call none (some ("shape".toList, "wanted.in".toList))) (selectDir_call _) (F := [(2, hnfNumbers u, 3)]) rfl (by intro p hp; simp at hp; subst hp; rfl)
    ⟨2, u, [1, 1], by norm_num, le_refl _, hu, half_mem, by simp⟩
  rw [realVecs_zero, realMat_sc] at this
  exact ⟨U, u, hu, this⟩

end Phenum
