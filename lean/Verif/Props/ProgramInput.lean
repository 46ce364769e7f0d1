import Verif.Props.Program
import Verif.Props.Lattice
/-
C58 for the inputs of lattice.in: all concentrations, or ranges of concentrations.
-/
namespace Phenum
open Spec

/-- the sites of a superlattice can be numbered -/
theorem numbering_exists {P : M3 ℝ} {bas : List V3} (hu : Usable P bas bas true) (hprim : PrimitiveCell P bas) {n : ℕ} (hn : 1 ≤ n) (hn' : n < 2 ^ 24)
    {M : M3 ℤ} (hM : M.det = n ∨ M.det = -n) : ∃ pos, IsNumbering (CrystalSites (ColLattice P.transpose) bas) (SupLat P M) (bas.length * n) pos := by
  obtain ⟨e, he, h⟩ := cell_data hu hprim (flag := true) (Or.inl rfl) n hn hn'
  obtain ⟨H, ⟨hH, hL⟩, -⟩ := C20_every_superlattice_once n hn M hM
  obtain ⟨G, G', snf, hd⟩ := h (e / 2) (by linarith) (by linarith) H hH
  have hnum := hd.number
  have e1 : SupLat P H = SupLat P M := colLat_int P.transpose hL
  rw [e1] at hnum
  exact ⟨_, hnum⟩

theorem sum_ite_one {m : ℕ} : ∀ {l : List ℕ}, l.Nodup → m ∈ l → (l.map (fun i => if i = m then 1 else 0)).sum = 1
  | i :: l, hnd, hm => by
    obtain ⟨h1, h2⟩ := List.nodup_cons.mp hnd
    rw [List.map_cons, List.sum_cons]
    by_cases e : i = m
    · subst e
      have : (l.map (fun j => if j = i then 1 else 0)).sum = 0 := by
        apply List.sum_eq_zero
        intro x hx
        obtain ⟨j, hj, rfl⟩ := List.mem_map.mp hx
        rw [if_neg (fun e : j = i => h1 (e ▸ hj))]
      rw [if_pos rfl, this]
    · rw [if_neg e, sum_ite_one h2 ((List.mem_cons.mp hm).resolve_left (fun h => e h.symm))]

theorem mapM_some_length {α β : Type} (f : α → Option β) : ∀ {l : List α} {r : List β}, l.mapM f = some r → l.length = r.length
  | [], r, h => by simp at h; subst h; rfl
  | a :: l, r, h => by
    rw [List.mapM_cons] at h
    cases hf : f a with
    | none => rw [hf] at h; cases h
    | some b =>
      cases hl : l.mapM f with
      | none => rw [hf, hl] at h; cases h
      | some r' =>
        rw [hf, hl] at h
        obtain rfl : b :: r' = r := Option.some.inj h
        rw [List.length_cons, List.length_cons, mapM_some_length f hl]

/-- a periodic decoration without displacements has some composition -/
theorem contents_exists {P : M3 ℝ} {bas : List V3} (hu : Usable P bas bas true) (hprim : PrimitiveCell P bas) {n k : ℕ} (hn : 1 ≤ n) (hn' : n < 2 ^ 24)
    {M : M3 ℤ} (hM : M.det = n ∨ M.det = -n) {aconcs : List ℚ} (ha : ∀ x ∈ aconcs, x = 0) {χ : Decoration}
    (hper : PeriodicOn (CrystalSites (ColLattice P.transpose) bas) (SupLat P M) χ)
    (hχ : ∀ x ∈ CrystalSites (ColLattice P.transpose) bas, (χ x).2 = 0 ∧ 1 ≤ (χ x).1 ∧ (χ x).1 ≤ k) :
    ∃ c : Conc, c.length = k ∧ c.sum = bas.length * n ∧
      HasContents (CrystalSites (ColLattice P.transpose) bas) (SupLat P M) (bas.length * n) (Composed c aconcs 6) χ := by
  obtain ⟨pos, hp⟩ := numbering_exists hu hprim hn hn' hM
  set N := bas.length * n with hN
  set z : Config := (List.range N).map (fun j => (-1, (χ (pos j)).1)) with hz
  have hmem : ∀ s ∈ z, s.1 = -1 ∧ 1 ≤ s.2 ∧ s.2 ≤ k := by
    intro s hs
    obtain ⟨j, hj, rfl⟩ := List.mem_map.mp hs
    have := hχ _ (hp.site j (List.mem_range.mp hj))
    exact ⟨rfl, this.2⟩
  have ha0 : ∀ i, aconcs.getD i 0 = 0 := by
    intro i
    by_cases hi : i < aconcs.length
    · rw [getD_lt hi]; exact ha _ (List.getElem_mem hi)
    · rw [List.getD_eq_getElem?_getD, List.getElem?_eq_none (by omega)]; rfl
  have hsum : ∀ l : Config, (∀ s ∈ l, 1 ≤ s.2 ∧ s.2 ≤ k) → ((List.range k).map (fun i => l.countP (fun s => decide (s.2 = i + 1)))).sum = l.length := by
    intro l
    induction l with
    | nil => simp
    | cons s l ih =>
      intro hl
      have h1 := ih (fun s hs => hl s (by simp [hs]))
      have h2 := hl s (by simp)
      have e : ∀ i, (s :: l).countP (fun s => decide (s.2 = i + 1)) = l.countP (fun s => decide (s.2 = i + 1)) + if i = s.2 - 1 then 1 else 0 := by
        intro i
        rw [List.countP_cons]
        congr 1
        by_cases h : s.2 = i + 1
        · simp [h]
        · have : ¬ (i = s.2 - 1) := by omega
          simp [h, this]
      simp only [e, List.sum_map_add, h1, List.length_cons]
      congr 1
      exact sum_ite_one List.nodup_range (List.mem_range.mpr (by omega))
  refine ⟨(List.range k).map (fun i => z.countP (fun s => decide (s.2 = i + 1))), by simp, ?_, pos, z, hp, ⟨by simp [hz], ?_⟩, ?_, ?_, ?_⟩
  · rw [hsum z (fun s hs => (hmem s hs).2)]
    simp [hz]
  · intro x hx j hj hm
    refine ⟨(-1, (χ (pos j)).1), by simp [hz, hj], ?_⟩
    have := hper (pos j) (hp.site j hj) _ hm
    rw [add_sub_cancel] at this
    rw [this]
    unfold siteValue
    refine Prod.ext rfl ?_
    simp [(hχ _ (hp.site j hj)).1]
  · intro s hs
    exact Or.inl (hmem s hs).1
  · intro s hs
    simpa using (hmem s hs).2
  · intro i hi
    rw [List.length_map, List.length_range] at hi
    rw [getD_lt (by simpa using hi), ha0 i]
    simp only [List.getElem_map, List.getElem_range, true_and]
    rw [arrowCount_zero, List.countP_eq_zero]
    intro s hs
    have := (hmem s hs).1
    simp only [decide_eq_true_eq]
    omega

/-- What lattice.in says apart from the concentrations: the parent lattice has the rows of `P0` as lattice vectors and the basis atoms `b0`, the
sizes are `lo` to `hi`, there are `k` species. The crystal is one that the symmetry search handles (`Usable`), its cell is
primitive and its atoms are listed inside the cell, the first one at the origin unless arrows are used. -/
structure Spec.CrystalInput (text : Str) (lat : LatticeIn) (P0 : Matrix (Fin 3) (Fin 3) ℚ) (b0 : List (Fin 3 → ℚ)) (lo hi k : ℕ) : Prop where
  read : readLattice text = .ok lat
  geometry : lat.geometry = .ok (P0, b0)
  sizes : ∃ rest, lat.sizes = (lo : ℤ) :: (hi : ℤ) :: rest
  lo_pos : 1 ≤ lo
  lo_hi : lo ≤ hi
  cell : Usable (realMat P0) (realVecs b0) (realVecs b0) true
  primitive : PrimitiveCell (realMat P0) (realVecs b0)
  origin : lat.arrowFractions.sum ≠ 0 ∨ (realVecs b0).getD 0 0 = 0
  species : lat.nspecies = k ∧ 2 ≤ k ∧ k ≤ 10

theorem geometry_basis {lat : LatticeIn} {P0 : Matrix (Fin 3) (Fin 3) ℚ} {b0 : List (Fin 3 → ℚ)} (h : lat.geometry = .ok (P0, b0)) :
    lat.basisVecs.length = b0.length := by
  unfold LatticeIn.geometry at h
  split at h
  · rename_i a b c bas h1 h2
    injection h with h
    rw [Prod.mk.injEq] at h
    obtain ⟨-, rfl⟩ := h
    exact mapM_some_length _ h2
  · cases h

/-- the concentrations of an unrestricted input -/
theorem free_input {text : Str} {lat : LatticeIn} {P0 : Matrix (Fin 3) (Fin 3) ℚ} {b0 : List (Fin 3 → ℚ)} {lo hi k : ℕ}
    (h : CrystalInput text lat P0 b0 lo hi k) (hfree : lat.restricted = false) (hhi : hi < 2 ^ 24) :
    EnumInput text lat P0 b0 lo hi k Set.univ (fun n => concsFree n k b0.length) := by
  have hk : lat.nspecies.toNat = k := by rw [h.species.1]; simp
  refine ⟨h.read, h.geometry, h.sizes, h.lo_pos, h.lo_hi, hhi, h.cell, h.primitive, h.origin, h.species.2, ?_, ?_, lo, le_refl _, h.lo_hi, ?_⟩
  · unfold LatticeIn.arrowFractions getArrowConcs
    rw [hfree, hk]
    simp
  · intro n _ _
    obtain ⟨h1, h2⟩ := C25_concs_complete n k b0.length
    refine ⟨?_, h1, fun c hc => ?_⟩
    · intro t _
      unfold sizeConcs
      rw [hfree, hk, geometry_basis h.geometry]
      rfl
    · obtain ⟨a, b⟩ := (h2 c).mp hc
      exact ⟨a, by rw [b, mul_comm]⟩
  · have hm : (lo * b0.length) :: List.replicate (k - 1) 0 ∈ concsFree lo k b0.length := by
      rw [(C25_concs_complete lo k b0.length).2]
      have := h.species.2.1
      simp
      omega
    exact List.ne_nil_of_mem hm

/-- auxiliary: the same at tolerances at which the searches are exact -/
theorem all_structures_at {text : Str} {lat : LatticeIn} {P0 : Matrix (Fin 3) (Fin 3) ℚ} {b0 : List (Fin 3 → ℚ)} {lo hi k : ℕ}
    (h : CrystalInput text lat P0 b0 lo hi k) (hfree : lat.restricted = false) (hsize : b0.length * hi ≤ 20) {tol : Tol} (ht : ExactTol P0 b0 hi tol) :
    ∀ (w : World) (a : Args) (lattice : Str) (d : Dir), (∀ l, (w.listdir l).Perm l) → (∀ i l, ((w.rnd i).shuffle l).Perm l) →
        PlainCall a lattice true → FreshDir lattice text d →
      ∃ (rows : List EnumEntry) (d' : Dir), scriptEnum w tol a d = (pure d' : Run Dir) ∧
        dictGet d' "enum.out".toList = some (enumOutFile (lat.enumParams (P0, b0)) w.now rows) ∧ rows.Nodup ∧
        ∀ (n : ℕ) (M : M3 ℤ), lo ≤ n → n ≤ hi → M.det = n ∨ M.det = -n → ∀ χ : Decoration,
          PeriodicOn (CrystalSites (ColLattice (realMat P0).transpose) (realVecs b0)) (SupLat (realMat P0) M) χ →
          (∀ x ∈ CrystalSites (ColLattice (realMat P0).transpose) (realVecs b0), (χ x).2 = 0 ∧ 1 ≤ (χ x).1 ∧ (χ x).1 ≤ k) →
          ∃! row, row ∈ rows ∧ ∃ ψ, RowDescribes (realMat P0) (realVecs b0) row ψ ∧
            SameStructure (ColLattice (realMat P0).transpose) (realVecs b0) (SupLat (realMat P0) M) χ (rowLattice (realMat P0) row) ψ := by
  have hb : 0 < b0.length := by
    have := List.length_pos_iff.mpr h.cell.nonempty
    rwa [realVecs_length] at this
  have hhi : hi < 2 ^ 24 := by
    have := Nat.le_mul_of_pos_left hi hb
    have : hi ≤ 20 := by omega
    exact lt_of_le_of_lt this (by norm_num)
  have hal : lat.arrowFractions = List.replicate lat.nspecies.toNat 0 := by
    unfold LatticeIn.arrowFractions getArrowConcs
    rw [hfree]; rfl
  obtain ⟨U, cnt, -, hrun⟩ := small_at (free_input h hfree hhi) hsize (Or.inl (by rw [hal]; simp)) ht (Set.mem_univ _)
  intro w a lattice d hw hsh ha hd
  obtain ⟨rows, d', r1, r2, r3, -⟩ := hrun w a lattice d hw hsh ha hd
  refine ⟨rows, d', r1, r2, r3.nodup, fun n M n1 n2 hM χ hper hχ => ?_⟩
  obtain ⟨c, c1, c2, c3⟩ := contents_exists h.cell h.primitive (le_trans h.lo_pos n1) (lt_of_le_of_lt n2 hhi) hM (aconcs := lat.arrowFractions)
    (by rw [hal]; intro x hx; exact List.eq_of_mem_replicate hx) hper hχ
  refine r3.complete n M n1 n2 hM χ hper c ?_ c3
  rw [(C25_concs_complete n k b0.length).2, ← realVecs_length b0]
  exact ⟨c1, by rw [c2, mul_comm]⟩

/-- C58. Without restrictions: the program `enumeration.py -enum -super`, started in a directory with lattice.in and no results of earlier
runs, finishes and writes enum.out, whose rows are all different and describe every structure with `lo` to `hi` cells and
the species `1 .. k` exactly once: any superlattice `M`, any decoration `χ` of the sites with species periodic with
respect to it is, up to a symmetry of the crystal, described by exactly one row. -/
theorem C58_all_structures {text : Str} {lat : LatticeIn} {P0 : Matrix (Fin 3) (Fin 3) ℚ} {b0 : List (Fin 3 → ℚ)} {lo hi k : ℕ}
    (h : CrystalInput text lat P0 b0 lo hi k) (hfree : lat.restricted = false) (hsize : b0.length * hi ≤ 20) :
    ∃ e > 0, ∀ tol : Tol, 0 < tol.hnf → tol.hnf < e → 0 < tol.sym → tol.sym < e →
      ∀ (w : World) (a : Args) (lattice : Str) (d : Dir), (∀ l, (w.listdir l).Perm l) → (∀ i l, ((w.rnd i).shuffle l).Perm l) →
        PlainCall a lattice true → FreshDir lattice text d →
      ∃ (rows : List EnumEntry) (d' : Dir), scriptEnum w tol a d = (pure d' : Run Dir) ∧
        dictGet d' "enum.out".toList = some (enumOutFile (lat.enumParams (P0, b0)) w.now rows) ∧ rows.Nodup ∧
        ∀ (n : ℕ) (M : M3 ℤ), lo ≤ n → n ≤ hi → M.det = n ∨ M.det = -n → ∀ χ : Decoration,
          PeriodicOn (CrystalSites (ColLattice (realMat P0).transpose) (realVecs b0)) (SupLat (realMat P0) M) χ →
          (∀ x ∈ CrystalSites (ColLattice (realMat P0).transpose) (realVecs b0), (χ x).2 = 0 ∧ 1 ≤ (χ x).1 ∧ (χ x).1 ≤ k) →
          ∃! row, row ∈ rows ∧ ∃ ψ, RowDescribes (realMat P0) (realVecs b0) row ψ ∧
            SameStructure (ColLattice (realMat P0).transpose) (realVecs b0) (SupLat (realMat P0) M) χ (rowLattice (realMat P0) row) ψ :=
  small_tol h.cell.det h.cell.nonempty hi (fun _ ht => all_structures_at h hfree hsize ht)

/-- The composition `c` of `N` atoms satisfies the restrictions of lattice.in: `rows` are the restrictions (two numerators in
any order and the denominator). -/
def Spec.InConcRanges (rows : List ConcRange) (N : ℕ) (c : Conc) : Prop := c.sum = N ∧ InRanges N rows (c.map (fun x : ℕ => (x : ℤ)))

/-- The restrictions of lattice.in: one row for each of the `k` species, whole non-negative numerators, the same positive
denominator `d` in all rows; the fractions of displaced atoms are not negative. -/
structure Spec.RangesInput (lat : LatticeIn) (k : ℕ) (rows : List ConcRange) (d : ℤ) : Prop where
  restricted : lat.restricted = true
  parsed : lat.concs.mapM concRow = .ok rows
  length : lat.concs.length = k
  denom : 0 < d ∧ ∀ r ∈ rows, r.2.2 = d
  nonneg : ∀ r ∈ rows, 0 ≤ r.1 ∧ 0 ≤ r.2.1
  fractions : ∀ x ∈ lat.arrowFractions, 0 ≤ x

theorem py_mapM_length {α β : Type} (f : α → Py β) : ∀ {l : List α} {r : List β}, l.mapM f = .ok r → l.length = r.length
  | [], r, h => by simp at h; cases h; rfl
  | a :: l, r, h => by
    rw [List.mapM_cons] at h
    cases hf : f a with
    | error e => rw [hf] at h; cases h
    | ok b =>
      cases hl : l.mapM f with
      | error e => rw [hf, hl] at h; cases h
      | ok r' =>
        rw [hf, hl] at h
        obtain rfl : b :: r' = r := Except.ok.inj h
        rw [List.length_cons, List.length_cons, py_mapM_length f hl]

theorem inRanges_nonneg {N : ℕ} (hN : 0 < N) : ∀ {rows : List ConcRange} {a : List ℤ} {d : ℤ}, 0 < d → (∀ r ∈ rows, r.2.2 = d) → (∀ r ∈ rows, 0 ≤ r.1 ∧ 0 ≤ r.2.1) →
    InRanges N rows a → ∀ x ∈ a, 0 ≤ x := by
  intro rows a d hd h1 h2 h
  unfold InRanges at h
  induction h with
  | nil => simp
  | @cons x c l₁ l₂ hr _ ih =>
    intro y hy
    rcases List.mem_cons.mp hy with rfl | hy
    · have a1 := h1 c (by simp)
      have a2 := h2 c (by simp)
      have a3 : (0 : ℚ) ≤ ((min c.1 c.2.1 : ℤ) : ℚ) / c.2.2 := by
        apply div_nonneg
        · exact_mod_cast le_min a2.1 a2.2
        · rw [a1]; exact_mod_cast hd.le
      have a4 := le_trans a3 hr.1
      by_contra hneg
      push_neg at hneg
      have : (y : ℚ) / N < 0 := div_neg_of_neg_of_pos (by exact_mod_cast hneg) (by exact_mod_cast hN)
      linarith
    · exact ih (fun r hr => h1 r (by simp [hr])) (fun r hr => h2 r (by simp [hr])) y hy

theorem map_toNat_cast {a : List ℤ} (h : ∀ x ∈ a, 0 ≤ x) : (a.map Int.toNat).map (fun x : ℕ => (x : ℤ)) = a := by
  rw [List.map_map]
  conv_rhs => rw [← List.map_id a]
  apply List.map_congr_left
  intro x hx
  have := h x hx
  simp [this]

theorem cast_sum (c : List ℕ) : (c.map (fun x : ℕ => (x : ℤ))).sum = (c.sum : ℤ) := by
  induction c with
  | nil => rfl
  | cons a c ih => rw [List.map_cons, List.sum_cons, List.sum_cons, ih, Nat.cast_add]

/-- the concentrations of a restricted input -/
theorem ranges_concs {lat : LatticeIn} {k : ℕ} {rows : List ConcRange} {d : ℤ} (h : RangesInput lat k rows d) (hk : 1 ≤ k) {t : ℚ} (ht : 0 ≤ t) {n : ℕ}
    (hn : 0 < n * lat.basisVecs.length) (ht' : t * (n * lat.basisVecs.length : ℕ) * d < 1) :
    ∃ C, sizeConcs t lat n = (pure C : Run _) ∧ C.Nodup ∧ (∀ c, c ∈ C ↔ InConcRanges rows (lat.basisVecs.length * n) c) ∧ ∀ c ∈ C, c.length = k := by
  have hlen := py_mapM_length _ h.parsed
  obtain ⟨out, e1, e2, e3⟩ := C26_restricted_concs t n lat.basisVecs.length rows d hn (by
    intro e
    rw [e, h.length] at hlen
    simp at hlen
    omega) h.denom.1 h.denom.2 ht ht'
  have hnn : ∀ a ∈ out, ∀ x ∈ a, 0 ≤ x := fun a ha => inRanges_nonneg hn h.denom.1 h.denom.2 h.nonneg ((e3 a).mp ha).2
  refine ⟨out.map (fun a => a.map Int.toNat), ?_, ?_, ?_, ?_⟩
  · unfold sizeConcs
    rw [h.restricted, if_pos rfl, h.parsed, runPy_ok, pure_bind, e1, runO_ok, pure_bind]
  · apply List.Nodup.map_on _ e2
    intro a ha b hb e
    rw [← map_toNat_cast (hnn a ha), e, map_toNat_cast (hnn b hb)]
  · intro c
    unfold InConcRanges
    constructor
    · intro hc
      obtain ⟨a, ha, rfl⟩ := List.mem_map.mp hc
      obtain ⟨a1, a2⟩ := (e3 a).mp ha
      rw [map_toNat_cast (hnn a ha), mul_comm]
      refine ⟨?_, a2⟩
      have := cast_sum (a.map Int.toNat)
      rw [map_toNat_cast (hnn a ha), a1] at this
      exact_mod_cast this.symm
    · rintro ⟨c1, c2⟩
      refine List.mem_map.mpr ⟨c.map (fun x : ℕ => (x : ℤ)), (e3 _).mpr ⟨?_, by rw [mul_comm]; exact c2⟩, map_toNat c⟩
      rw [cast_sum, c1, mul_comm]
  · intro c hc
    obtain ⟨a, ha, rfl⟩ := List.mem_map.mp hc
    obtain ⟨-, a2⟩ := (e3 a).mp ha
    rw [List.length_map]
    unfold InRanges at a2
    rw [a2.length_eq, ← hlen, h.length]

/-- a restricted input -/
theorem ranges_enum {text : Str} {lat : LatticeIn} {P0 : Matrix (Fin 3) (Fin 3) ℚ} {b0 : List (Fin 3 → ℚ)} {lo hi k : ℕ} {rows : List ConcRange} {d : ℤ}
    (h : CrystalInput text lat P0 b0 lo hi k) (hr : RangesInput lat k rows d) (hsize : b0.length * hi ≤ 20)
    (hne : ∃ n c, lo ≤ n ∧ n ≤ hi ∧ InConcRanges rows (b0.length * n) c) {t : ℚ} (ht : 0 ≤ t)
    (ht' : t * 20 * d < 1) :
    ∃ (C : ℕ → List Conc), (∀ n, lo ≤ n → n ≤ hi → (C n).Nodup ∧ ∀ c, c ∈ C n ↔ InConcRanges rows (b0.length * n) c) ∧
      EnumInput text lat P0 b0 lo hi k {t} C := by
  have hb : 0 < b0.length := by
    have := List.length_pos_iff.mpr h.cell.nonempty
    rwa [realVecs_length] at this
  have hbl := geometry_basis h.geometry
  have hhi : hi < 2 ^ 24 := by
    have := Nat.le_mul_of_pos_left hi hb
    have : hi ≤ 20 := by omega
    exact lt_of_le_of_lt this (by norm_num)
  have key : ∀ n, ∃ C : List Conc, lo ≤ n → n ≤ hi → sizeConcs t lat n = (pure C : Run _) ∧ C.Nodup ∧
      (∀ c, c ∈ C ↔ InConcRanges rows (b0.length * n) c) ∧ ∀ c ∈ C, c.length = k := by
    intro n
    by_cases hn : lo ≤ n ∧ n ≤ hi
    · have h20 : n * b0.length ≤ 20 := by
        rw [mul_comm]
        exact le_trans (Nat.mul_le_mul_left _ hn.2) hsize
      have hpos : 0 < n * b0.length := Nat.mul_pos (lt_of_lt_of_le h.lo_pos hn.1) hb
      obtain ⟨C, hC⟩ := ranges_concs hr (by have := h.species.2.1; omega) ht (n := n) (by rw [hbl]; exact hpos) (by
        rw [hbl]
        have h1 : ((n * b0.length : ℕ) : ℚ) ≤ 20 := by exact_mod_cast h20
        have h2 : (0 : ℚ) < d := by exact_mod_cast hr.denom.1
        have h3 : t * ((n * b0.length : ℕ) : ℚ) ≤ t * 20 := mul_le_mul_of_nonneg_left h1 ht
        have h4 := mul_le_mul_of_nonneg_right h3 h2.le
        linarith)
      rw [hbl] at hC
      exact ⟨C, fun _ _ => hC⟩
    · exact ⟨[], fun a b => absurd ⟨a, b⟩ hn⟩
  choose C hC using key
  refine ⟨C, fun n a b => ⟨(hC n a b).2.1, (hC n a b).2.2.1⟩, ?_⟩
  refine ⟨h.read, h.geometry, h.sizes, h.lo_pos, h.lo_hi, hhi, h.cell, h.primitive, h.origin, h.species.2, ⟨?_, hr.fractions⟩, ?_, ?_⟩
  · unfold LatticeIn.arrowFractions getArrowConcs
    rw [hr.restricted, if_pos rfl, List.length_map, hr.length]
  · intro n a b
    obtain ⟨c1, c2, c3, c4⟩ := hC n a b
    refine ⟨fun t' ht' => by rw [Set.mem_singleton_iff.mp ht']; exact c1, c2, fun c hc => ⟨c4 c hc, ((c3 c).mp hc).1⟩⟩
  · obtain ⟨n, c, a, b, hc⟩ := hne
    exact ⟨n, a, b, List.ne_nil_of_mem (((hC n a b).2.2.1 c).mpr hc)⟩

/-- auxiliary: the same at tolerances at which the searches are exact -/
theorem ranges_at {text : Str} {lat : LatticeIn} {P0 : Matrix (Fin 3) (Fin 3) ℚ} {b0 : List (Fin 3 → ℚ)} {lo hi k : ℕ} {rows : List ConcRange} {d : ℤ}
    (h : CrystalInput text lat P0 b0 lo hi k) (hr : RangesInput lat k rows d) (hsize : b0.length * hi ≤ 20)
    (harr : lat.arrowFractions.sum = 0 ∨ b0.length * hi < 12) (hne : ∃ n c, lo ≤ n ∧ n ≤ hi ∧ InConcRanges rows (b0.length * n) c) {t : ℚ} (ht : 0 ≤ t)
    (ht' : t * 20 * d < 1) :
    ∃ (C : ℕ → List Conc), (∀ n, lo ≤ n → n ≤ hi → (C n).Nodup ∧ ∀ c, c ∈ C n ↔ InConcRanges rows (b0.length * n) c) ∧
    ∀ tol : Tol, ExactTol P0 b0 hi tol → tol.conc = t →
      ∃ (U : ℕ → List (M3 ℤ)) (cnt : ℕ → M3 ℤ → Conc → ℕ), CountsAll tol lat P0 b0 lo hi C U cnt ∧ RunListsAll tol text lat P0 b0 lo hi C U cnt := by
  obtain ⟨C, h1, hin⟩ := ranges_enum h hr hsize hne ht ht'
  exact ⟨C, h1, fun tol ht' t5 => small_at hin hsize harr ht' (Set.mem_singleton_iff.mpr t5)⟩

/-- C58. With ranges of concentrations and, possibly, displaced atoms: the program lists every structure whose composition satisfies the
restrictions exactly once. -/
theorem C58_ranges {text : Str} {lat : LatticeIn} {P0 : Matrix (Fin 3) (Fin 3) ℚ} {b0 : List (Fin 3 → ℚ)} {lo hi k : ℕ} {rows : List ConcRange} {d : ℤ}
    (h : CrystalInput text lat P0 b0 lo hi k) (hr : RangesInput lat k rows d) (hsize : b0.length * hi ≤ 20)
    (harr : lat.arrowFractions.sum = 0 ∨ b0.length * hi < 12) (hne : ∃ n c, lo ≤ n ∧ n ≤ hi ∧ InConcRanges rows (b0.length * n) c) {t : ℚ} (ht : 0 ≤ t)
    (ht' : t * 20 * d < 1) :
    ∃ (C : ℕ → List Conc), (∀ n, lo ≤ n → n ≤ hi → (C n).Nodup ∧ ∀ c, c ∈ C n ↔ InConcRanges rows (b0.length * n) c) ∧
    ∃ e > 0, ∀ tol : Tol, 0 < tol.hnf → tol.hnf < e → 0 < tol.sym → tol.sym < e → tol.conc = t →
      ∃ (U : ℕ → List (M3 ℤ)) (cnt : ℕ → M3 ℤ → Conc → ℕ), CountsAll tol lat P0 b0 lo hi C U cnt ∧ RunListsAll tol text lat P0 b0 lo hi C U cnt := by
  obtain ⟨C, h1, h2⟩ := ranges_at h hr hsize harr hne ht ht'
  exact ⟨C, h1, small_tol h.cell.det h.cell.nonempty hi h2⟩

end Phenum
