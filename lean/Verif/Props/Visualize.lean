import Verif.Model.Visualize
import Verif.Props.CubicReduce
import Verif.Props.EnumIn
/-
C64: the figures of `-visualize`.
-/
namespace Phenum
open Spec

/-- The figure shows one cell of the crystal with the sites `S` and the superlattice `L`: the rows of `cell` generate `L`, the atoms drawn are sites inside
the cell (up to the tolerance 1E-10 of the code), and every site of the crystal is, up to a vector of `L`, exactly one of the atoms drawn. -/
structure Spec.ShowsCell (S L : Set V3) (cell : M3 ℝ) (atoms : List V3) : Prop where
  lattice : ColLattice cell.transpose = L
  inside : ∀ p ∈ atoms, ∃ w : V3, (∀ i, -(1 / 10 ^ 10) ≤ w i ∧ w i < 1 - 1 / 10 ^ 10) ∧ p = Matrix.vecMul w cell
  sites : ∀ p ∈ atoms, p ∈ S
  every : ∀ x ∈ S, ∃! i, i < atoms.length ∧ x - atoms.getD i 0 ∈ L

section
variable {n : ℕ} {u : M3 ℤ}

/-- The conditions under which a supercell can be drawn: it has at most seven cells, and its reduction does not give up. -/
structure Spec.CanDraw (P : M3 ℝ) (n : ℕ) (u : M3 ℤ) : Prop where
  pos : 1 ≤ n
  small : n ≤ 7
  hnf : u ∈ findAllHNFs n
  vol : 1 / 10 ^ 10 < |(P * castM u).det|
  reduces : ∃ N, minkReduce (P * castM u).transpose (1 / 10 ^ 10) = .ok N

theorem plotCell_shows {P : M3 ℝ} (d : V3) {k : ℕ} (hk : 1 ≤ k) (h : CanDraw P n u) :
    ∃ cell atoms, plotCell P [d] k (hnfNumbers u) = (pure (cell, atoms) : Run _) ∧
      ShowsCell (CrystalSites (ColLattice P) [d]) (ColLattice (P * castM u)) cell atoms := by
  obtain ⟨hn, h7, hu, hvol, N, hN⟩ := h
  obtain ⟨hfull, hlen6⟩ := hnf_numbers_full hn hu
  have hdetu := findAll_det hn hu
  obtain ⟨s, hs⟩ := C24_smith_succeeds u (by rw [hdetu]; exact_mod_cast hn) (by rw [hdetu]; norm_num; omega)
  obtain ⟨uA, uB, hS, hM, hdet⟩ := snf_data hs
  have hP : P.det ≠ 0 := by
    intro h0
    rw [Matrix.det_mul, h0, zero_mul, abs_zero] at hvol
    norm_num at hvol
  have hnS : (s.M 0 0 * s.M 1 1 * s.M 2 2).toNat = n := by rw [← hdet, hdetu]; simp
  obtain ⟨a, b, c, dd, e, f, hue, hprod, hx, -⟩ := row_ofCell hn hu hs []
  obtain ⟨ha, hc, hf, hef⟩ := hx.pos
  have hst : (⟨n, u, fun i => s.M i i, s.A, List.replicate n '0'⟩ : StructData) = structOf a b c dd e f s (List.replicate n '0') := by
    unfold structOf
    rw [hprod, hue]
  have hlab : (List.replicate n '0').length = a * c * f * [d].length := by simp [hprod]
  have hlb : LabelsBelow k (List.replicate n '0') := by
    intro ch hch
    rw [List.eq_of_mem_replicate hch]
    exact ⟨by decide, by simp; omega⟩
  have hpts : (interiorPoints a b c dd e f).length = a * c * f := by
    have := (small_cell_data hn h7 hu hs).2
    rw [hue] at this
    rw [hprod, ← this]
    simp [hnfMat]
  have hs' : smithNormalForm (hnfMat a b c dd e f) = some (.ok s) := by rw [← hue]; exact hs
  have hSC : superCell P (hnfMat a b c dd e f) (1 / 10 ^ 10) true = .ok N := by rw [← hue]; exact hN
  obtain ⟨sd, hsd, hbas⟩ : ∃ sd, mapToRealSpace P [d] k (1 / 10 ^ 10) (structOf a b c dd e f s (List.replicate n '0')) true = .ok sd ∧
      ∀ q ∈ sd.aBas, q - d ∈ ColLattice P := by
    rw [mapToRealSpace_eq P [d] k _ a b c dd e f s _ true hSC]
    simp only
    rw [if_neg]
    · obtain ⟨y, hy, -⟩ := spinLoop_ok k (List.replicate n '0')
        (((List.range [d].length).flatMap (fun iD => (interiorPoints a b c dd e f).map (fun z => (iD, z)))).map (fun p => groupIndex s.A (fun i => s.M i i) p.1 p.2))
        (List.replicate k 0) [] (by simp) (by
          intro g hg
          obtain ⟨p, hp, rfl⟩ := List.mem_map.mp hg
          have hp0 := (mem_flat.mp hp).1
          simp only [List.length_singleton, Nat.lt_one_iff] at hp0
          rw [groupIndex_eq, hp0]
          have h1 := enc_lt hS (red_valid hS (s.A.mulVec p.2))
          rw [← hdet, hdetu] at h1
          rw [List.length_replicate]
          have h0 := enc_nonneg hS (red_valid hS (s.A.mulVec p.2))
          push_cast
          omega) hlb
      rw [hy]
      refine ⟨_, rfl, ?_⟩
      intro q hq
      obtain ⟨p, hp, rfl⟩ := List.mem_map.mp hq
      have hp0 := (mem_flat.mp hp).1
      simp only [List.length_singleton, Nat.lt_one_iff] at hp0
      refine ⟨p.2, ?_⟩
      funext i
      rw [hp0]
      simp
    · rw [not_not, flat_length, hpts]
      ring
  obtain ⟨c1, c2, c3, c4, -, -, c7⟩ := C28_map_real_space P hP [d] k a b c dd e f ha hc hf hef s hs' _ hlab hlb (1 / 10 ^ 10) true
    (fun _ => ⟨by norm_num, by norm_num, by rw [← hue]; exact hvol⟩) sd hsd
  rw [← hue] at c3 c4 c7
  rw [hprod] at c1 c2 c3
  simp only [List.length_singleton, mul_one] at c1 c2
  set L := ColLattice (P * castM u) with hL
  have hLs : IsSub L := colLat_isSub _
  have hsub : ∀ {p q : V3}, p ∈ L → q ∈ L → p - q ∈ L := fun hp hq => by rw [sub_eq_add_neg]; exact hLs.add _ hp _ (hLs.neg _ hq)
  have hdetU : (P * castM u).det ≠ 0 := by
    intro h0
    rw [h0, abs_zero] at hvol
    norm_num at hvol
  have hdetC : sd.sLV.det ≠ 0 := by
    obtain ⟨T, hT⟩ := colLat_subset.mp (le_of_eq c7.symm : ColLattice (P * castM u) ⊆ ColLattice sd.sLV.transpose)
    intro h0
    apply hdetU
    rw [hT, Matrix.det_mul, Matrix.det_transpose, h0, zero_mul]
  choose w hw using fun p => C27_cartesian2direct sd.sLV p (1 / 10 ^ 10 : ℝ) (by norm_num) hdetC
  have hmap : sd.aBas.mapM (fun p => runO (cartesian2direct sd.sLV p (1 / 10 ^ 10 : ℝ))) = (pure (sd.aBas.map w) : Run (List V3)) :=
    run_mapM_ok _ _ _ (fun p _ => (hw p).1)
  have hdetu0 : u.det ≠ 0 := by
    rw [hdetu]
    exact_mod_cast (by omega : n ≠ 0)
  have hmove : ∀ q, Matrix.vecMul (w q) sd.sLV - q ∈ L := by
    intro q
    obtain ⟨z, hz⟩ := (hw q).2.2
    rw [hz, ← c7]
    refine ⟨-z, ?_⟩
    rw [Matrix.mulVec_transpose]
    have : (fun i => (((-z) i : ℤ) : ℝ)) = -(fun i => ((z i : ℤ) : ℝ)) := by funext i; simp
    rw [this, Matrix.neg_vecMul]
    abel
  have hmove' : ∀ q, q - Matrix.vecMul (w q) sd.sLV ∈ L := by
    intro q
    have := hLs.neg _ (hmove q)
    rwa [neg_sub] at this
  have hLP : ∀ v ∈ L, v ∈ ColLattice P := by
    rintro v ⟨x, rfl⟩
    refine ⟨u.mulVec x, ?_⟩
    rw [← Matrix.mulVec_mulVec]
    congr 1
    funext i
    simp [castM, Matrix.mulVec, dotProduct]
  have hr : ∀ {α : Type} (v : α), runPy (.ok v) = (pure v : Run α) := fun _ => rfl
  refine ⟨sd.sLV, sd.aBas.map (fun p => Matrix.vecMul (w p) sd.sLV), ?_, ⟨c7, ?_, ?_, ?_⟩⟩
  · unfold plotCell
    rw [if_neg (by omega), hfull, hr, pure_bind, show runO (smithNormalForm u) = (pure s : Run _) from hs, pure_bind]
    simp only [hnS]
    rw [hst, hsd, hr, pure_bind, hmap, pure_bind, List.map_map]
    rfl
  · intro p hp
    obtain ⟨q, -, rfl⟩ := List.mem_map.mp hp
    exact ⟨w q, (hw q).2.1, rfl⟩
  · intro p hp
    obtain ⟨q, hq, rfl⟩ := List.mem_map.mp hp
    refine ⟨d, List.mem_singleton_self d, ?_⟩
    have := (colLat_isSub P).add _ (hbas q hq) _ (hLP _ (hmove q))
    rwa [show q - d + (Matrix.vecMul (w q) sd.sLV - q) = Matrix.vecMul (w q) sd.sLV - d by abel] at this
  · rintro x ⟨d', hd', hxd⟩
    rw [List.mem_singleton] at hd'
    subst hd'
    obtain ⟨z, hz⟩ := hxd
    have hpp := point_pos hP uA uB hS hM hdetu0 (n := n) (by rw [← hdetu, hdet]) [d'] 0 z
    set g := groupIndex s.A (fun i => s.M i i) 0 z with hg
    have hgr : 0 ≤ g ∧ g < n := by
      rw [hg, groupIndex_eq]
      have h1 := enc_lt hS (red_valid hS (s.A.mulVec z))
      have h0 := enc_nonneg hS (red_valid hS (s.A.mulVec z))
      rw [← hdet, hdetu] at h1
      push_cast
      omega
    have hgm : g ∈ sd.gIndx := by
      rw [c2.mem_iff, List.mem_map]
      exact ⟨g.toNat, List.mem_range.mpr (by omega), by omega⟩
    obtain ⟨i, hi⟩ := List.mem_iff_getElem?.mp hgm
    have hlenG : sd.gIndx.length = n := by rw [c2.length_eq]; simp
    have hin : i < n := by rw [← hlenG]; exact (List.getElem?_eq_some_iff.mp hi).1
    have hat : ∀ j, j < n → ∃ q, sd.aBas[j]? = some q ∧ (sd.aBas.map (fun p => Matrix.vecMul (w p) sd.sLV)).getD j 0 = Matrix.vecMul (w q) sd.sLV := by
      intro j hj
      have hj' : j < sd.aBas.length := by omega
      refine ⟨sd.aBas[j], List.getElem?_eq_getElem hj', ?_⟩
      rw [List.getD_eq_getElem?_getD, List.getElem?_map, List.getElem?_eq_getElem hj']
      rfl
    have hxq : x = fun i => P.mulVec (fun j => (z j : ℝ)) i + [d'].getD 0 0 i := by
      have : x = P.mulVec (fun j => (z j : ℝ)) + d' := by rw [hz]; abel
      rw [this]
      rfl
    rw [← hxq] at hpp
    obtain ⟨q, hq1, hq2⟩ := hat i hin
    have hqL := c3 i q g hq1 hi
    have hxL : x - Matrix.vecMul (w q) sd.sLV ∈ L := by
      have := hsub (hsub hpp hqL) (hmove q)
      convert this using 1
      abel
    refine ⟨i, ⟨by rw [List.length_map, c1]; exact hin, by rw [hq2]; exact hxL⟩, ?_⟩
    rintro j ⟨hj, hjL⟩
    rw [List.length_map, c1] at hj
    obtain ⟨q', hq1', hq2'⟩ := hat j hj
    rw [hq2'] at hjL
    by_contra hne
    refine c4 ?_ j i q' q hne hq1' hq1 ?_
    · intro i j hi hj _
      simp at hi hj
      omega
    · have := hsub (hsub hxL (hmove' q)) (hsub hjL (hmove' q'))
      convert this using 1
      abel

end

/-! ## The lines of the shapes -/

/-- The corner `s` of the cell. -/
def Spec.corner (c : M3 ℝ) (s : Fin 3 → Bool) : V3 := fun j => ∑ i, if s i then c i j else 0

/-- The corners of the lines, as they are listed in the code. -/
def edgeCodes : List ((Fin 3 → Bool) × (Fin 3 → Bool)) :=
  let o := ![false, false, false]
  let x := ![true, false, false]
  let y := ![false, true, false]
  let z := ![false, false, true]
  let xy := ![true, true, false]
  let xz := ![true, false, true]
  let yz := ![false, true, true]
  let xyz := ![true, true, true]
  [(o, x), (o, y), (o, z), (xz, x), (xz, z), (xy, x), (xy, y), (xz, z), (yz, z), (yz, y), (yz, xyz), (xz, xyz), (xy, xyz)]

theorem cellEdges_codes (c : M3 ℝ) : cellEdges c = edgeCodes.map (fun st => (corner c st.1, corner c st.2)) := by
  have h : ∀ a b d : Bool, corner c ![a, b, d] = fun j => (if a then c 0 j else 0) + (if b then c 1 j else 0) + (if d then c 2 j else 0) := by
    intro a b d
    funext j
    unfold corner
    rw [Fin.sum_univ_three]
    rfl
  have e : ∀ {p q : V3}, (∀ j, p j = q j) → p = q := fun h => funext h
  simp only [edgeCodes, cellEdges, List.map_cons, List.map_nil, h, List.cons.injEq, Prod.mk.injEq, and_true]
  refine ⟨⟨?_, ?_⟩, ⟨?_, ?_⟩, ⟨?_, ?_⟩, ⟨?_, ?_⟩, ⟨?_, ?_⟩, ⟨?_, ?_⟩, ⟨?_, ?_⟩, ⟨?_, ?_⟩, ⟨?_, ?_⟩, ⟨?_, ?_⟩, ⟨?_, ?_⟩, ⟨?_, ?_⟩, ?_, ?_⟩ <;>
    (apply e; intro j; simp [Pi.add_apply]; try ring)

theorem edgeCodes_all : ∀ s t : Fin 3 → Bool, ((s, t) ∈ edgeCodes ∨ (t, s) ∈ edgeCodes) ↔ ∃ i, ∀ j, s j ≠ t j ↔ j = i := by
  decide +kernel

/-- C64. The lines of the shape of a cell are the twelve edges: the segments between corners that differ in one direction. -/
theorem C64_edges (c : M3 ℝ) (p q : V3) : ((p, q) ∈ cellEdges c ∨ (q, p) ∈ cellEdges c) ↔
    ∃ (s t : Fin 3 → Bool) (i : Fin 3), (∀ j, s j ≠ t j ↔ j = i) ∧ p = corner c s ∧ q = corner c t := by
  rw [cellEdges_codes]
  constructor
  · rintro (h | h)
    · obtain ⟨⟨s, t⟩, hm, he⟩ := List.mem_map.mp h
      obtain ⟨i, hi⟩ := (edgeCodes_all s t).mp (Or.inl hm)
      exact ⟨s, t, i, hi, (congrArg Prod.fst he).symm, (congrArg Prod.snd he).symm⟩
    · obtain ⟨⟨t, s⟩, hm, he⟩ := List.mem_map.mp h
      obtain ⟨i, hi⟩ := (edgeCodes_all s t).mp (Or.inr hm)
      exact ⟨s, t, i, hi, (congrArg Prod.snd he).symm, (congrArg Prod.fst he).symm⟩
  · rintro ⟨s, t, i, hi, rfl, rfl⟩
    rcases (edgeCodes_all s t).mpr ⟨i, hi⟩ with h | h
    · exact Or.inl (List.mem_map.mpr ⟨_, h, rfl⟩)
    · exact Or.inr (List.mem_map.mpr ⟨_, h, rfl⟩)

/-! ## The figures -/

/-- The file enum.in lists supercells: each line has the six numbers of an HNF that can be drawn, the numbers of atoms of the species, and the number wanted. -/
def Spec.Drawable (P : M3 ℝ) (rows : List ((ℕ × HNF6 × Conc) × ℕ)) : Prop :=
  ∀ r ∈ rows, ∃ n u, CanDraw P n u ∧ r.1.2.1 = hnfNumbers u

theorem hnfOfLine_ok (r : (ℕ × HNF6 × Conc) × ℕ) (h : r.1.2.1.length = 6) : hnfOfLine (enumInLine r) = .ok r.1.2.1 := by
  unfold hnfOfLine
  rw [split_enumIn]
  have h1 : ((enumInNums r).map intStr).dropLast = (r.1.2.1 ++ r.1.2.2.map (fun c : ℕ => (c : ℤ))).map intStr := by
    unfold enumInNums
    rw [List.map_append, List.map_cons, List.map_nil, List.dropLast_concat]
  rw [h1, mapM_parse _ _ parseInt_intStr]
  show Except.ok (List.take 6 _) = _
  rw [← h, List.take_left]

theorem figures_lines (rows : List ((ℕ × HNF6 × Conc) × ℕ)) :
    (fileLines (printAll rows)).filter (fun line => !line.contains '#') = rows.map enumInLine := by
  have h1 : fileLines (printAll rows) = (none :: rows.map some).map enumInText := by
    rw [printAll_eq, ← List.flatMap_map enumInText (fun l => l ++ ['\n'])]
    apply fileLines_eq
    intro l hl
    obtain ⟨x, -, rfl⟩ := List.mem_map.mp hl
    cases x with
    | none => decide
    | some p => exact (numLine_enumIn p).no_newline
  rw [h1, List.map_cons, List.filter_cons_of_neg (by decide), List.map_map, List.filter_eq_self.mpr]
  · rfl
  · intro l hl
    obtain ⟨p, -, rfl⟩ := List.mem_map.mp hl
    have h := numLine_enumIn p
    simp only [Bool.not_eq_true', Function.comp]
    by_contra hc
    rw [Bool.not_eq_false, List.contains_iff_mem] at hc
    rcases h _ hc with h | h | h
    · exact absurd h (by decide)
    · exact absurd h (by decide)
    · exact absurd h (by decide)

/-- The name of the figure of the HNF with the numbers `h`. -/
def Spec.figureName (h : HNF6) : Str := joinStr [] (h.map intStr) ++ ".pdf".toList

/-- The figure of the supercell `u` of the crystal with the lattice vectors `P` (rows) and one atom at `d`: one cell of the superlattice with its atoms,
and, if the shapes are wanted, the edges of the cell. -/
def Spec.Shows (shapes : Bool) (P : M3 ℝ) (d : V3) (u : M3 ℤ) (f : HnfFigure) : Prop :=
  ∃ cell, ShowsCell (CrystalSites (ColLattice P.transpose) [d]) (SupLat P u) cell f.atoms ∧ f.edges = if shapes then cellEdges cell else []

section
variable {latText : Str} {lat : LatticeIn} {P0 : Matrix (Fin 3) (Fin 3) ℚ} {d0 : Fin 3 → ℚ} {rows : List ((ℕ × HNF6 × Conc) × ℕ)}

/-- What is drawn: the columns of the matrix of the lattice vectors are taken for its rows. -/
theorem figures_any (hread : readLattice latText = .ok lat) (hgeo : lat.geometry = .ok (P0, [d0])) (hk : 1 ≤ lat.nspecies)
    (h : Drawable (realMat P0) rows) (shapes : Bool) :
    ∃ figs, hnfFigures shapes (printAll rows) latText = (pure figs : Run _) ∧
      List.Forall₂ (fun r f => f.1 = figureName r.1.2.1 ∧ ∀ n u, 1 ≤ n → u ∈ findAllHNFs n → r.1.2.1 = hnfNumbers u →
        Shows shapes (realMat P0).transpose (fun i => ((d0 i : ℚ) : ℝ)) u f.2) rows figs := by
  have key := run_mapM_forall (fun r => plotLine shapes (realMat P0) (realVecs [d0]) lat.nspecies.toNat (enumInLine r))
    (fun r f => f.1 = figureName r.1.2.1 ∧ ∀ n u, 1 ≤ n → u ∈ findAllHNFs n → r.1.2.1 = hnfNumbers u →
        Shows shapes (realMat P0).transpose (fun i => ((d0 i : ℚ) : ℝ)) u f.2) rows (by
    intro r hr
    obtain ⟨n, u, hd, he⟩ := h r hr
    obtain ⟨cell, atoms, h1, h2⟩ := plotCell_shows (fun i => ((d0 i : ℚ) : ℝ)) (k := lat.nspecies.toNat) (by omega) hd
    refine ⟨(figureName r.1.2.1, ⟨if shapes then cellEdges cell else [], atoms⟩), ?_, rfl, ?_⟩
    · show plotLine _ _ _ _ _ = _
      unfold plotLine
      rw [hnfOfLine_ok r (by rw [he]; rfl), runPy_ok, pure_bind, he]
      show (plotCell (realMat P0) [fun i => ((d0 i : ℚ) : ℝ)] _ _ >>= _) = _
      rw [h1, pure_bind]
      rfl
    · intro m v hm hv hev
      have huv : v = u := by rw [← (hnf_numbers_full hm hv).1, ← hev, he, (hnf_numbers_full hd.pos hd.hnf).1]
      subst huv
      refine ⟨cell, ?_, rfl⟩
      unfold SupLat
      rw [Matrix.transpose_transpose]
      exact h2)
  obtain ⟨figs, h1, h2⟩ := key
  refine ⟨figs, ?_, h2⟩
  unfold hnfFigures
  rw [hread, runPy_ok, pure_bind, hgeo, runPy_ok, pure_bind, figures_lines, List.mapM_map]
  exact h1

/-- C64. `-visualize` on a file of supercells of up to seven cells, for a crystal with one atom whose matrix of lattice vectors is symmetric: one figure is
made for each line, in order. It shows one cell of the superlattice with exactly the atoms of the crystal in it, and with `-shapes` the edges of the cell. -/
theorem C64_figures (hread : readLattice latText = .ok lat) (hgeo : lat.geometry = .ok (P0, [d0])) (hk : 1 ≤ lat.nspecies)
    (hsym : P0.transpose = P0) (h : Drawable (realMat P0).transpose rows) (shapes : Bool) {input lattice : Str} {d : Dir}
    (hd : dictGet d lattice = some latText) (hi : dictGet d input = some (printAll rows)) :
    ∃ figs, plotHNFs shapes (some input) lattice d = (pure figs : Run _) ∧
      List.Forall₂ (fun r f => f.1 = figureName r.1.2.1 ∧ ∀ n u, 1 ≤ n → u ∈ findAllHNFs n → r.1.2.1 = hnfNumbers u →
        Shows shapes (realMat P0) (fun i => ((d0 i : ℚ) : ℝ)) u f.2) rows figs := by
  have hs : (realMat P0).transpose = realMat P0 := by
    unfold realMat
    rw [← Matrix.transpose_map, hsym]
  rw [hs] at h
  obtain ⟨figs, h1, h2⟩ := figures_any hread hgeo hk h shapes
  rw [hs] at h2
  refine ⟨figs, ?_, h2⟩
  unfold plotHNFs readFile
  rw [hd]
  simp only [runPy_ok, pure_bind, hi]
  exact h1

end

/-- C64. The cubic lattices (edge at least 1/50): every supercell of up to seven cells can be drawn. -/
theorem C64_cubic_drawable {a : ℚ} (ha : 1 / 50 ≤ a) {P0 : Matrix (Fin 3) (Fin 3) ℚ} (h : CubicVectors a P0) {rows : List ((ℕ × HNF6 × Conc) × ℕ)}
    (hrows : ∀ r ∈ rows, ∃ n u, 1 ≤ n ∧ n ≤ 7 ∧ u ∈ findAllHNFs n ∧ r.1.2.1 = hnfNumbers u) : Drawable (realMat P0).transpose rows := by
  intro r hr
  obtain ⟨n, u, hn, h7, hu, he⟩ := hrows r hr
  have ha' : (1 / 50 : ℝ) ≤ a := by
    have : ((1 / 50 : ℚ) : ℝ) ≤ a := by exact_mod_cast ha
    simpa using this
  refine ⟨n, u, ⟨hn, h7, hu, ?_, C39_cubic ha' (cubic_real h) (by norm_num) (by norm_num) hn h7 hu⟩, he⟩
  rw [Matrix.det_mul, castM_det, findAll_det hn hu, abs_mul, Matrix.det_transpose]
  have hP : |(realMat P0).det| = (a : ℝ) ^ 3 ∨ |(realMat P0).det| = (a : ℝ) ^ 3 / 4 ∨ |(realMat P0).det| = (a : ℝ) ^ 3 / 2 := by
    obtain ⟨σ, h⟩ := cubic_real h
    have hpos : (0 : ℝ) ≤ a := by linarith
    have hsub : ∀ (Q : M3 ℝ), (∀ i, realMat P0 i = Q (σ i)) → |(realMat P0).det| = |Q.det| := by
      intro Q hQ
      have : realMat P0 = Q.submatrix σ id := by
        ext i j
        rw [hQ i]
        rfl
      rw [this, Matrix.det_permute, abs_mul]
      rcases Int.units_eq_one_or (Equiv.Perm.sign σ) with h | h <;> rw [h] <;> simp
    rcases h with h | h | h
    · left
      rw [hsub _ h, Matrix.det_fin_three]
      simp
      rw [abs_of_nonneg hpos]
      ring
    · right; left
      rw [hsub _ h, Matrix.det_fin_three]
      simp
      rw [show (a : ℝ) / 2 * (a / 2) * (a / 2) + a / 2 * (a / 2) * (a / 2) = a ^ 3 / 4 by ring, abs_of_nonneg (by positivity)]
    · right; right
      rw [hsub _ h, Matrix.det_fin_three]
      simp
      rw [abs_of_nonneg (by ring_nf; positivity)]
      ring
  have h3 : (1 / 50 : ℝ) ^ 3 ≤ (a : ℝ) ^ 3 := pow_le_pow_left₀ (by norm_num) ha' 3
  have hb : (1 / 50 : ℝ) ^ 3 / 4 ≤ |(realMat P0).det| := by
    have : (0 : ℝ) ≤ (a : ℝ) ^ 3 := by
      refine le_trans ?_ h3
      norm_num
    rcases hP with h | h | h <;> rw [h] <;> linarith
  have hn' : (1 : ℝ) ≤ |(((n : ℕ) : ℤ) : ℝ)| := by
    rw [Int.cast_natCast, Nat.abs_cast]
    exact_mod_cast hn
  have : (1 / 50 : ℝ) ^ 3 / 4 * 1 ≤ |(realMat P0).det| * |(((n : ℕ) : ℤ) : ℝ)| := by gcongr
  refine lt_of_lt_of_le ?_ this
  norm_num

/-- the layered supercells of the face centred cubic lattice, as in an enum.in file -/
example (d : Dir) (hd : dictGet d "lattice.in".toList = some fccText)
    (hi : dictGet d "enum.in".toList = some (printAll [((2, [1, 0, 1, 0, 0, 2], [1, 1, 0]), 1), ((3, [1, 0, 1, 0, 2, 3], [1, 1, 1]), 2)])) :
    ∃ f g, plotHNFs true (some "enum.in".toList) "lattice.in".toList d = (pure [("101002.pdf".toList, f), ("101023.pdf".toList, g)] : Run _) ∧
      Shows true (realMat fccP0) 0 (hnfMat 1 0 1 0 0 2) f ∧ Shows true (realMat fccP0) 0 (hnfMat 1 0 1 0 2 3) g := by
  have hcub : CubicVectors (1 : ℚ) fccP0 := ⟨Fin.revPerm, Or.inr (Or.inl fun i => by funext j; fin_cases i <;> fin_cases j <;> rfl)⟩
  have h2 : hnfMat 1 0 1 0 0 2 ∈ findAllHNFs 2 := by decide +kernel
  have h3 : hnfMat 1 0 1 0 2 3 ∈ findAllHNFs 3 := by decide +kernel
  obtain ⟨figs, h1, h⟩ := C64_figures (rows := [((2, [1, 0, 1, 0, 0, 2], [1, 1, 0]), 1), ((3, [1, 0, 1, 0, 2, 3], [1, 1, 1]), 2)])
    (read_of_match fcc_read') (P0 := fccP0) (d0 := ![0, 0, 0]) (by rfl) (by decide)
    (by ext i j; fin_cases i <;> fin_cases j <;> rfl)
    (C64_cubic_drawable (by norm_num) hcub (by
      intro r hr
      simp only [List.mem_cons, List.not_mem_nil, or_false] at hr
      rcases hr with rfl | rfl
      · exact ⟨2, _, by norm_num, by norm_num, h2, rfl⟩
      · exact ⟨3, _, by norm_num, by norm_num, h3, rfl⟩)) true hd hi
  obtain _ | ⟨⟨n1, s1⟩, h⟩ := h
  obtain _ | ⟨⟨n2, s2⟩, h⟩ := h
  obtain _ | _ := h
  rename_i f g
  have e0 : (fun i => ((![0, 0, 0] : Fin 3 → ℚ) i : ℝ)) = 0 := by funext i; fin_cases i <;> simp
  rw [e0] at s1 s2
  refine ⟨f.2, g.2, ?_, s1 2 _ (by norm_num) h2 rfl, s2 3 _ (by norm_num) h3 rfl⟩
  have e1 : figureName [1, 0, 1, 0, 0, 2] = "101002.pdf".toList := by decide +kernel
  have e2 : figureName [1, 0, 1, 0, 2, 3] = "101023.pdf".toList := by decide +kernel
  rw [h1, ← e1, ← e2, ← (n1 : f.1 = figureName [1, 0, 1, 0, 0, 2]), ← (n2 : g.1 = figureName [1, 0, 1, 0, 2, 3])]

/-! ## What goes wrong -/

/-- A lattice file with the vectors (1, 0, 0), (1/2, 1, 0), (0, 0, 1). -/
def shearText : Str := ofLines [
  "1 1",
  "bulk",
  "1 0 0",
  "0.5 1 0",
  "0 0 1",
  "2",
  "1",
  "0 0 0",
  "F"]

def shearLat : LatticeIn where
  bulk := true
  sizes := [1, 1]
  latVecs := [[1, 0, 0], [1/2, 1, 0], [0, 0, 1]]
  nspecies := 2
  basisVecs := [[0, 0, 0]]
  restricted := false
  arrows := false
  concs := []

theorem shear_read' : (match readLattice shearText with | .ok l => decide (l = shearLat) | .error _ => false) = true := by decide +kernel

def shearP0 : Matrix (Fin 3) (Fin 3) ℚ := Matrix.of ![![1, 0, 0], ![1/2, 1, 0], ![0, 0, 1]]

/-- the doubled columns -/
def shearZ : M3 ℤ := !![2, 1, 0; 0, 2, 0; 0, 0, 2]

theorem shear_zreduce : zMink 2000 100000 (zRow shearZ (hnfMat 1 0 1 0 0 1) 0) (zRow shearZ (hnfMat 1 0 1 0 0 1) 1) (zRow shearZ (hnfMat 1 0 1 0 0 1) 2) = true := by
  decide +kernel

theorem shear_draw : CanDraw (realMat shearP0) 1 (hnfMat 1 0 1 0 0 1) := by
  have hdet : ((realMat shearP0) * castM (hnfMat 1 0 1 0 0 1)).det = 1 := by
    rw [Matrix.det_mul, castM_det]
    simp [Matrix.det_fin_three, realMat, shearP0, hnfMat]
  refine ⟨le_refl _, by norm_num, by decide +kernel, by rw [hdet]; norm_num, ?_⟩
  have hsc : ZScale (1 / 2 : ℝ) (1 / 10 ^ 10) 2000 100000 := by
    refine ⟨by norm_num, by norm_num, by norm_num, by norm_num, by norm_num, by norm_num⟩
  have hcell := zRow_cell shearZ (hnfMat 1 0 1 0 0 1) (A := realMat shearP0) (s := (1 / 2 : ℝ)) (fun i j => by
    fin_cases i <;> fin_cases j <;> simp [realMat, shearP0, shearZ])
  rw [hcell]
  refine zMink_ok hsc ?_ shear_zreduce
  rw [← hcell, Matrix.det_transpose, hdet]
  norm_num

/-- C64 does not hold for all lattices: the matrix of the lattice vectors is used with rows and columns exchanged, so that the figure shows a cell of
another lattice than that of the file. -/
theorem C64_transposed (d : Dir) (hd : dictGet d "lattice.in".toList = some shearText)
    (hi : dictGet d "enum.in".toList = some (printAll [((1, [1, 0, 1, 0, 0, 1], [1, 0]), 1)])) :
    ∃ cell f, plotHNFs true (some "enum.in".toList) "lattice.in".toList d = (pure [f] : Run _) ∧ f.2.edges = cellEdges cell ∧
      ¬ ShowsCell (CrystalSites (ColLattice (realMat shearP0).transpose) [0]) (SupLat (realMat shearP0) 1) cell f.2.atoms := by
  obtain ⟨figs, h1, h⟩ := figures_any (rows := [((1, [1, 0, 1, 0, 0, 1], [1, 0]), 1)]) (latText := shearText) (lat := shearLat) (read_of_match shear_read') (P0 := shearP0) (d0 := ![0, 0, 0])
    (by rfl) (by decide) (by
      intro r hr
      rw [List.mem_singleton] at hr
      subst hr
      exact ⟨1, _, shear_draw, rfl⟩) true
  obtain _ | ⟨⟨n1, s1⟩, h⟩ := h
  obtain _ | _ := h
  rename_i f
  obtain ⟨cell, hc, he⟩ := s1 1 _ (le_refl _) shear_draw.hnf rfl
  refine ⟨cell, f, ?_, he, ?_⟩
  · unfold plotHNFs readFile
    rw [hd]
    simp only [runPy_ok, pure_bind, hi]
    exact h1
  · intro hcon
    have e := hc.lattice.symm.trans hcon.lattice
    have h2 : (![1 / 2, 1, 0] : V3) ∈ SupLat (realMat shearP0) 1 := by
      refine ⟨![0, 1, 0], ?_⟩
      funext i
      fin_cases i <;> simp [realMat, shearP0, Matrix.mulVec, dotProduct, Fin.sum_univ_three, Matrix.one_apply]
    rw [← e] at h2
    obtain ⟨z, hz⟩ := h2
    have h0 := congrFun hz 0
    simp [realMat, shearP0, hnfMat, Matrix.mulVec, dotProduct, Fin.sum_univ_three, Matrix.mul_apply, Matrix.map_apply] at h0
    have : (2 * z 0 : ℤ) = 1 := by
      have : (2 * (z 0 : ℝ)) = 1 := by linarith
      exact_mod_cast this
    omega

theorem spinLoop_index (k : ℕ) (labeling : List Char) (hk : 1 ≤ k) (hl : ∀ ch ∈ labeling, ch = '0') : ∀ (gs : List ℤ) (x : List ℕ) (spin : List ℤ),
    x.length = k → (∃ g ∈ gs, labeling.length ≤ g.toNat) → spinLoop k labeling gs x spin = .error .indexError
  | [], _, _, _, h => by obtain ⟨g, hg, -⟩ := h; exact absurd hg List.not_mem_nil
  | g :: gs, x, spin, hx, h => by
    unfold spinLoop
    by_cases hg : g.toNat < labeling.length
    · have h1 : pyGet labeling g.toNat = .ok '0' := by
        have := hl labeling[g.toNat] (List.getElem_mem _)
        simp [pyGet, hg, this]
      have h2 : pyGet x 0 = .ok (x.getD 0 0) := by
        have : 0 < x.length := by omega
        simp [pyGet, this]
      rw [h1]
      simp only [bind, Except.bind, show digitOf '0' = .ok 0 from rfl, h2]
      refine spinLoop_index k labeling hk hl gs _ _ (by rw [List.length_set, hx]) ?_
      obtain ⟨g', hg', hlen⟩ := h
      rcases List.mem_cons.mp hg' with rfl | hg'
      · omega
      · exact ⟨g', hg', hlen⟩
    · have h1 : pyGet labeling g.toNat = .error .indexError := by
        simp [pyGet, not_lt.mp hg]
      rw [h1]
      rfl

/-- With two atoms or more in the parent cell no figure is made: IndexError (the labeling is given for one atom in each cell). -/
theorem plotCell_basis {n : ℕ} {u : M3 ℤ} {P : M3 ℝ} {ds : List V3} (h2 : 2 ≤ ds.length) {k : ℕ} (hk : 1 ≤ k) (h : CanDraw P n u) :
    plotCell P ds k (hnfNumbers u) = (throw .indexError : Run _) := by
  obtain ⟨hn, h7, hu, hvol, N, hN⟩ := h
  obtain ⟨hfull, hlen6⟩ := hnf_numbers_full hn hu
  have hdetu := findAll_det hn hu
  obtain ⟨s, hs⟩ := C24_smith_succeeds u (by rw [hdetu]; exact_mod_cast hn) (by rw [hdetu]; norm_num; omega)
  obtain ⟨uA, uB, hS, hM, hdet⟩ := snf_data hs
  have hnS : (s.M 0 0 * s.M 1 1 * s.M 2 2).toNat = n := by rw [← hdet, hdetu]; simp
  obtain ⟨a, b, c, dd, e, f, hue, hprod, hx, -⟩ := row_ofCell hn hu hs []
  have hst : (⟨n, u, fun i => s.M i i, s.A, List.replicate n '0'⟩ : StructData) = structOf a b c dd e f s (List.replicate n '0') := by
    unfold structOf
    rw [hprod, hue]
  have hpts : (interiorPoints a b c dd e f).length = a * c * f := by
    have := (small_cell_data hn h7 hu hs).2
    rw [hue] at this
    rw [hprod, ← this]
    simp [hnfMat]
  have hSC : superCell P (hnfMat a b c dd e f) (1 / 10 ^ 10) true = .ok N := by rw [← hue]; exact hN
  have hmap : mapToRealSpace P ds k (1 / 10 ^ 10) (structOf a b c dd e f s (List.replicate n '0')) true = .error .indexError := by
    rw [mapToRealSpace_eq P ds k _ a b c dd e f s _ true hSC]
    simp only
    rw [if_neg (by rw [not_not, flat_length, hpts]; ring), spinLoop_index k _ hk (fun ch hch => List.eq_of_mem_replicate hch) _ _ _ (by simp)]
    have hpos : 0 < (interiorPoints a b c dd e f).length := by omega
    obtain ⟨z, hz⟩ := List.exists_mem_of_length_pos hpos
    refine ⟨_, List.mem_map.mpr ⟨(1, z), mem_flat.mpr ⟨h2, hz⟩, rfl⟩, ?_⟩
    rw [groupIndex_eq, List.length_replicate]
    have h0 := enc_nonneg hS (red_valid hS (s.A.mulVec z))
    have hn' : s.M 0 0 * s.M 1 1 * s.M 2 2 = n := by rw [← hdet, hdetu]
    simp only [Nat.cast_one, one_mul]
    rw [hn']
    omega
  have hr : ∀ {α : Type} (v : α), runPy (.ok v) = (pure v : Run α) := fun _ => rfl
  unfold plotCell
  rw [if_neg (by omega), hfull, hr, pure_bind, show runO (smithNormalForm u) = (pure s : Run _) from hs, pure_bind]
  simp only [hnS]
  rw [hst, hmap]
  rfl

/-- C64 does not hold for crystals with several atoms: if the parent cell has two atoms or more, the run stops with IndexError at the first supercell. -/
theorem C64_one_atom_only {latText : Str} {lat : LatticeIn} {P0 : Matrix (Fin 3) (Fin 3) ℚ} {b0 : List (Fin 3 → ℚ)}
    {rows : List ((ℕ × HNF6 × Conc) × ℕ)} (hread : readLattice latText = .ok lat) (hgeo : lat.geometry = .ok (P0, b0)) (hk : 1 ≤ lat.nspecies)
    (h2 : 2 ≤ b0.length) (hne : rows ≠ []) (h : Drawable (realMat P0) rows) (shapes : Bool) {input lattice : Str} {d : Dir}
    (hd : dictGet d lattice = some latText) (hi : dictGet d input = some (printAll rows)) :
    plotHNFs shapes (some input) lattice d = (throw .indexError : Run _) := by
  unfold plotHNFs readFile
  rw [hd]
  simp only [runPy_ok, pure_bind, hi]
  unfold hnfFigures
  rw [hread, runPy_ok, pure_bind, hgeo, runPy_ok, pure_bind, figures_lines]
  obtain ⟨r, rs, rfl⟩ := List.exists_cons_of_ne_nil hne
  obtain ⟨n, u, hdr, he⟩ := h r List.mem_cons_self
  rw [List.map_cons, List.mapM_cons]
  have : plotLine shapes (realMat P0) (realVecs b0) lat.nspecies.toNat (enumInLine r) = (throw .indexError : Run _) := by
    unfold plotLine
    rw [hnfOfLine_ok r (by rw [he]; rfl), runPy_ok, pure_bind, he, plotCell_basis (by unfold realVecs; rwa [List.length_map]) (by omega) hdr]
    rfl
  rw [this]
  rfl

/-- A lattice file with two atoms in the cubic cell. -/
def twoAtomText : Str := ofLines [
  "1 2",
  "bulk",
  "1 0 0",
  "0 1 0",
  "0 0 1",
  "2",
  "2",
  "0 0 0",
  "0.5 0.5 0.5",
  "F"]

def twoAtomLat : LatticeIn where
  bulk := true
  sizes := [1, 2]
  latVecs := [[1, 0, 0], [0, 1, 0], [0, 0, 1]]
  nspecies := 2
  basisVecs := [[0, 0, 0], [1/2, 1/2, 1/2]]
  restricted := false
  arrows := false
  concs := []

theorem two_read' : (match readLattice twoAtomText with | .ok l => decide (l = twoAtomLat) | .error _ => false) = true := by decide +kernel

example (d : Dir) (hd : dictGet d "lattice.in".toList = some twoAtomText)
    (hi : dictGet d "enum.in".toList = some (printAll [((2, [1, 0, 1, 0, 0, 2], [1, 3]), 1)])) :
    plotHNFs false (some "enum.in".toList) "lattice.in".toList d = (throw .indexError : Run _) := by
  have e : (Matrix.of ![![1, 0, 0], ![0, 1, 0], ![0, 0, 1]] : Matrix (Fin 3) (Fin 3) ℚ).transpose = Matrix.of ![![1, 0, 0], ![0, 1, 0], ![0, 0, 1]] := by
    ext i j
    fin_cases i <;> fin_cases j <;> rfl
  have hcub : CubicVectors (1 : ℚ) (Matrix.of ![![1, 0, 0], ![0, 1, 0], ![0, 0, 1]]) :=
    ⟨1, Or.inl fun i => by funext j; fin_cases i <;> fin_cases j <;> rfl⟩
  have hdr := C64_cubic_drawable (by norm_num) hcub (rows := [((2, [1, 0, 1, 0, 0, 2], [1, 3]), 1)]) (by
    intro r hr
    rw [List.mem_singleton] at hr
    subst hr
    exact ⟨2, hnfMat 1 0 1 0 0 2, by norm_num, by norm_num, by decide +kernel, rfl⟩)
  refine C64_one_atom_only (latText := twoAtomText) (lat := twoAtomLat) (read_of_match two_read') (P0 := Matrix.of ![![1, 0, 0], ![0, 1, 0], ![0, 0, 1]])
    (b0 := [![0, 0, 0], ![1/2, 1/2, 1/2]]) rfl (by decide) (by simp) (by simp) ?_ false hd hi
  unfold realMat at hdr ⊢
  rwa [← Matrix.transpose_map, e] at hdr

/-- C64. Without `-input` the figures are not made: the name of the file is `None`, TypeError. -/
theorem C64_needs_input (shapes : Bool) {lattice text : Str} {d : Dir} (hd : dictGet d lattice = some text) :
    plotHNFs shapes none lattice d = (throw .typeError : Run _) := by
  unfold plotHNFs readFile
  rw [hd]
  rfl

/-! ## The names of the figures -/

theorem digit_join : ∀ (h h' : List ℤ), (∀ x ∈ h, 0 ≤ x ∧ x ≤ 9) → (∀ x ∈ h', 0 ≤ x ∧ x ≤ 9) → h.length = h'.length →
    joinStr [] (h.map intStr) = joinStr [] (h'.map intStr) → h = h'
  | [], [], _, _, _, _ => rfl
  | [], _ :: _, _, _, h, _ => by simp at h
  | _ :: _, [], _, _, h, _ => by simp at h
  | x :: h, y :: h', hx, hy, hl, he => by
    have hj : ∀ (z : ℤ) (l : List ℤ), joinStr [] ((z :: l).map intStr) = intStr z ++ joinStr [] (l.map intStr) := by
      intro z l
      cases l with
      | nil => simp [joinStr]
      | cons w l => simp [joinStr]
    have h1 : ∀ z : ℤ, 0 ≤ z ∧ z ≤ 9 → ∀ w : ℤ, 0 ≤ w ∧ w ≤ 9 → (intStr z).length = (intStr w).length ∧ (intStr z = intStr w → z = w) := by
      intro z hz w hw
      obtain ⟨hz1, hz2⟩ := hz
      obtain ⟨hw1, hw2⟩ := hw
      interval_cases z <;> interval_cases w <;> decide +kernel
    rw [hj, hj] at he
    obtain ⟨l1, l2⟩ := h1 x (hx x List.mem_cons_self) y (hy y List.mem_cons_self)
    obtain ⟨e1, e2⟩ := List.append_inj he l1
    rw [l2 e1, digit_join h h' (fun z hz => hx z (List.mem_cons_of_mem _ hz)) (fun z hz => hy z (List.mem_cons_of_mem _ hz)) (by simpa using hl) e2]

/-- C64. The figures of different supercells of up to nine cells have different names. -/
theorem C64_names_distinct {n m : ℕ} (hn : 1 ≤ n) (hn9 : n ≤ 9) (hm : 1 ≤ m) (hm9 : m ≤ 9) {u v : M3 ℤ} (hu : u ∈ findAllHNFs n) (hv : v ∈ findAllHNFs m)
    (h : figureName (hnfNumbers u) = figureName (hnfNumbers v)) : u = v := by
  have key : ∀ {n : ℕ} {u : M3 ℤ}, 1 ≤ n → n ≤ 9 → u ∈ findAllHNFs n → ∀ x ∈ hnfNumbers u, 0 ≤ x ∧ x ≤ 9 := by
    intro n u hn hn9 hu
    obtain ⟨a, b, c, d, e, f, h1, h2, h3, h4, rfl⟩ := (mem_findAllHNFs hn u).mp hu
    have h0 : 0 < a * c * f := by omega
    have ha : 0 < a := Nat.pos_of_ne_zero (by rintro rfl; simp at h0)
    have hc : 0 < c := Nat.pos_of_ne_zero (by rintro rfl; simp at h0)
    have hf : 0 < f := Nat.pos_of_ne_zero (by rintro rfl; simp at h0)
    have la : a ≤ a * c * f := by nlinarith [Nat.mul_pos hc hf, Nat.mul_pos ha hc]
    have lc : c ≤ a * c * f := by nlinarith [Nat.mul_pos ha hf, Nat.mul_pos ha hc]
    have lf : f ≤ a * c * f := by nlinarith [Nat.mul_pos ha hf, Nat.mul_pos ha hc]
    intro x hx
    simp only [hnfNumbers, hnfMat, List.mem_cons, List.not_mem_nil, or_false] at hx
    simp at hx
    omega
  have h1 := List.append_cancel_right h
  have h2 := digit_join _ _ (key hn hn9 hu) (key hm hm9 hv) rfl h1
  rw [← (hnf_numbers_full hn hu).1, h2, (hnf_numbers_full hm hv).1]

/-- From twelve cells on the names collide: one figure overwrites the other. -/
theorem C64_names_collide : ∃ u ∈ findAllHNFs 12, ∃ v ∈ findAllHNFs 12, u ≠ v ∧ figureName (hnfNumbers u) = figureName (hnfNumbers v) := by
  refine ⟨hnfMat 1 0 1 1 11 12, ?_, hnfMat 1 0 1 11 1 12, ?_, by decide, by decide +kernel⟩
  · rw [mem_findAllHNFs (by norm_num)]
    exact ⟨1, 0, 1, 1, 11, 12, by norm_num, by norm_num, by norm_num, by norm_num, rfl⟩
  · rw [mem_findAllHNFs (by norm_num)]
    exact ⟨1, 0, 1, 11, 1, 12, by norm_num, by norm_num, by norm_num, by norm_num, rfl⟩

end Phenum
