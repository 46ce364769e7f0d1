import Verif.Proof.RotGroup
import Verif.Proof.NoRepeats
import Verif.Props.SNF
import Mathlib.Data.Rat.Floor
/-
C29, C46: the permutations generated for a supercell.
-/
namespace Phenum
open Spec

/-- C29. The member list contains every triple of `0 <= x_i < S_i` exactly once, at its place in the lexicographic
order. -/
theorem C29_member_list (S : Fin 3 → ℤ) (hS : ∀ i, 0 < S i) :
    ((memberList S).length : ℤ) = S 0 * S 1 * S 2 ∧ (memberList S).Nodup ∧
    (∀ x, x ∈ memberList S ↔ ∀ i, 0 ≤ x i ∧ x i < S i) ∧
    ∀ x : Fin 3 → ℤ, (∀ i, 0 ≤ x i ∧ x i < S i) →
      (memberList S)[(x 0 * (S 1 * S 2) + x 1 * S 2 + x 2).toNat]? = some x := by
  refine ⟨by rw [memberList_length hS]; have := card_pos hS; omega, memberList_nodup hS, fun x => mem_memberList hS, ?_⟩
  intro x hx
  have := memberList_enc hS hx
  rwa [show enc S x = x 0 * (S 1 * S 2) + x 1 * S 2 + x 2 by unfold enc; ring] at this

/-- auxiliary: distinct rational basis points -/
def exBasis (nd : ℕ) : List (Fin 3 → ℚ) := (List.range nd).map (fun i : ℕ => ![(i : ℚ) / (nd + 1), 0, 0])

theorem exBasis_apart (nd : ℕ) : ∀ i j, i < nd → j < nd →
    (exBasis nd).getD i 0 - (exBasis nd).getD j 0 ∈ ColLattice (1 : M3 ℚ) → i = j := by
  intro i j hi hj h
  obtain ⟨x, hx⟩ := h
  have hget : ∀ k, k < nd → (exBasis nd).getD k 0 = ![(k : ℚ) / (nd + 1), 0, 0] := by
    intro k hk
    rw [List.getD_eq_getElem?_getD, exBasis, List.getElem?_map, List.getElem?_range hk]; rfl
  have h0 := congrFun hx 0
  rw [Matrix.one_mulVec, hget i hi, hget j hj] at h0
  simp only [Pi.sub_apply, Matrix.cons_val_zero] at h0
  have hp : (0 : ℚ) < nd + 1 := by positivity
  rw [← sub_div, eq_div_iff hp.ne'] at h0
  have h1 : x 0 * ((nd : ℤ) + 1) = (i : ℤ) - j := by exact_mod_cast h0
  have hx0 : x 0 = 0 := by
    by_contra hne
    have : 1 ≤ |x 0| := Int.one_le_abs hne
    have h2 : |x 0 * ((nd : ℤ) + 1)| = |x 0| * ((nd : ℤ) + 1) := by
      rw [abs_mul, abs_of_pos (by positivity : (0:ℤ) < (nd : ℤ) + 1)]
    rw [h1] at h2
    have h3 : |(i : ℤ) - j| < nd + 1 := by rw [abs_lt]; omega
    nlinarith
  rw [hx0] at h1
  omega

/-- C29. The permutations derived from the member list form a group, and for two sites belonging to the same basis
atom exactly one of them takes one to the other. -/
theorem C29_translations (S : Fin 3 → ℤ) (hS : ∀ i, 0 < S i) (nd : ℕ) :
    IsPermGroup (nd * (memberList S).length) (transPerms S (memberList S) (memberList S).length nd) ∧
    ∀ i j, i < nd * (memberList S).length → j < nd * (memberList S).length →
      i / (memberList S).length = j / (memberList S).length →
      ∃! σ, σ ∈ transPerms S (memberList S) (memberList S).length nd ∧ σ[i]? = some j := by
  have hT : (1 : M3 ℚ).det ≠ 0 := by simp
  have hd := exBasis_apart nd
  have hap := sites_apart hT hS hd
  have hsub := slat_isSub (1 : M3 ℚ) S
  have htr := fun t => transPerm_induces hT hS hd t
  set n := (memberList S).length with hn
  have hn0 : 0 < n := by rw [hn, memberList_length hS]; have := card_pos hS; omega
  have hmem : ∀ σ, σ ∈ transPerms S (memberList S) n nd ↔ ∃ t, Valid S t ∧ transPerm S (memberList S) n nd t = σ := by
    intro σ
    rw [transPerms_eq, List.mem_map]
    constructor
    · rintro ⟨t, ht, rfl⟩; exact ⟨t, (mem_memberList hS).mp ht, rfl⟩
    · rintro ⟨t, ht, rfl⟩; exact ⟨t, (mem_memberList hS).mpr ht, rfl⟩
  have hred : ∀ t, (1 : M3 ℚ).mulVec (castV t) - (1 : M3 ℚ).mulVec (castV (red S t)) ∈ SLat (1 : M3 ℚ) S := by
    intro t
    rw [← Matrix.mulVec_sub, ← castV_sub, slat_mem_iff hT]
    exact fun i => red_dvd S t i
  have hkeep : Keeps (SLat (1 : M3 ℚ) S) 1 :=
    ⟨fun u hu => by rwa [Matrix.one_mulVec], fun u hu => by rwa [Matrix.one_mulVec] at hu⟩
  refine ⟨⟨?_, ?_, ?_, ?_⟩, ?_⟩
  · intro σ hσ
    obtain ⟨t, -, rfl⟩ := (hmem σ).mp hσ
    exact (htr t).perm hsub hap
  · refine (hmem _).mpr ⟨0, valid_zero hS, ?_⟩
    refine (htr 0).unique hsub (induces_one hsub hap) ?_
    rw [castV_zero, Matrix.mulVec_zero, sub_zero]; exact hsub.zero
  · intro σ hσ τ hτ
    obtain ⟨t, -, rfl⟩ := (hmem σ).mp hσ
    obtain ⟨u, -, rfl⟩ := (hmem τ).mp hτ
    refine (hmem _).mpr ⟨red S (t + u), red_valid hS _, ?_⟩
    have hc := (htr t).comp hsub (htr u) hkeep
    rw [mul_one] at hc
    refine (hc.unique hsub (htr (red S (t + u))) ?_).symm
    have := hred (t + u)
    rw [castV_add, Matrix.mulVec_add] at this
    rwa [Matrix.one_mulVec]
  · intro σ hσ
    obtain ⟨t, -, rfl⟩ := (hmem σ).mp hσ
    refine ⟨transPerm S (memberList S) n nd (red S (-t)), (hmem _).mpr ⟨_, red_valid hS _, rfl⟩, ?_⟩
    have hc := (htr t).comp hsub (htr (red S (-t))) hkeep
    rw [mul_one] at hc
    refine hc.unique hsub (induces_one hsub hap) ?_
    have := hsub.neg _ (hred (-t))
    rw [castV_neg, Matrix.mulVec_neg] at this
    rw [Matrix.one_mulVec]
    convert this using 1
    abel
  · intro i j hi hj hij
    have him : i % n < n := Nat.mod_lt _ hn0
    have hjm : j % n < n := Nat.mod_lt _ hn0
    set x := (memberList S).getD (i % n) 0
    set y := (memberList S).getD (j % n) 0
    have hdiff : ∀ t, (1 : M3 ℚ).mulVec (sitePos 1 S (exBasis nd) n j) + (1 : M3 ℚ).mulVec (castV t) -
        sitePos 1 S (exBasis nd) n i = (1 : M3 ℚ).mulVec (castV (y + t - x)) := by
      intro t
      unfold sitePos
      rw [hij, castV_sub, castV_add]
      simp only [Matrix.one_mulVec]
      abel
    have hiff : ∀ t, (transPerm S (memberList S) n nd t)[i]? = some j ↔ ∀ k, S k ∣ (y + t - x) k := by
      intro t
      rw [(htr t).entries i j hi, hdiff, slat_mem_iff hT]
      simp [hj]
    refine ⟨transPerm S (memberList S) n nd (red S (x - y)), ⟨(hmem _).mpr ⟨_, red_valid hS _, rfl⟩, ?_⟩, ?_⟩
    · rw [hiff]
      intro k
      have := (dvd_neg).mpr (red_dvd S (x - y) k)
      simp only [Pi.add_apply, Pi.sub_apply] at this ⊢
      rw [show y k + red S (x - y) k - x k = -(x k - y k - red S (x - y) k) by ring]
      exact this
    · rintro σ ⟨hσ, hs⟩
      obtain ⟨t, ht, rfl⟩ := (hmem σ).mp hσ
      rw [hiff] at hs
      congr 1
      apply valid_eq ht (red_valid hS _)
      intro k
      have := dvd_add (hs k) (red_dvd S (x - y) k)
      simp only [Pi.add_apply, Pi.sub_apply] at this
      rw [show t k - red S (x - y) k = y k + t k - x k + (x k - y k - red S (x - y) k) by ring]
      exact this

section
variable {K : Type} [Field K] [LinearOrder K] [IsStrictOrderedRing K] [FloorRing K]

/-- C46. Let the columns of `A` be a basis of the parent lattice, `d` the basis atoms (pairwise inequivalent modulo the
lattice), `H` a supercell with Smith normal form data `s`, and let `ops` be a space group of the crystal (up to lattice
translations): every operation `x ↦ rot x + shift` maps the parent lattice and the superlattice onto themselves, maps
atom `i` to atom `dperm[i]` minus the lattice vector `v[i]`, is orthogonal and maps the six arrow directions to arrow
directions (if arrows are not wanted, it is enough that the images under the inverse, rounded, give all six
directions: the code checks this in any case). Then the routine succeeds, and its result `G` is exactly the set of permutations of sites (and arrows)
induced by the operations combined with lattice translations; it is a group; and its first `n` elements are exactly the
permutations induced by the lattice translations. Here `pos` numbers the sites of the supercell, those of basis atom
`a` being the numbers `a*n .. a*n+n-1`, each site of the crystal being equivalent to exactly one of them; it is the
numbering used when POSCAR files are made (C28). The identity comes first and the first `n` permutations of the sites are
different; all elements are different if there are arrows and no two operations have the same rotation, or if there are
no arrows, the first atom is at the origin and shifts that differ by a lattice vector are equal. -/
theorem C46_generated_group (A : M3 K) (hA : A.det ≠ 0) (H : M3 ℤ) (s : SnfState)
    (hs : smithNormalForm H = some (.ok s)) (n : ℕ) (hn : (n : ℤ) = H.det) (d : List (Fin 3 → K))
    (hd : ∀ i j, i < d.length → j < d.length → d.getD i 0 - d.getD j 0 ∈ ColLattice A → i = j)
    (ops : List (CellOp K)) (hG : IsSpaceGroup (ColLattice A) (ops.map (fun o => (o.rot, o.shift))))
    (hlat : ∀ o ∈ ops, ColLattice (o.rot * A) = ColLattice A)
    (hsup : ∀ o ∈ ops, ColLattice (o.rot * (A * H.map (fun x => (x : K)))) = ColLattice (A * H.map (fun x => (x : K))))
    (hrow : ∀ o ∈ ops, ∀ i, i < d.length → o.dperm.getD i 0 < d.length ∧ o.v.getD i 0 ∈ ColLattice A ∧
      o.rot.mulVec (d.getD i 0) + o.shift = d.getD (o.dperm.getD i 0) 0 - o.v.getD i 0)
    (horth : ∀ o ∈ ops, o.rot.transpose * o.rot = 1)
    (arrows : Bool) (harr : ∀ o ∈ ops, ∀ k a, IsArrowDir k a → ∃ m b, IsArrowDir m b ∧
      if arrows then o.rot.mulVec (fun i => (a i : K)) = (fun i => (b i : K))
      else ∀ i, RoundsTo (o.rot.transpose.mulVec (fun i => (b i : K)) i) (a i))
    (eps : K) (heps : 0 ≤ eps) :
    ∃ G pos, rotationPerms A n d.length s.A (fun i => s.M i i) ops eps arrows = .ok G ∧
      (∀ k, k < d.length * n → pos k - d.getD (k / n) 0 ∈ ColLattice A) ∧
      (∀ a, a < d.length → ∀ l ∈ ColLattice A, ∃! k, k < d.length * n ∧
        d.getD a 0 + l - pos k ∈ ColLattice (A * H.map (fun x => (x : K)))) ∧
      (∀ g, g ∈ G ↔ ∃ o ∈ ops, ∃ t ∈ ColLattice A,
        Induces (ColLattice (A * H.map (fun x => (x : K)))) (d.length * n) pos o.rot (o.shift + t) g.1 ∧
        if arrows then TurnsArrows o.rot g.2 else g.2 = List.range 6) ∧
      IsOpGroup (d.length * n) 6 G ∧
      (∀ g, g ∈ G.take n ↔ g.2 = List.range 6 ∧ ∃ t ∈ ColLattice A,
        Induces (ColLattice (A * H.map (fun x => (x : K)))) (d.length * n) pos 1 t g.1) ∧
      pos = sitePos (castM s.A * A⁻¹)⁻¹ (fun i => s.M i i) d n ∧
      (d ≠ [] → n ≤ G.length ∧ G[0]? = some (List.range (d.length * n), List.range 6) ∧ ((G.take n).map (·.1)).Nodup ∧
        ((if arrows then ops.Pairwise (fun o o' => o.rot ≠ o'.rot) else d.getD 0 0 = 0 ∧ ∀ o ∈ ops, ∀ o' ∈ ops, o.shift - o'.shift ∈ ColLattice A → o.shift = o'.shift) → G.Nodup)) := by
  obtain ⟨e, hA1, hB1, hdiag, hpos, -, -, hdet⟩ := C23_smith_correct H s hs
  have hS : ∀ i, 0 < (fun i => s.M i i) i := hpos
  have hM : s.A * H * s.B = Matrix.diagonal (fun i => s.M i i) := by
    rw [← e]
    apply Matrix.ext
    intro i k
    by_cases hik : i = k
    · subst hik; simp
    · rw [Matrix.diagonal_apply_ne _ hik, hdiag i k hik]
  have hH : H.det ≠ 0 := by
    rw [← hdet]
    exact (mul_pos (mul_pos (hpos 0) (hpos 1)) (hpos 2)).ne'
  have hL : IsUnit s.A.det := Int.isUnit_iff.mpr hA1
  have hB : IsUnit s.B.det := Int.isUnit_iff.mpr hB1
  have hn' : (n : ℤ) = (fun i => s.M i i) 0 * (fun i => s.M i i) 1 * (fun i => s.M i i) 2 := by rw [hn, ← hdet]
  have hdet1 : ∀ o ∈ ops, o.rot.det ≠ 0 := by
    intro o ho h
    have := congrArg Matrix.det (horth o ho)
    rw [Matrix.det_mul, h, mul_zero, Matrix.det_one] at this
    exact zero_ne_one this
  have hkeep : arrows = true → ∀ o ∈ ops, KeepsArrows o.rot := by
    intro ha o ho k a hk
    obtain ⟨m, b, hb, h⟩ := harr o ho k a hk
    rw [ha, if_pos rfl] at h
    exact ⟨m, b, hb, h⟩
  have hrounds : ∀ o ∈ ops, RoundsArrows o.rot := by
    intro o ho
    cases ha : arrows
    · intro k a hk
      obtain ⟨m, b, hb, h⟩ := harr o ho k a hk
      rw [ha, if_neg (by simp)] at h
      exact ⟨m, b, hb, fun i => npRound_of (h i)⟩
    · exact (hkeep ha o ho).rounds (horth o ho)
  have hops : OpsGood A (ColLattice (A * castM H)) d d.length ops arrows := by
    refine ⟨hdet1, fun o ho => keeps_of (hlat o ho) (hdet1 o ho), fun o ho => keeps_of (hsup o ho) (hdet1 o ho), hrounds, hkeep,
      horth, fun o ho => ⟨fun i hi => (hrow o ho i hi).1, fun i hi => (hrow o ho i hi).2.1, fun i hi => ?_⟩⟩
    rw [(hrow o ho i hi).2.2, sub_add_cancel]
  have hone : ∃ op ∈ ops, op.rot = 1 ∧ op.shift = 0 := by
    obtain ⟨op, ho, e⟩ := List.mem_map.mp hG.one
    rw [Prod.mk.injEq] at e
    exact ⟨op, ho, e⟩
  obtain ⟨htd, hAL, hSL⟩ := transform_facts (K := K) hA hL hB hM hH
  obtain ⟨G, e1, g1, g2, g3, g4, g5, f, f1, f2, f3, f4⟩ := rotationPerms_spec hA hL hB hM hS hH hn' hd hops hone heps
  have hglen : (memberList (fun i => s.M i i)).length = n := by rw [memberList_length hS]; omega
  have hTd : ((castM s.A * A⁻¹ : M3 K)⁻¹).det ≠ 0 := by
    rw [Matrix.det_nonsing_inv, Ring.inverse_eq_inv]
    exact inv_ne_zero htd
  have hd' := hd
  rw [← hAL] at hd'
  have hap := sites_apart hTd hS hd'
  have hcov := sites_cover hTd hS hd'
  rw [hSL, hglen] at hap hcov
  rw [hAL] at hcov
  have hsub := colLat_isSub (A * castM H : M3 K)
  refine ⟨G, sitePos (castM s.A * A⁻¹)⁻¹ (fun i => s.M i i) d n, e1, ?_, hcov, ?_, ?_, ?_, rfl, ?_⟩
  · intro k _
    unfold sitePos
    rw [add_sub_cancel_left, ← hAL]
    exact ⟨_, rfl⟩
  · have hu : ∀ R t (g g' : List ℕ × List ℕ), InducedBy (ColLattice (A * castM H)) (d.length * n)
        (sitePos (castM s.A * A⁻¹)⁻¹ (fun i => s.M i i) d n) arrows R t g →
        InducedBy (ColLattice (A * castM H)) (d.length * n)
        (sitePos (castM s.A * A⁻¹)⁻¹ (fun i => s.M i i) d n) arrows R t g' → g = g' := by
      intro R t g g' a b
      apply Prod.ext
      · exact a.1.unique hsub b.1 (by rw [sub_self]; exact hsub.zero)
      · have a2 := a.2; have b2 := b.2
        cases arrows
        · simp only [Bool.false_eq_true, if_false] at a2 b2; rw [a2, b2]
        · simp only [if_true] at a2 b2; exact a2.unique b2
    intro g
    constructor
    · exact g1 g
    · rintro ⟨o, ho, t, ht, hi⟩
      obtain ⟨g', hg', hi'⟩ := g2 o ho t ht
      rw [hu _ _ _ _ hi hi']; exact hg'
  · exact induced_group hsub hap hG hops g1 g2
  · intro g
    constructor
    · intro hg
      exact g4 g hg
    · rintro ⟨h2, t, ht, hi⟩
      obtain ⟨g', hg', hi'⟩ := g5 t ht
      have : g = g' := by
        apply Prod.ext
        · exact hi.unique hsub hi' (by rw [sub_self]; exact hsub.zero)
        · rw [h2, (g4 g' hg').1]
      rw [this]; exact hg'
  · intro hdne
    have hn0 : 0 < n := by
      have := mul_pos (mul_pos (hpos 0) (hpos 1)) (hpos 2)
      have hn'' : (n : ℤ) = s.M 0 0 * s.M 1 1 * s.M 2 2 := hn'
      omega
    have hN : 0 < d.length * n := Nat.mul_pos (List.length_pos_of_ne_nil hdne) hn0
    have hv : ∀ x ∈ memberList (fun i => s.M i i), ∀ y ∈ memberList (fun i => s.M i i),
        (castM s.A * A⁻¹ : M3 K)⁻¹.mulVec (castV x) - (castM s.A * A⁻¹ : M3 K)⁻¹.mulVec (castV y) ∈ ColLattice (A * castM H) → x = y := by
      intro x hx y hy h
      rw [← Matrix.mulVec_sub, ← castV_sub, ← hSL, slat_mem_iff hTd] at h
      have hx' := (mem_memberList hS).mp hx
      have hy' := (mem_memberList hS).mp hy
      funext i
      have h1 := hx' i
      have h2 := hy' i
      obtain ⟨k, hk⟩ := h i
      have e1 : x i = y i + s.M i i * k := by
        have : (x - y) i = x i - y i := rfl
        rw [this] at hk; linarith
      have hMi := hS i
      simp only at hMi h1 h2
      have : k = 0 := by
        by_contra hk0
        rcases lt_or_gt_of_ne hk0 with h | h
        · nlinarith
        · nlinarith
      rw [e1, this, mul_zero, add_zero]
    have hmn := memberList_nodup hS
    have htn := trans_nodup hsub hN hmn f3 hv
    obtain ⟨C', hC'⟩ : ∃ C', cleanPerms arrows (ops.map f) = (List.range (d.length * n), List.range 6) :: C' := by
      cases hc : cleanPerms arrows (ops.map f) with
      | nil => rw [hc] at f4; simp at f4
      | cons a l => rw [hc] at f4; simp at f4; exact ⟨l, by rw [f4]⟩
    have hblen : ((memberList (fun i => s.M i i)).map (transPerm (fun i => s.M i i) (memberList (fun i => s.M i i)) n d.length)).length = n := by
      rw [List.length_map, hglen]
    have hblk : G.take n = ((memberList (fun i => s.M i i)).map (transPerm (fun i => s.M i i) (memberList (fun i => s.M i i)) n d.length)).map
        (fun t => (t, List.range 6)) := by
      rw [f2, hC', List.flatMap_cons, List.take_left' (by rw [List.length_map, hblen])]
      apply List.map_congr_left
      intro t ht
      obtain ⟨x, -, rfl⟩ := List.mem_map.mp ht
      have := permute_range (transPerm (fun i => s.M i i) (memberList (fun i => s.M i i)) n d.length x)
      rw [(f3 x).length] at this
      simp only [this]
    refine ⟨g3, ?_, ?_, ?_⟩
    · have e0 : G[0]? = (G.take n)[0]? := by rw [List.getElem?_take, if_pos hn0]
      obtain ⟨k, hk⟩ : ∃ k, (fun i => s.M i i : GVec) 0 * (fun i => s.M i i : GVec) 1 * (fun i => s.M i i : GVec) 2 = ((k + 1 : ℕ) : ℤ) := ⟨n - 1, by omega⟩
      have hm0 : memberList (fun i => s.M i i) = 0 :: memberFrom (fun i => s.M i i) k (memberStep (fun i => s.M i i) 0) := by
        unfold memberList
        rw [hk, Int.toNat_natCast]
        rfl
      rw [e0, hblk, hm0]
      simp only [List.map_cons, List.getElem?_cons_zero, Option.some.injEq, Prod.mk.injEq, and_true]
      have h0 := f3 0
      rw [hm0] at h0
      have hz : (castM s.A * A⁻¹ : M3 K)⁻¹.mulVec (castV (0 : GVec)) = 0 := by
        have : castV (0 : GVec) = (0 : Fin 3 → K) := by funext i; simp [castV]
        rw [this, Matrix.mulVec_zero]
      rw [hz] at h0
      exact h0.unique hsub (induces_one hsub hap) (by rw [sub_zero]; exact hsub.zero)
    · rw [hblk, List.map_map, show ((fun x : List ℕ × List ℕ => x.1) ∘ fun t : List ℕ => (t, List.range 6)) = id from rfl, List.map_id]
      exact List.Nodup.of_map _ htn
    · intro hif
      have hperm1 : ∀ p ∈ ops.map f, p.1.Perm (List.range (d.length * n)) := by
        intro p hp
        obtain ⟨o, ho, rfl⟩ := List.mem_map.mp hp
        exact (f1 o ho).1.perm hsub hap
      have hperm2 : ∀ p ∈ ops.map f, p.2.Perm (List.range 6) := by
        intro p hp
        obtain ⟨o, ho, rfl⟩ := List.mem_map.mp hp
        exact (f1 o ho).2.1
      have hmemc := mem_cleanPerms (fun p hp => perm_range_length (hperm1 p hp)) (fun p hp => perm_range_length (hperm2 p hp)) arrows
      have hCp : ∀ r ∈ cleanPerms arrows (ops.map f), r.1.Perm (List.range (d.length * n)) := by
        intro r hr
        obtain ⟨p, hp, rfl⟩ := (hmemc r).mp hr
        split <;> exact hperm1 p hp
      have hgoal : (cleanPerms arrows (ops.map f)).Nodup ∧ ∀ r ∈ cleanPerms arrows (ops.map f), ∀ r' ∈ cleanPerms arrows (ops.map f),
          r ≠ r' → r.2 ≠ r'.2 ∨ ∀ x ∈ memberList (fun i => s.M i i), ∀ x' ∈ memberList (fun i => s.M i i),
            permute r.1 (transPerm (fun i => s.M i i) (memberList (fun i => s.M i i)) n d.length x) ≠
            permute r'.1 (transPerm (fun i => s.M i i) (memberList (fun i => s.M i i)) n d.length x') := by
        cases ha : arrows
        · rw [ha] at hif hmemc
          simp only [Bool.false_eq_true, if_false] at hif
          refine ⟨List.Nodup.of_map _ (cleanPerms_sites_nodup _), ?_⟩
          have hp0 : sitePos (castM s.A * A⁻¹ : M3 K)⁻¹ (fun i => s.M i i) d n 0 = 0 := by
            unfold sitePos
            rw [Nat.zero_div, Nat.zero_mod, hif.1, zero_add]
            have : (memberList (fun i => s.M i i)).getD 0 0 = 0 := by
              unfold memberList
              cases ((fun i => s.M i i : GVec) 0 * (fun i => s.M i i : GVec) 1 * (fun i => s.M i i : GVec) 2).toNat <;> rfl
            rw [this]
            have : castV (0 : GVec) = (0 : Fin 3 → K) := by funext i; simp [castV]
            rw [this, Matrix.mulVec_zero]
          intro r hr r' hr' hne
          right
          intro x _ x' _ e
          apply hne
          obtain ⟨p, hp, rfl⟩ := (hmemc r).mp hr
          obtain ⟨o, ho, rfl⟩ := List.mem_map.mp hp
          obtain ⟨p', hp', rfl⟩ := (hmemc r').mp hr'
          obtain ⟨o', ho', rfl⟩ := List.mem_map.mp hp'
          simp only [Bool.false_eq_true, if_false] at e ⊢
          have hin : ∀ (o : CellOp K), o ∈ ops → ∀ y : GVec, o.rot.mulVec ((castM s.A * A⁻¹ : M3 K)⁻¹.mulVec (castV y)) ∈ ColLattice A := by
            intro o ho y
            have h1 : (castM s.A * A⁻¹ : M3 K)⁻¹.mulVec (castV y) ∈ ColLattice A := by
              rw [← hAL]; exact ⟨y, rfl⟩
            exact (keeps_of (hlat o ho) (hdet1 o ho)).fwd _ h1
          rw [coset_same (colLat_isSub A) hsub (fun w hw => by
              obtain ⟨y, rfl⟩ := hw
              refine ⟨H.mulVec y, ?_⟩
              rw [← Matrix.mulVec_mulVec]
              congr 1
              funext i
              simp [castM, Matrix.mulVec, dotProduct]) hap hN hp0 (f1 o ho).1 (f1 o' ho').1 (keeps_of (hsup o ho) (hdet1 o ho))
            (keeps_of (hsup o' ho') (hdet1 o' ho')) (f3 x) (f3 x') (hin o ho x) (hin o' ho' x') (hif.2 o ho o' ho') e]
        · rw [ha] at hif
          simp only [if_true] at hif
          obtain ⟨l, hl, hpl⟩ := cleanPerms_arrows_perm (fun p hp => perm_range_length (hperm1 p hp)) (fun p hp => perm_range_length (hperm2 p hp))
          have hnd2 : ((ops.map f).map (·.2)).Nodup := by
            rw [List.map_map, List.nodup_iff_pairwise_ne, List.pairwise_map]
            refine hif.imp_of_mem ?_
            intro o o' ho ho' hne e
            have t1 := (f1 o ho).2.2 (hkeep ha o ho)
            have t2 := (f1 o' ho').2.2 (hkeep ha o' ho')
            simp only [Function.comp] at e
            rw [← e] at t2
            exact hne (turns_rot_unique t1 t2)
          have hnd3 : ((cleanPerms true (ops.map f)).map (·.2)).Nodup := by
            rw [(hpl.map _).nodup_iff]
            exact (hl.map _).nodup hnd2
          refine ⟨List.Nodup.of_map _ hnd3, ?_⟩
          intro r hr r' hr' hne
          exact Or.inl (fun e => hne (List.inj_on_of_nodup_map hnd3 hr hr' e))
      rw [f2]
      exact compose_nodup hsub hap hN hmn f3 hv _ hgoal.1 hCp hgoal.2

end

/-! Non-vacuity: a rational crystal with two atoms (at the origin and at the body centre), the group {1, inversion} and
a supercell of 8 cells. -/

example : memberList ![1, 2, 3] = [![0, 0, 0], ![0, 0, 1], ![0, 0, 2], ![0, 1, 0], ![0, 1, 1], ![0, 1, 2]] := by
  decide +kernel

/-- body-centred basis -/
def exD : List (Fin 3 → ℚ) := [0, fun _ => 1 / 2]

/-- identity and inversion -/
def exOps : List (CellOp ℚ) := [⟨1, 0, [0, 0], [0, 1]⟩, ⟨-1, 0, [0, fun _ => 1], [0, 1]⟩]

theorem colLat_neg_eq (A : M3 ℚ) : ColLattice (-1 * A) = ColLattice A := by
  ext w
  constructor
  · rintro ⟨x, rfl⟩
    have : (-1 * A).mulVec (fun i => (x i : ℚ)) = -(A.mulVec (fun i => (x i : ℚ))) := by
      rw [neg_one_mul, Matrix.neg_mulVec]
    rw [this]; exact colLat_neg ⟨x, rfl⟩
  · intro h
    obtain ⟨x, hx⟩ := colLat_neg h
    refine ⟨x, ?_⟩
    rw [neg_one_mul, Matrix.neg_mulVec, hx, neg_neg]

theorem exOps_mem {o : CellOp ℚ} (h : o ∈ exOps) : o = ⟨1, 0, [0, 0], [0, 1]⟩ ∨ o = ⟨-1, 0, [0, fun _ => 1], [0, 1]⟩ := by
  simpa [exOps] using h

example : ∃ s, smithNormalForm exHNF = some (.ok s) ∧
    ∃ (G : _) (pos : ℕ → Fin 3 → ℚ), rotationPerms (1 : M3 ℚ) 8 exD.length s.A (fun i => s.M i i) exOps (1 / 10 ^ 10) true = .ok G ∧
      IsOpGroup (2 * 8) 6 G ∧ pos 0 - exD.getD 0 0 ∈ ColLattice (1 : M3 ℚ) := by
  obtain ⟨s, hs⟩ := C24_smith_succeeds exHNF (by rw [exHNF_det]; decide) (by rw [exHNF_det]; decide)
  refine ⟨s, hs, ?_⟩
  have hz : ∀ {x : Fin 3 → ℚ}, x ∈ ColLattice (1 : M3 ℚ) → ∃ z : ℤ, x 0 = z := by
    rintro x ⟨y, rfl⟩
    exact ⟨y 0, by rw [Matrix.one_mulVec]⟩
  have h0 : (0 : Fin 3 → ℚ) ∈ ColLattice (1 : M3 ℚ) := colLat_zero _
  obtain ⟨G, pos, e, h1, -, -, h4, -⟩ := C46_generated_group (1 : M3 ℚ) (by simp) exHNF s hs 8 (by rw [exHNF_det]; rfl) exD
    (by
      intro i j hi hj h
      simp only [exD, List.length_cons, List.length_nil] at hi hj
      obtain ⟨z, hz⟩ := hz h
      have hi' : i = 0 ∨ i = 1 := by omega
      have hj' : j = 0 ∨ j = 1 := by omega
      rcases hi' with rfl | rfl <;> rcases hj' with rfl | rfl
      · rfl
      · exfalso
        simp [exD] at hz
        have : (-1 : ℚ) = 2 * z := by rw [← hz]; norm_num
        have : (-1 : ℤ) = 2 * z := by exact_mod_cast this
        omega
      · exfalso
        simp [exD] at hz
        have : (1 : ℚ) = 2 * z := by rw [← hz]; norm_num
        have : (1 : ℤ) = 2 * z := by exact_mod_cast this
        omega
      · rfl)
    exOps
    (by
      refine ⟨by simp [exOps], ?_, ?_⟩
      · intro p hp q hq
        simp only [exOps, List.map_cons, List.map_nil, List.mem_cons, List.not_mem_nil, or_false] at hp hq
        rcases hp with rfl | rfl <;> rcases hq with rfl | rfl
        · exact ⟨(1, 0), by simp [exOps], by simp, by simpa using h0⟩
        · exact ⟨(-1, 0), by simp [exOps], by simp, by simpa using h0⟩
        · exact ⟨(-1, 0), by simp [exOps], by simp, by simpa using h0⟩
        · exact ⟨(1, 0), by simp [exOps], by simp, by simpa using h0⟩
      · intro p hp
        simp only [exOps, List.map_cons, List.map_nil, List.mem_cons, List.not_mem_nil, or_false] at hp
        rcases hp with rfl | rfl
        · exact ⟨(1, 0), by simp [exOps], by simp, by simpa using h0⟩
        · exact ⟨(-1, 0), by simp [exOps], by simp, by simpa using h0⟩)
    (by
      intro o ho
      rcases exOps_mem ho with rfl | rfl
      · rw [one_mul]
      · exact colLat_neg_eq _)
    (by
      intro o ho
      rcases exOps_mem ho with rfl | rfl
      · rw [one_mul]
      · exact colLat_neg_eq _)
    (by
      intro o ho i hi
      simp only [exD, List.length_cons, List.length_nil] at hi
      have hi' : i = 0 ∨ i = 1 := by omega
      have h1 : (fun _ => 1 : Fin 3 → ℚ) ∈ ColLattice (1 : M3 ℚ) := ⟨fun _ => 1, by rw [Matrix.one_mulVec]; simp⟩
      rcases exOps_mem ho with rfl | rfl <;> rcases hi' with rfl | rfl
      · exact ⟨by simp [exD], by simpa using h0, by simp [exD]⟩
      · exact ⟨by simp [exD], by simpa using h0, by simp [exD]⟩
      · exact ⟨by simp [exD], by simpa using h0, by simp [exD]⟩
      · refine ⟨by simp [exD], by simpa using h1, ?_⟩
        simp [exD]
        rw [Matrix.neg_mulVec, Matrix.one_mulVec]
        funext k
        simp
        norm_num)
    (by
      intro o ho
      rcases exOps_mem ho with rfl | rfl <;> simp)
    true
    (by
      intro o ho k a ha
      rcases exOps_mem ho with rfl | rfl
      · exact ⟨k, a, ha, by rw [if_pos rfl, Matrix.one_mulVec]⟩
      · have : ∃ m b, IsArrowDir m b ∧ b = -a := by
          unfold IsArrowDir at ha
          rcases ha with h | h | h | h | h | h
          · exact ⟨1, ![-1, 0, 0], by simp [IsArrowDir], by rw [h.2]; simp⟩
          · exact ⟨0, ![1, 0, 0], by simp [IsArrowDir], by rw [h.2]; simp⟩
          · exact ⟨3, ![0, -1, 0], by simp [IsArrowDir], by rw [h.2]; simp⟩
          · exact ⟨2, ![0, 1, 0], by simp [IsArrowDir], by rw [h.2]; simp⟩
          · exact ⟨5, ![0, 0, -1], by simp [IsArrowDir], by rw [h.2]; simp⟩
          · exact ⟨4, ![0, 0, 1], by simp [IsArrowDir], by rw [h.2]; simp⟩
        obtain ⟨m, b, hb, e⟩ := this
        refine ⟨m, b, hb, ?_⟩
        rw [if_pos rfl]
        simp only
        rw [Matrix.neg_mulVec, Matrix.one_mulVec, e]
        funext i
        simp)
    (1 / 10 ^ 10) (by norm_num)
  exact ⟨G, pos, e, h4, h1 0 (by simp [exD])⟩

end Phenum
