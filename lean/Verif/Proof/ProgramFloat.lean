import Verif.Proof.FloatParts
import Verif.Props.Noise
/-
The program with rounding errors: it returns what exact arithmetic gives.
-/
namespace Phenum
open Spec

/-! ## the concentrations -/

/-- `get_concs_for_size` in floating point returns the same list, in the same order -/
theorem sizeConcsF_ranges {fl : ℚ → ℚ} (hfl : RoundsToNearest fl) {lat : LatticeIn} {k : ℕ} {rows : List ConcRange} {d : ℤ} (h : RangesInput lat k rows d)
    (hk : 1 ≤ k) (hle : ∀ r ∈ rows, max r.1 r.2.1 ≤ d) {n : ℕ} (hn : 0 < n * lat.basisVecs.length)
    (hnd : (n * lat.basisVecs.length : ℕ) * d ≤ 9 * 10 ^ 9) :
    Follows (sizeConcsF fl (1 / 10 ^ 10) lat n) (sizeConcs (1 / 10 ^ 10) lat n) := by
  have hlen := py_mapM_length _ h.parsed
  have hne : rows ≠ [] := by
    intro e
    rw [e, h.length] at hlen
    simp at hlen
    omega
  have hnd' : ((n * lat.basisVecs.length : ℕ) : ℚ) * d ≤ 9 * 10 ^ 9 := by exact_mod_cast hnd
  obtain ⟨out, e1, -, e3⟩ := C26_restricted_concs (1 / 10 ^ 10) n lat.basisVecs.length rows d hn hne h.denom.1 h.denom.2 (by norm_num) (by linarith)
  obtain ⟨out', f1, -, f3⟩ := C69_nearest fl hfl n lat.basisVecs.length rows d hn hne h.denom.1
    (fun c hc => ⟨h.denom.2 c hc, le_min (h.nonneg c hc).1 (h.nonneg c hc).2, hle c hc⟩) hnd
  have e : out' = out := sorted_ext (concsRestrictedF_sorted f1) (concsRestricted_sorted e1) (fun x => (f3 x).trans (e3 x).symm)
  intro b hb
  unfold sizeConcs at hb
  unfold sizeConcsF
  rw [h.restricted, if_pos rfl, h.parsed] at hb ⊢
  rw [runPy_ok, pure_bind, e1, runO_ok, pure_bind] at hb
  rw [sure_ok_bind, f1, e]
  have hb' : out.map (fun a => a.map Int.toNat) = b := Except.ok.inj (Option.some.inj hb)
  rw [← hb']
  show (sure (.ok out) >>= _) = _
  rw [sure_ok_bind]
  rfl

theorem sizeConcsF_free (fl : ℚ → ℚ) (eps : ℚ) {lat : LatticeIn} (h : lat.restricted = false) (n : ℕ) : Follows (sizeConcsF fl eps lat n) (sizeConcs eps lat n) := by
  unfold sizeConcsF sizeConcs
  rw [h]
  exact Follows.pure _

/-! ## the group used in the enumeration -/

/-- without arrows the operations are distinct permutations of the sites -/
theorem cellData_order {P : M3 ℝ} {bas : List V3} {n : ℕ} {eps : ℝ} {flag : Bool} {u : M3 ℤ} {G G' : List Op} {snf : SnfState}
    (h : CellData P bas n eps flag u G G' snf) : G'.length ≤ 48 * (bas.length * n) := by
  cases flag with
  | true => rw [h.same rfl]; exact h.order
  | false =>
    have hr : ∀ g ∈ G', g.2 = List.range 6 := by
      intro g hg
      obtain ⟨R, s, -, -, -, ht⟩ := (h.mem' g).mp hg
      simpa [TurnsBy] using ht
    have hnd : (G'.map (·.1)).Nodup := by
      apply List.Nodup.map_on _ h.nodup'
      intro a ha b hb e
      exact Prod.ext e ((hr a ha).trans (hr b hb).symm)
    have hsub : G'.map (·.1) ⊆ G.map (·.1) := fun σ hσ => (h.sites σ).mpr hσ
    have := (List.subperm_of_subset hnd hsub).length_le
    simp only [List.length_map] at this
    exact le_trans this h.order

theorem hnf_one_or_two {n : ℕ} (hn : 1 ≤ n) {u : M3 ℤ} (hu : u ∈ findAllHNFs n) : u = 1 ∨ 2 ≤ u.det := by
  by_cases h : 2 ≤ n
  · right
    rw [findAll_det hn hu]
    exact_mod_cast h
  · left
    obtain rfl : n = 1 := by omega
    obtain ⟨a, b, c, d, e, f, h1, h2, h3, h4, rfl⟩ := (mem_findAllHNFs hn u).mp hu
    have h5 : a * c = 1 ∧ f = 1 := mul_eq_one.mp h1
    have h6 : a = 1 ∧ c = 1 := mul_eq_one.mp h5.1
    obtain ⟨rfl, rfl⟩ := h6
    obtain rfl := h5.2
    obtain rfl : b = 0 := by omega
    obtain rfl : d = 0 := by omega
    obtain rfl : e = 0 := by omega
    decide

/-! ## the program -/

/-- The rounding errors do not matter: all numbers are small enough. `fl` rounds to the nearest double, every number that is compared in the searches
for symmetries is off by at most `δ`. -/
structure RoundOk (fl : ℚ → ℚ) (δ : ℝ) (tol : Tol) (lat : LatticeIn) (P0 : Matrix (Fin 3) (Fin 3) ℚ) (b0 : List (Fin 3 → ℚ)) (lo hi k : ℕ)
    (C : ℕ → List Conc) (K K' : ℝ) (g D : ℕ) : Prop where
  nearest : RoundsToNearest fl
  hnf : NoiseOk (realMat P0) K K' g D tol.hnf δ
  sym : NoiseOk (realMat P0) K K' g D tol.sym δ
  atoms : ∀ d ∈ realVecs b0, d ∈ Grid (realMat P0) D
  hnf_small : (tol.hnf + δ) * hi < 1
  sym_small : (tol.sym + δ) * hi < 1
  concs : ∀ n, lo ≤ n → n ≤ hi → Follows (sizeConcsF fl tol.conc lat n) (sizeConcs tol.conc lat n)
  arrows : ∀ n, lo ≤ n → n ≤ hi → ∀ c ∈ C n, ∀ x ∈ c, ∀ a ∈ lat.arrowFractions, pyTrunc (fl (x * fl a)) = pyTrunc (x * a)
  size : 48 * (b0.length * hi) * sizeBase (decide (lat.arrowFractions.sum ≠ 0)) k ^ (b0.length * hi) ≤ 2 ^ 53

section
variable {fl : ℚ → ℚ} {δ : ℝ} {tol : Tol} {text : Str} {lat : LatticeIn} {P0 : Matrix (Fin 3) (Fin 3) ℚ} {b0 : List (Fin 3 → ℚ)} {lo hi k : ℕ} {T : Set ℚ}
  {C : ℕ → List Conc} {K K' : ℝ} {g D : ℕ} (h : EnumInput text lat P0 b0 lo hi k T C) (hT : tol.conc ∈ T) (F : RoundOk fl δ tol lat P0 b0 lo hi k C K K' g D)
include h F

omit h in
theorem RoundOk.lt_one {e : ℝ} (he : 0 ≤ e) (hlt : (e + δ) * hi < 1) {n : ℕ} (hn : n ≤ hi) : (e + δ) * n < 1 := by
  have : (n : ℝ) ≤ hi := by exact_mod_cast hn
  have := F.sym.nonneg
  nlinarith

omit h in
theorem RoundOk.exact : ExactTol P0 b0 hi tol := by
  have h0 := F.sym.nonneg
  have h1 : (0 : ℝ) ≤ hi := Nat.cast_nonneg _
  refine ⟨fineTol_coarse F.hnf.det (F.hnf.coarse F.atoms), fineTol_coarse F.sym.det (F.sym.coarse F.atoms), ?_, ?_⟩
  · have := F.hnf_small; nlinarith
  · have := F.sym_small; nlinarith

/-- the bound on the numbers, for one supercell -/
theorem RoundOk.bound {n : ℕ} (h1 : lo ≤ n) (h2 : n ≤ hi) {c : Conc} (hc : c ∈ C n) {G : List Op} (hG : G.length ≤ 48 * (b0.length * n)) :
    max c.sum G.length * sizeBase (decide (lat.arrowFractions.sum ≠ 0)) c.length ^ c.sum ≤ 2 ^ 53 := by
  obtain ⟨c1, c2⟩ := (h.concs n h1 h2).2.2 c hc
  refine le_trans ?_ F.size
  rw [c1, c2]
  have hle : b0.length * n ≤ b0.length * hi := Nat.mul_le_mul_left _ h2
  refine Nat.mul_le_mul (max_le (by omega) (by omega)) (Nat.pow_le_pow_right ?_ hle)
  have := h.species.1
  unfold sizeBase
  split <;> omega

omit F in
theorem arrow_or {c : Conc} : decide (lat.arrowFractions.sum ≠ 0) = true ∨ NoArrows lat.arrowFractions c := by
  by_cases h0 : lat.arrowFractions.sum = 0
  · exact Or.inr (no_arrows h.fractions.2 h0 c)
  · left; simpa using h0

theorem RoundOk.noHalf : ∀ R s, IsCrystalSym (ColLattice (realMat P0).transpose) ((realVecs b0).map (fun d => (1, d))) R s → NoHalf δ R := by
  intro R s hs
  refine arrows_noHalf (fun k a hk => ?_) F.sym.half
  obtain ⟨m, b, hb, e⟩ := h.cell.turns R s hs k a hk
  rw [if_pos rfl] at e
  exact ⟨m, b, hb, e⟩

theorem RoundOk.group {n : ℕ} (h1 : lo ≤ n) (h2 : n ≤ hi) {u : M3 ℤ} (hu : u ∈ findAllHNFs n) (arrows : Bool) :
    Follows (getSymGroupN δ (realMat P0) (realVecs b0) u tol.sym arrows) (getSymGroup (realMat P0) (realVecs b0) u 3 tol.sym arrows) := by
  have hn : 1 ≤ n := le_trans h.lo_pos h1
  refine (F.sym.getSymGroup h.cell.nonempty F.atoms (hnf_one_or_two hn hu) ?_ (F.noHalf h) (by norm_num) arrows).follows
  rw [findAll_det hn hu, Int.toNat_natCast]
  exact F.lt_one F.sym.eps_pos.le F.sym_small h2

include hT in
/-- the table of one size -/
theorem RoundOk.polyaSize {n : ℕ} (h1 : lo ≤ n) (h2 : n ≤ hi) {U : ℕ → List (M3 ℤ)} {cnt : ℕ → M3 ℤ → Conc → ℕ} (hc : CountsAll tol lat P0 b0 lo hi C U cnt) :
    Follows (polyaSizeN fl δ tol lat n) (polyaSize tol lat n) := by
  have hn : 1 ≤ n := le_trans h.lo_pos h1
  unfold polyaSizeN Phenum.polyaSize
  refine (Follows.py _).bind fun geo hgeo => ?_
  have hgeo' : lat.geometry = .ok geo := Option.some.inj hgeo
  obtain rfl : geo = (P0, b0) := Except.ok.inj (hgeo'.symm.trans h.geometry)
  refine (F.hnf.getHNFs h.cell.nonempty F.atoms hn (F.lt_one F.hnf.eps_pos.le F.hnf_small h2) (by norm_num)).follows.bind fun hnfs hh => ?_
  obtain ⟨u1, -, u3, u4⟩ := hc n h1 h2
  obtain rfl : hnfs = U n := Except.ok.inj (Option.some.inj ((show _ = some (.ok hnfs) from hh).symm.trans u1))
  refine (F.concs n h1 h2).bind fun cs hcs => ?_
  obtain rfl : cs = C n := Except.ok.inj (Option.some.inj ((show _ = some (.ok cs) from hcs).symm.trans ((h.concs n h1 h2).1 _ hT)))
  refine (Follows.mapM _ fun u hu => ?_).bind fun rows _ => Follows.pure _
  unfold polyaRowN polyaRow
  refine (F.group h h1 h2 (u3 u hu) true).bind fun G hG => ?_
  obtain ⟨G0, g1, g2, g3, g4, -⟩ := u4 u hu
  obtain rfl : G = G0 := Except.ok.inj (Option.some.inj ((show _ = some (.ok G) from hG).symm.trans g1))
  refine (Follows.mapM _ fun c hcc => ?_).bind fun counts _ => Follows.pure _
  obtain ⟨c1, c2⟩ := (h.concs n h1 h2).2.2 c hcc
  refine polyaCountF_follows (nearest_keeps F.nearest) (by rw [c1]; exact h.fractions.1) (F.arrows n h1 h2 c hcc) (by rw [c2]; exact g2) g3 ?_ (arrow_or h)
    (F.bound h h1 h2 hcc g4)
  rw [c2]
  have hb : 0 < b0.length := by
    have := List.length_pos_iff.mpr h.cell.nonempty
    rwa [realVecs_length] at this
  exact Nat.mul_pos hb hn

/-- the structures of one system -/
theorem RoundOk.enumSystem {n : ℕ} (h1 : lo ≤ n) (h2 : n ≤ hi) {u : M3 ℤ} (hu : u ∈ findAllHNFs n) {c : Conc} (hcc : c ∈ C n) (v : ℤ) (supers accept : Bool)
    (rnd : EnumRandom) :
    Follows (enumSystemN fl δ tol lat supers accept rnd (hnfNumbers u, c.map (fun c : ℕ => (c : ℤ)), v))
      (enumSystem tol lat supers accept rnd (hnfNumbers u, c.map (fun c : ℕ => (c : ℤ)), v)) := by
  have hn : 1 ≤ n := le_trans h.lo_pos h1
  obtain ⟨hfull, h6⟩ := hnf_numbers_full hn hu
  obtain ⟨c1, c2⟩ := (h.concs n h1 h2).2.2 c hcc
  have hb : 0 < b0.length := by
    have := List.length_pos_iff.mpr h.cell.nonempty
    rwa [realVecs_length] at this
  set flag : Bool := decide (lat.arrowFractions.sum ≠ 0) with hflag
  have hflagN : decide (sumF fl (arrowFractionsF fl lat) ≠ 0) = flag := by
    rw [hflag]
    unfold arrowFractionsF
    exact decide_eq_decide.mpr (sumF_ne F.nearest h.fractions.2)
  have horig : flag = true ∨ (realVecs b0).getD 0 0 = 0 := by
    rcases h.origin with h0 | h0
    · left; rw [hflag]; simpa using h0
    · exact Or.inr h0
  have hex := F.exact
  obtain ⟨G, G', snf, hd⟩ := cell_data_at h.cell h.primitive (flag := flag) horig n hn (lt_of_le_of_lt h2 h.hi_lt) hex.sym (by
    have : (n : ℝ) ≤ hi := by exact_mod_cast h2
    have h3 := hex.sym_small
    have h4 := hex.sym.pos
    nlinarith) u hu
  have hG' : IsOpGroup c.sum 6 G' := by
    have := hd.isGroup'
    rw [realVecs_length] at this
    rw [c2]; exact this
  have hord := cellData_order hd
  rw [realVecs_length] at hord
  unfold enumSystemN Phenum.enumSystem
  refine (Follows.py _).bind fun geo hgeo => ?_
  have hgeo' : lat.geometry = .ok geo := Option.some.inj hgeo
  obtain rfl : geo = (P0, b0) := Except.ok.inj (hgeo'.symm.trans h.geometry)
  refine (Follows.py _).bind fun H hH => ?_
  have hH' : H = u := by
    have := Option.some.inj hH
    simp only [h6, lt_self_iff_false, if_false, hfull] at this
    exact (Except.ok.inj this).symm
  subst hH'
  obtain ⟨rs, s1, s2⟩ := smithN_ok F.sym.nonneg F.sym.half (hnf_one_or_two hn hu)
  refine Follows.bind (show Settled _ (runO (smithNormalForm H)) from ⟨rs, s1, s2⟩).follows fun sn _ => ?_
  simp only [map_toNat]
  rw [show arrowConcsF fl c (arrowFractionsF fl lat) = arrowConcs c lat.arrowFractions from arrowConcsF_same c _ (F.arrows n h1 h2 c hcc)]
  refine (Follows.py _).bind fun dd _ => ?_
  rw [hflagN]
  refine (F.group h h1 h2 hu flag).bind fun G0 hG0 => ?_
  obtain rfl : G0 = G' := Except.ok.inj (Option.some.inj ((show _ = some (.ok G0) from hG0).symm.trans hd.group'))
  refine Follows.bind ?_ fun configs _ => Follows.pure _
  intro r hr
  have hr' : enumSys G0 c lat.arrowFractions v.toNat (realVecs b0).length supers accept rnd = some (.ok r) := hr
  have := enumSysF_follows (nearest_keeps F.nearest) (by rw [c1]; exact h.fractions.1) (F.arrows n h1 h2 c hcc) hG' hd.nodup'
    (by rw [c2]; exact Nat.mul_pos hb hn) (arrow_or h) (F.bound h h1 h2 hcc hord) (by rw [c1]; exact h.species.1) hr'
  unfold arrowFractionsF
  rw [this]
  rfl

end

/-! ## the run -/

/-- when all structures are requested nothing is rounded -/
theorem makeEnumInF_none (fl : ℚ → ℚ) (w : World) (infile distribution outfile : Str) (sizes : Option (List ℤ)) (save : Bool) (restrict : Option (Str × Str)) (d : Dir) :
    makeEnumInF fl w infile distribution outfile none sizes save restrict d = makeEnumIn w infile distribution outfile none sizes save restrict d := by
  have h : ∀ tables res ft draws, distributePyF fl tables res ft none draws = distributePy tables res ft none draws := by
    intro tables res ft draws
    unfold distributePyF distributePy distributeF distribute
    simp
  unfold makeEnumInF makeEnumIn
  simp only [Option.map_none, h]

theorem polyaLoopN_follows {fl : ℚ → ℚ} {δ : ℝ} {tol : Tol} {lat : LatticeIn} {outfile : Str} : ∀ (l : List ℤ) (d : Dir),
    (∀ s ∈ l, Follows (polyaSizeN fl δ tol lat s.toNat) (polyaSize tol lat s.toNat)) →
    Follows (polyaLoopN fl δ tol lat outfile l d) (polyaLoop tol lat outfile l d)
  | [], d, _ => Follows.pure d
  | s :: l, d, h => by
    unfold polyaLoopN polyaLoop
    exact (h s (by simp)).bind fun t _ => polyaLoopN_follows l _ (fun x hx => h x (by simp [hx]))

theorem enumLoopN_follows {fl : ℚ → ℚ} {δ : ℝ} {w : World} {tol : Tol} {lat : LatticeIn} {supers accept : Bool} : ∀ (l : List (List ℤ × List ℤ × ℤ)) (i : ℕ),
    (∀ s ∈ l, ∀ i, Follows (enumSystemN fl δ tol lat supers accept (w.rnd i) s) (enumSystem tol lat supers accept (w.rnd i) s)) →
    Follows (enumLoopN fl δ w tol lat supers accept i l) (enumLoop w tol lat supers accept i l)
  | [], i, _ => Follows.pure _
  | s :: l, i, h => by
    unfold enumLoopN enumLoop
    exact (h s (by simp) i).bind fun t _ => (enumLoopN_follows l _ (fun x hx => h x (by simp [hx]))).bind fun r _ => Follows.pure _

/-- polya.out -/
theorem RoundOk.polyaOut {fl : ℚ → ℚ} {δ : ℝ} {tol : Tol} {text : Str} {lat : LatticeIn} {P0 : Matrix (Fin 3) (Fin 3) ℚ} {b0 : List (Fin 3 → ℚ)} {lo hi k : ℕ} {T : Set ℚ}
    {C : ℕ → List Conc} {K K' : ℝ} {g D : ℕ} (h : EnumInput text lat P0 b0 lo hi k T C) (hT : tol.conc ∈ T) (F : RoundOk fl δ tol lat P0 b0 lo hi k C K K' g D)
    {U : ℕ → List (M3 ℤ)} {cnt : ℕ → M3 ℤ → Conc → ℕ} (hc : CountsAll tol lat P0 b0 lo hi C U cnt) {lattice : Str} {d : Dir} (hd : FreshDir lattice text d) {d1 : Dir}
    (p1 : Phenum.polyaOut tol lattice "polya.out".toList d = (pure d1 : Run _)) : polyaOutN fl δ tol lattice "polya.out".toList d = sure (.ok d1) := by
  obtain ⟨rest, hsz⟩ := h.sizes
  refine (show Follows (polyaOutN fl δ tol lattice "polya.out".toList d) (Phenum.polyaOut tol lattice "polya.out".toList d) from ?_) d1 p1
  unfold polyaOutN Phenum.polyaOut
  refine (Follows.py _).bind fun lat' hlat => ?_
  have hl : readLattice text = .ok lat' := by
    have e : (do let s ← readFile d lattice; readLattice s : Py LatticeIn) = .ok lat' := Option.some.inj hlat
    unfold readFile at e
    rw [hd.text] at e
    exact e
  obtain rfl : lat' = lat := Except.ok.inj (hl.symm.trans h.read)
  refine (Follows.py _).bind fun lo' hlo => (Follows.py _).bind fun hi' hhi => ?_
  have e1 : lo' = lo := by
    have := Option.some.inj hlo
    rw [hsz] at this
    exact (Except.ok.inj this).symm
  have e2 : hi' = hi := by
    have := Option.some.inj hhi
    rw [hsz] at this
    exact (Except.ok.inj this).symm
  subst e1 e2
  refine polyaLoopN_follows _ _ fun s hs => ?_
  rw [pyRange_sizes, List.mem_map] at hs
  obtain ⟨n, hn, rfl⟩ := hs
  rw [List.mem_range'_1] at hn
  rw [Int.toNat_natCast]
  exact F.polyaSize h hT (by omega) (by omega) hc

/-- With rounding errors the program does what it does in exact arithmetic. -/
theorem run_follows {fl : ℚ → ℚ} {δ : ℝ} {tol : Tol} {text : Str} {lat : LatticeIn} {P0 : Matrix (Fin 3) (Fin 3) ℚ} {b0 : List (Fin 3 → ℚ)} {lo hi k : ℕ} {T : Set ℚ}
    {C : ℕ → List Conc} {K K' : ℝ} {g D : ℕ} (h : EnumInput text lat P0 b0 lo hi k T C) (hT : tol.conc ∈ T) (F : RoundOk fl δ tol lat P0 b0 lo hi k C K K' g D)
    {U : ℕ → List (M3 ℤ)} {cnt : ℕ → M3 ℤ → Conc → ℕ} (hc : CountsAll tol lat P0 b0 lo hi C U cnt)
    (hfit : ∀ n, lo ≤ n → n ≤ hi → (countTable n (U n) (C n) (cnt n)).Fits) {w : World} (hw : ∀ l, (w.listdir l).Perm l) {a : Args} {lattice : Str} {supers : Bool}
    (ha : PlainCall a lattice supers) {d : Dir} (hd : FreshDir lattice text d) : Follows (scriptEnumN fl δ w tol a d) (scriptEnum w tol a d) := by
  classical
  obtain ⟨rest, hsz⟩ := h.sizes
  have hG : ∀ n u, ∃ G, lo ≤ n → n ≤ hi → u ∈ U n → getSymGroup (realMat P0) (realVecs b0) u 3 tol.sym true = (pure G : Run _) ∧
      ∀ c ∈ C n, polyaCount G lat.arrowFractions c = (pure (cnt n u c) : Run _) := by
    intro n u
    by_cases hn : (lo ≤ n ∧ n ≤ hi) ∧ u ∈ U n
    · obtain ⟨G, g1, -, -, -, g5⟩ := (hc n hn.1.1 hn.1.2).2.2.2 u hn.2
      exact ⟨G, fun _ _ _ => ⟨g1, fun c hcc => (g5 c hcc).2.1⟩⟩
    · exact ⟨[], fun a b c => absurd ⟨⟨a, b⟩, c⟩ hn⟩
  choose G hG using hG
  obtain ⟨KK, d1, s, p1, p2, p3, p4, -, p6, -, -⟩ := program_in (tol := tol) hw ha hd h.read h.geometry h.lo_pos h.lo_hi hsz U C G cnt
    (fun n a b => ⟨(hc n a b).1, (hc n a b).2.1, (hc n a b).2.2.1, (h.concs n a b).1 _ hT, (h.concs n a b).2.1,
      fun u hu => (hG n u a b hu).1, fun u hu c hcc => (hG n u a b hu).2 c hcc⟩)
    (fun n u c a b hu hcc => by
      obtain ⟨G, -, -, -, -, g5⟩ := (hc n a b).2.2.2 u hu
      exact ⟨n, u, c, a, b, hu, hcc, (g5 c hcc).1⟩) hfit k (fun n a b c hc => ((h.concs n a b).2.2 c hc).1)
  have q1 := F.polyaOut h hT hc hd p1
  have q2 : enumInN fl δ w tol a "polya.out".toList "enum.in".toList ["all".toList, "all".toList] d1 = sure (.ok (dictSet d1 "enum.in".toList s)) := by
    refine (show Follows (enumInN fl δ w tol a "polya.out".toList "enum.in".toList ["all".toList, "all".toList] d1)
      (enumIn w tol a "polya.out".toList "enum.in".toList ["all".toList, "all".toList] d1) from ?_) _ p3
    unfold enumInN enumIn
    rw [p2]
    refine (Follows.pure _).bind fun dd _ => (Follows.py _).bind fun _ _ => (Follows.py _).bind fun x1 hx1 => (Follows.py _).bind fun number hnum => ?_
    obtain rfl : x1 = "all".toList := (Except.ok.inj (Option.some.inj hx1)).symm
    rw [show lowerStr "all".toList = "all".toList by decide, if_pos rfl] at hnum
    obtain rfl : number = none := (Except.ok.inj (Option.some.inj hnum)).symm
    rw [makeEnumInF_none]
    exact Follows.py _
  unfold scriptEnumN scriptEnum
  rw [plain_names ha, plain_check ha]
  simp only [runPy_ok, pure_bind, sure_ok_bind, noisy_pure, ha.polya, ha.enum, ha.distribution, Option.getD_none, Option.getD_some, if_true, Bool.false_eq_true, if_false]
  refine Follows.bind ?_ fun d' _ => by
    rw [if_neg (by simp), if_neg (by simp)]
    exact Follows.pure d'
  unfold enumOutN enumOut
  rw [ha.lattice]
  refine (Follows.py _).bind fun lat' hlat => ?_
  have hl : readLattice text = .ok lat' := by
    have e : (do let s ← readFile d lattice; readLattice s : Py LatticeIn) = .ok lat' := Option.some.inj hlat
    unfold readFile at e
    rw [hd.text] at e
    exact e
  obtain rfl : lat' = lat := Except.ok.inj (hl.symm.trans h.read)
  rw [hd.noEnumIn, like_of_numbered hd.noPolya]
  simp only [Option.isSome_none, Bool.false_eq_true, if_false]
  rw [q1, sure_ok_bind, p1, pure_bind, ha.distribution, Option.getD_none, q2, sure_ok_bind, p3, pure_bind]
  refine (Follows.py _).bind fun systems hs => ?_
  have hsys : systems = KK.map (sysOfKey cnt) := by
    have e : (do let s ← readFile (dictSet d1 "enum.in".toList s) "enum.in".toList; readEnum s : Py _) = .ok systems := Option.some.inj hs
    unfold readFile at e
    rw [dictGet_set, if_pos rfl] at e
    exact (Except.ok.inj ((show readEnum s = .ok systems from e).symm.trans p4))
  unfold enumWriteN enumWrite
  refine (Follows.py _).bind fun geo _ => ?_
  refine (enumLoopN_follows _ _ fun x hx i => ?_).bind fun l _ => ?_
  · rw [hsys, List.mem_map] at hx
    obtain ⟨⟨n, u, c⟩, hx, rfl⟩ := hx
    obtain ⟨a1, a2, a3, a4, -⟩ := (p6 n u c).mp hx
    exact F.enumSystem h a1 a2 ((hc n a1 a2).2.2.1 u a3) a4 _ _ _ _
  · by_cases e : systems = []
    · rw [if_pos e, if_pos e]
      intro b hb
      cases hb
    · rw [if_neg e, if_neg e]
      exact Follows.pure _

end Phenum
