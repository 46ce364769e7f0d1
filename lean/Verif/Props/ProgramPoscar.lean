import Verif.Props.ProgramPrimitive
import Verif.Props.MakePoscar
import Verif.Proof.SnfForce
import Mathlib.Data.Fintype.BigOperators
/-
C62: from lattice.in to POSCAR files: the two programs enumeration.py and phenumStr.py (makeStr) one after the other.
-/
namespace Phenum
open Spec

/-- The options of makeStr: all structures, one POSCAR file for each, no species given; the name of the files has one field for the number, or none. -/
structure Spec.AllPoscars (m : MakeArgs) : Prop where
  structures : selectStructures m.structures = .ok none
  config : m.config = .str "f".toList
  species : m.species = none
  outfile : ∃ pre post : Str, (∀ c ∈ pre, c ≠ '{' ∧ c ≠ '}') ∧ (∀ c ∈ post, c ≠ '{' ∧ c ≠ '}') ∧ (m.outfile = pre ++ '{' :: '}' :: post ∨ m.outfile = pre)

/-- The POSCAR (with `k` species) shows the decoration `ψ` of the sites `S`: the scale factor is 1, the numbers of atoms of the species add up to the number of
positions, and the atoms, repeated with the cell, are an atom of species `t` (counted from 0) at each site `x` with `ψ x = (t + 1, not displaced)`, and nothing else. -/
def Spec.PoscarShows (S : Set V3) (k : ℕ) (P : Poscar) (ψ : Decoration) : Prop :=
  P.scale = 1 ∧ P.cell.det ≠ 0 ∧ (poscarTypes (List.range k) P.counts).length = P.atoms.length ∧
    Crystal (ColLattice P.cell.transpose) (poscarAtoms (List.range k) P) = {a | a.2 ∈ S ∧ ψ a.2 = (a.1 + 1, 0)}

/-- a number with seven decimals is read back as it was -/
theorem read7_exact (z : ℤ) : read7 ((z : ℚ) / 10 ^ 7) = (z : ℚ) / 10 ^ 7 := by
  have h := read7_near ((z : ℚ) / 10 ^ 7)
  unfold read7 at h ⊢
  set s : ℤ := (if (z : ℚ) / 10 ^ 7 < 0 then -1 else 1) * (scaled ((z : ℚ) / 10 ^ 7) : ℤ) with hs
  have e : (if (z : ℚ) / 10 ^ 7 < 0 then (-1 : ℚ) else 1) * ((scaled ((z : ℚ) / 10 ^ 7) : ℚ) / 10 ^ 7) = (s : ℚ) / 10 ^ 7 := by
    rw [hs]; split <;> push_cast <;> ring
  rw [e] at h ⊢
  have h2 : |((s - z : ℤ) : ℚ)| ≤ 1 / 2 := by
    have : (s : ℚ) / 10 ^ 7 - z / 10 ^ 7 = ((s - z : ℤ) : ℚ) / 10 ^ 7 := by push_cast; ring
    rw [this, abs_div, abs_of_pos (by norm_num : (0 : ℚ) < 10 ^ 7), div_le_div_iff_of_pos_right (by norm_num)] at h
    exact h
  have h3 : s - z = 0 := by
    rw [← Int.cast_abs] at h2
    have : ((|s - z| : ℤ) : ℚ) < 1 := lt_of_le_of_lt h2 (by norm_num)
    have : |s - z| < 1 := by exact_mod_cast this
    rwa [Int.abs_lt_one_iff] at this
  rw [show s = z by omega]

/-- the number has at most seven decimals -/
def Spec.SevenDecimals (q : ℚ) : Prop := ∃ z : ℤ, q = z / 10 ^ 7

theorem read7_of_seven {q : ℚ} (h : SevenDecimals q) : read7 q = q := by
  obtain ⟨z, rfl⟩ := h
  exact read7_exact z

theorem plv_exact (lat : LatticeIn) {P0 : Matrix (Fin 3) (Fin 3) ℚ} (b0 : List (Fin 3 → ℚ)) (now : Str) (h : ∀ i j, SevenDecimals (P0 i j)) :
    plvOf (sysOf (lat.enumParams (P0, b0)) now) = (realMat P0).transpose := by
  ext i j
  unfold plvOf sysOf LatticeIn.enumParams realMat
  fin_cases i <;> fin_cases j <;> simp [vals7, read7_of_seven (h _ _)]

theorem dvecs_exact (lat : LatticeIn) (P0 : Matrix (Fin 3) (Fin 3) ℚ) {b0 : List (Fin 3 → ℚ)} (now : Str) (h : ∀ v ∈ b0, ∀ i, SevenDecimals (v i)) :
    dvecsOf (sysOf (lat.enumParams (P0, b0)) now) = realVecs b0 := by
  unfold dvecsOf sysOf LatticeIn.enumParams realVecs
  rw [List.map_map]
  apply List.map_congr_left
  intro v hv
  funext i
  fin_cases i <;> simp [vals7, read7_of_seven (h v hv _)]

/-- what is known of a row of the file -/
theorem row_facts {nb hi k : ℕ} {row : EnumEntry} (h : RowOfCell nb 1 hi (fun n => concsFree n k nb) row) :
    ∃ (n : ℕ) (u : M3 ℤ) (snf : SnfState) (z : Config), 1 ≤ n ∧ n ≤ hi ∧ u ∈ findAllHNFs n ∧ smithNormalForm u = some (.ok snf) ∧
      row = enumEntry (hnfNumbers u) snf z ∧ z.length = nb * n ∧ ∀ p ∈ z, p.1 = -1 ∧ 1 ≤ p.2 ∧ p.2 ≤ k := by
  obtain ⟨n, u, snf, z, h1, h2, h3, h4, h5, h6, c, hc, h7, h8, -⟩ := h
  refine ⟨n, u, snf, z, h1, h2, h3, h4, h5, h6, fun p hp => ?_⟩
  have := h8 p.2 (List.mem_map_of_mem hp)
  rw [(((C25_concs_complete n k nb).2 c).mp hc).1] at this
  exact ⟨h7 p hp, this⟩

theorem digitChar_digit {d : ℕ} (h : d < 10) : (digitChar d).isDigit = true ∧ (digitChar d).toNat - 48 = d ∧ isWs (digitChar d) = false := by
  have : ∀ d < 10, (digitChar d).isDigit = true ∧ (digitChar d).toNat - 48 = d ∧ isWs (digitChar d) = false := by decide
  exact this d h

section
variable {n k : ℕ} {u : M3 ℤ} {snf : SnfState} {z : Config}

theorem row_strings (hk : k ≤ 10) (hz : ∀ p ∈ z, p.1 = -1 ∧ 1 ≤ p.2 ∧ p.2 ≤ k) (h : List ℤ) :
    (∀ p ∈ z, Writable p) ∧ (enumEntry h snf z).labeling = z.map (fun p => digitChar (p.2 - 1)) ∧ (enumEntry h snf z).arrowing = z.map (fun _ => '0') := by
  have hw : ∀ p ∈ z, Writable p := fun p hp => by
    obtain ⟨a, b, c⟩ := hz p hp
    exact ⟨Or.inl a, b, by omega⟩
  obtain ⟨e1, e2⟩ := entry_strings (h := h) (snf := snf) hw
  refine ⟨hw, e1, ?_⟩
  rw [e2]
  apply List.map_congr_left
  intro p hp
  rw [(hz p hp).1]
  rfl

/-- the row of a supercell belongs to it -/
theorem row_ofCell (hn : 1 ≤ n) (hu : u ∈ findAllHNFs n) (hs : smithNormalForm u = some (.ok snf)) (z : Config) :
    ∃ a b c d e f : ℕ, u = hnfMat a b c d e f ∧ a * c * f = n ∧ OfCell (enumEntry (hnfNumbers u) snf z) a b c d e f snf ∧ b < c ∧ d < f := by
  obtain ⟨a, b, c, d, e, f, h1, h2, h3, h4, rfl⟩ := (mem_findAllHNFs hn u).mp hu
  have h0 : 0 < a * c * f := by omega
  have ha : 0 < a := Nat.pos_of_ne_zero (by rintro rfl; simp at h0)
  have hc : 0 < c := Nat.pos_of_ne_zero (by rintro rfl; simp at h0)
  have hf : 0 < f := Nat.pos_of_ne_zero (by rintro rfl; simp at h0)
  refine ⟨a, b, c, d, e, f, rfl, by omega, ⟨hs, ⟨ha, hc, hf, by omega⟩, ?_, ?_, rfl, rfl⟩, by omega, by omega⟩
  · simp [enumEntry, hnfNumbers, hnfMat]
  · simp [enumEntry, hnfNumbers, hnfMat]

theorem row_fits (hn : 1 ≤ n) (h7 : n ≤ 7) (hk : k ≤ 10) {nb : ℕ} (hnb : 0 < nb) (hu : u ∈ findAllHNFs n) (hs : smithNormalForm u = some (.ok snf))
    (hlen : z.length = nb * n) (hz : ∀ p ∈ z, p.1 = -1 ∧ 1 ≤ p.2 ∧ p.2 ≤ k) : (enumEntry (hnfNumbers u) snf z).Fits := by
  obtain ⟨a, b, c, d, e, f, hue, hprod, hx, hb, hd⟩ := row_ofCell hn hu hs z
  obtain ⟨ha, hc, hf, he⟩ := hx.pos
  obtain ⟨-, w1, w2⟩ := row_strings (snf := snf) hk hz (hnfNumbers u)
  have hne : z ≠ [] := by
    rintro rfl
    have : 0 < nb * n := Nat.mul_pos hnb hn
    simp at hlen; omega
  have e1 : a ≤ n := by rw [← hprod, mul_assoc]; exact Nat.le_mul_of_pos_right _ (Nat.mul_pos hc hf)
  have e2 : c ≤ n := by rw [← hprod, mul_comm a c, mul_assoc]; exact Nat.le_mul_of_pos_right _ (Nat.mul_pos ha hf)
  have e3 : f ≤ n := by rw [← hprod]; exact Nat.le_mul_of_pos_left _ (Nat.mul_pos ha hc)
  refine ⟨?_, ⟨by rw [hx.snf]; rfl, ?_⟩, ⟨by rw [hx.hnf]; rfl, ?_⟩, ⟨by rw [hx.lt]; rfl, ?_⟩, ?_, ?_⟩
  · rw [hx.size, hprod]; omega
  · rw [hx.snf]
    obtain ⟨-, -, -, -, hpos, -, -, hdet⟩ := C23_smith_correct u snf hs
    rw [hue, hnfMat_det, hprod] at hdet
    have p0 := hpos 0
    have p1 := hpos 1
    have p2 := hpos 2
    have q0 : snf.M 0 0 ≤ n := by rw [← hdet, mul_assoc]; exact le_mul_of_one_le_right p0.le (by nlinarith)
    have q1 : snf.M 1 1 ≤ n := by rw [← hdet, mul_comm (snf.M 0 0), mul_assoc]; exact le_mul_of_one_le_right p1.le (by nlinarith)
    have q2 : snf.M 2 2 ≤ n := by rw [← hdet]; exact le_mul_of_one_le_left p2.le (by nlinarith)
    intro y hy
    simp only [List.mem_cons, List.not_mem_nil, or_false] at hy
    rcases hy with rfl | rfl | rfl <;> omega
  · rw [hx.hnf]
    intro y hy
    simp only [List.mem_cons, List.not_mem_nil, or_false] at hy
    rcases hy with rfl | rfl | rfl | rfl | rfl | rfl <;> omega
  · rw [hx.lt]
    have hA := (small_cell_data hn h7 hu hs).1
    intro y hy
    simp only [List.mem_cons, List.not_mem_nil, or_false] at hy
    rcases hy with rfl | rfl | rfl | rfl | rfl | rfl | rfl | rfl | rfl <;> exact hA _ _
  · rw [w1]
    refine ⟨by simpa using hne, ?_⟩
    intro ch hch
    obtain ⟨p, hp, rfl⟩ := List.mem_map.mp hch
    exact (digitChar_digit (by have := hz p hp; omega)).2.2
  · rw [w2]
    refine ⟨by simpa using hne, ?_⟩
    intro ch hch
    obtain ⟨p, -, rfl⟩ := List.mem_map.mp hch
    decide

/-- the reduction of the cell does not change anything else in the mapping to real space -/
theorem map_mink {plv : M3 ℝ} {dv : List V3} {k : ℕ} {eps : ℝ} {st : StructData} {sd : SpaceData} (h : mapToRealSpace plv dv k eps st false = .ok sd)
    {mink : Bool} {S : M3 ℝ} (hS : superCell plv st.HNF eps mink = .ok S) : ∃ sd', mapToRealSpace plv dv k eps st mink = .ok sd' := by
  unfold mapToRealSpace at h ⊢
  rw [hS]
  simp only [show superCell plv st.HNF eps false = .ok (plv * castM st.HNF).transpose from rfl] at h
  simp only [bind, Except.bind] at h ⊢
  split at h
  · cases h
  · rename_i hlen
    rw [if_neg hlen]
    split at h
    · cases h
    · rename_i hsp
      exact ⟨_, rfl⟩

/-- The supercells of at most `hi` cells can be reduced (if that is asked for). -/
def Spec.CanReduce (A : M3 ℝ) (hi : ℕ) (mink : Bool) : Prop :=
  mink = true → ∀ n, 1 ≤ n → n ≤ hi → ∀ u ∈ findAllHNFs n, ∃ S, superCell A u ((1 / 10 ^ 7 : ℚ) : ℝ) true = .ok S

theorem row_printable {hi : ℕ} (hn : 1 ≤ n) (hhi : n ≤ hi) (h7 : n ≤ 7) (hk : k ≤ 10) {dv : List V3} (hdv : 0 < dv.length) (hu : u ∈ findAllHNFs n)
    (hs : smithNormalForm u = some (.ok snf)) (hlen : z.length = dv.length * n) (hz : ∀ p ∈ z, p.1 = -1 ∧ 1 ≤ p.2 ∧ p.2 ≤ k) (A : M3 ℝ)
    (m : MakeArgs) (hm : CanReduce A hi m.mink.truth) (rz : Bool)
    (hlp : ∃ r, latticeParameter m.species ((List.range k).map (labelCount (enumEntry (hnfNumbers u) snf z).labeling)) A dv.length rz = .ok r) :
    Printable A dv k m rz (enumEntry (hnfNumbers u) snf z) := by
  obtain ⟨a, b, c, d, e, f, hue, hprod, hx, -⟩ := row_ofCell hn hu hs z
  obtain ⟨ha, hc, hf, he⟩ := hx.pos
  obtain ⟨-, w1, w2⟩ := row_strings (snf := snf) hk hz (hnfNumbers u)
  have hl : (enumEntry (hnfNumbers u) snf z).labeling.length = a * c * f * dv.length := by
    rw [w1, List.length_map, hlen, hprod, mul_comm]
  have hlb : LabelsBelow k (enumEntry (hnfNumbers u) snf z).labeling := by
    rw [w1]
    intro ch hch
    obtain ⟨p, hp, rfl⟩ := List.mem_map.mp hch
    obtain ⟨q1, q2, -⟩ := digitChar_digit (d := p.2 - 1) (by have := hz p hp; omega)
    exact ⟨q1, by rw [q2]; have := hz p hp; omega⟩
  have h0 : ∀ ch ∈ (enumEntry (hnfNumbers u) snf z).arrowing, ch = '0' := by
    rw [w2]
    intro ch hch
    obtain ⟨p, -, rfl⟩ := List.mem_map.mp hch
    rfl
  have hpts : (interiorPoints a b c d e f).length = a * c * f := by
    have := (small_cell_data hn h7 hu hs).2
    rw [hue] at this
    rw [hprod, ← this]
    simp [hnfMat]
  obtain ⟨sd, hsd⟩ := (C28_returns_iff A dv hdv k a b c d e f ha hc hf he snf hx.smith _ hl hlb ((1 / 10 ^ 7 : ℚ) : ℝ)).1 (by
    have := (complete_iff (b := b) (d := d) ha hc hf he dv.length hdv).mp (by rw [flat_length, hpts, mul_comm])
    simp only [colFull, zOff] at this
    push_cast at this
    exact this)
  refine ⟨a, b, c, d, e, f, snf, hx, hl, hlb, fun ch hch => ?_, by rw [w1, w2, List.length_map, List.length_map], ?_, Or.inr h0, hlp, ?_⟩
  · rw [h0 ch hch]; decide
  · intro hmt
    obtain ⟨S, hS⟩ := hm hmt n hn hhi u hu
    by_contra hcon
    have := C39_dependent (A * castM u).transpose ((1 / 10 ^ 7 : ℚ) : ℝ) (by rw [Matrix.det_transpose, hue]; push_cast; exact not_lt.mp hcon)
    unfold superCell at hS
    rw [if_pos rfl, this] at hS
    cases hS
  · cases hmk : m.mink.truth with
    | false => exact ⟨sd, hsd⟩
    | true =>
      obtain ⟨S, hS⟩ := hm hmk n hn hhi u hu
      exact map_mink hsd (by rw [hue] at hS; exact hS)

/-- The crystal of a POSCAR that describes a row is the decoration the row describes. -/
theorem describes_crystal {P0 : M3 ℝ} (hP : P0.det ≠ 0) {bas : List V3} (hn : 1 ≤ n) (hk : k ≤ 10) (hu : u ∈ findAllHNFs n) (hs : smithNormalForm u = some (.ok snf))
    (hp : IsNumbering (CrystalSites (ColLattice P0.transpose) bas) (SupLat P0 u) (bas.length * n)
      (sitePos (castM snf.A * P0.transpose⁻¹)⁻¹ (fun i => snf.M i i) bas n))
    (hlen : z.length = bas.length * n) (hz : ∀ p ∈ z, p.1 = -1 ∧ 1 ≤ p.2 ∧ p.2 ≤ k) {m : MakeArgs} {rz : Bool} {Q : Poscar}
    (hQ : Describes P0.transpose bas k m rz (enumEntry (hnfNumbers u) snf z) Q) {ψ : Decoration} (hψ : RowDescribes P0 bas (enumEntry (hnfNumbers u) snf z) ψ) :
    Q.cell.det ≠ 0 ∧ (poscarTypes (headingSpecies m rz k (enumEntry (hnfNumbers u) snf z).labeling) Q.counts).length = Q.atoms.length ∧
      Crystal (ColLattice Q.cell.transpose) (poscarAtoms (headingSpecies m rz k (enumEntry (hnfNumbers u) snf z).labeling) Q) =
        {a | a.2 ∈ CrystalSites (ColLattice P0.transpose) bas ∧ ψ a.2 = (a.1 + 1, 0)} := by
  obtain ⟨a, b, c, d, e, f, s, hx, q1, q2, q3, q4, -, q5, q6⟩ := hQ
  obtain ⟨hw, w1, w2⟩ := row_strings (snf := snf) hk hz (hnfNumbers u)
  obtain ⟨a', b', c', d', e', f', hue, hprod, hx', -⟩ := row_ofCell hn hu hs z
  have hh := hx.hnf
  rw [hx'.hnf] at hh
  simp only [List.cons.injEq, Nat.cast_inj, and_true] at hh
  obtain ⟨rfl, rfl, rfl, rfl, rfl, rfl⟩ := hh
  have hss : s = snf := by
    have h1 := hx.smith
    have h2 := hx'.smith
    rw [h1] at h2
    exact Except.ok.inj (Option.some.inj h2)
  subst hss
  have hsupl : ColLattice (P0.transpose * castM (hnfMat a' b' c' d' e' f')) = SupLat P0 u := by rw [hue]; rfl
  rw [hsupl] at q6 q3
  have hdraw := ((row_describes hP (by rw [hue, hnfMat_det, hprod]) hs hp hlen hw (hnfNumbers u) ψ).mp hψ).2
  have hlat : ∀ t ∈ SupLat P0 u, t ∈ ColLattice P0.transpose := fun t ht => supLat_sub P0 u ht
  have hN : (enumEntry (hnfNumbers u) s z).labeling.length = bas.length * n := by rw [w1, List.length_map, hlen]
  refine ⟨q2, by rw [q5, q4], ?_⟩
  rw [q3, q6, hprod, hN]
  have hlab : ∀ (g : ℕ) (p : ℤ × ℕ), z[g]? = some p → labelAt (enumEntry (hnfNumbers u) s z).labeling g = p.2 - 1 := by
    intro g p hg
    have hp' := hz p (List.mem_of_getElem? hg)
    unfold labelAt
    rw [w1, Int.toNat_natCast, List.getD_eq_getElem?_getD, List.getElem?_map, hg]
    exact (digitChar_digit (by omega)).2.1
  ext ⟨t, x⟩
  simp only [Crystal, Set.mem_setOf_eq, List.mem_map, List.mem_range]
  constructor
  · rintro ⟨_, ⟨g, hg, rfl⟩, ht, hx⟩
    simp only at ht hx
    have hxs : x ∈ CrystalSites (ColLattice P0.transpose) bas := by
      obtain ⟨d, hd, hm⟩ := hp.site g hg
      refine ⟨d, hd, ?_⟩
      have := (colLat_isSub P0.transpose).add _ (hlat _ hx) _ hm
      convert this using 1
      abel
    refine ⟨hxs, ?_⟩
    obtain ⟨p, hpz, e⟩ := hdraw x hxs g hg hx
    have hp' := hz p (List.mem_of_getElem? hpz)
    rw [hlab g p hpz] at ht
    rw [e]
    unfold siteValue
    rw [if_pos (by omega)]
    congr 1
    omega
  · rintro ⟨hxs, hψx⟩
    obtain ⟨g, ⟨hg, hm⟩, -⟩ := hp.unique x hxs
    obtain ⟨p, hpz, e⟩ := hdraw x hxs g hg hm
    refine ⟨_, ⟨g, hg, rfl⟩, ?_, hm⟩
    simp only
    rw [hlab g p hpz]
    have := congrArg Prod.fst (hψx.symm.trans e)
    simp only [siteValue] at this
    omega

/-- The POSCAR that describes a row shows the decoration the row describes. -/
theorem describes_shows {P0 : M3 ℝ} (hP : P0.det ≠ 0) {bas : List V3} (hn : 1 ≤ n) (hk : k ≤ 10) (hu : u ∈ findAllHNFs n) (hs : smithNormalForm u = some (.ok snf))
    (hp : IsNumbering (CrystalSites (ColLattice P0.transpose) bas) (SupLat P0 u) (bas.length * n)
      (sitePos (castM snf.A * P0.transpose⁻¹)⁻¹ (fun i => snf.M i i) bas n))
    (hlen : z.length = bas.length * n) (hz : ∀ p ∈ z, p.1 = -1 ∧ 1 ≤ p.2 ∧ p.2 ≤ k) {m : MakeArgs} (hsp : m.species = none) {rz : Bool} {Q : Poscar}
    (hQ : Describes P0.transpose bas k m rz (enumEntry (hnfNumbers u) snf z) Q) {ψ : Decoration} (hψ : RowDescribes P0 bas (enumEntry (hnfNumbers u) snf z) ψ) :
    PoscarShows (CrystalSites (ColLattice P0.transpose) bas) k Q ψ := by
  obtain ⟨h1, h2, h3⟩ := describes_crystal hP hn hk hu hs hp hlen hz hQ hψ
  obtain ⟨a, b, c, d, e, f, s, -, q1, -⟩ := hQ
  have hhs : headingSpecies m rz k (enumEntry (hnfNumbers u) snf z).labeling = List.range k := by
    unfold headingSpecies
    rw [hsp]; simp
  rw [hhs] at h2 h3
  rw [hsp] at q1
  have hsc : Q.scale = 1 := by
    have := Except.ok.inj (show Except.ok ((1 : ℝ), ([] : List String)) = Except.ok (Q.scale, Q.names) from q1)
    exact (Prod.mk.inj this).1.symm
  exact ⟨hsc, h1, h2, h3⟩

end

theorem hnfs_235 : ((List.range' 1 7).flatMap findAllHNFs).length = 235 := by decide +kernel

/-- the row of a supercell with given labels -/
def rowCode (nb : ℕ) (q : M3 ℤ × (Fin 18 → Fin 3)) : EnumEntry :=
  enumEntry (hnfNumbers q.1) (match smithNormalForm q.1 with
    | some (.ok s) => s
    | _ => ⟨0, 0, 0⟩) ((List.range (nb * q.1.det.natAbs)).map (fun i => ((-1 : ℤ), if h : i < 18 then (q.2 ⟨i, h⟩ : ℕ) + 1 else 1)))

theorem rowCode_onto {nb hi k : ℕ} (hk : k ≤ 3) (hsize : nb * hi ≤ 18) {row : EnumEntry} (hrow : RowOfCell nb 1 hi (fun n => concsFree n k nb) row) :
    ∃ n u φ, 1 ≤ n ∧ n ≤ hi ∧ u ∈ findAllHNFs n ∧ rowCode nb (u, φ) = row := by
  obtain ⟨n, u, snf, z, h1, h2, h3, h4, rfl, h6, hz⟩ := row_facts hrow
  have hdet : u.det.natAbs = n := by
    obtain ⟨a, b, c, d, e, f, hue, hprod, -⟩ := row_ofCell h1 h3 h4 z
    rw [hue, hnfMat_det, hprod]; rfl
  have hle : nb * n ≤ 18 := le_trans (Nat.mul_le_mul_left _ h2) hsize
  refine ⟨n, u, fun i => ⟨((z.getD i (-1, 1)).2 - 1) % 3, Nat.mod_lt _ (by norm_num)⟩, h1, h2, h3, ?_⟩
  unfold rowCode
  simp only [h4]
  congr 1
  apply List.ext_getElem
  · simp [hdet, h6]
  · intro i hi1 hi2
    obtain ⟨q1, q2, q3⟩ := hz _ (List.getElem_mem hi2)
    have hi18 : i < 18 := by omega
    simp only [List.getElem_map, List.getElem_range, hi18, dif_pos]
    rw [getD_lt hi2]
    apply Prod.ext
    · exact q1.symm
    · simp only
      rw [Nat.mod_eq_of_lt (by omega)]
      omega

/-- few structures: the numbers of the rows fit into their column -/
theorem rows_few {nb hi k : ℕ} {rows : List EnumEntry} (hnd : rows.Nodup) (hk : k ≤ 3) (h7 : hi ≤ 7) (hsize : nb * hi ≤ 18)
    (hrow : ∀ row ∈ rows, RowOfCell nb 1 hi (fun n => concsFree n k nb) row) : rows.length < 10 ^ 11 := by
  classical
  obtain ⟨A, hA, hcard⟩ : ∃ A : Finset (M3 ℤ × (Fin 18 → Fin 3)), (∀ n u φ, 1 ≤ n → n ≤ 7 → u ∈ findAllHNFs n → (u, φ) ∈ A) ∧ A.card ≤ 235 * 3 ^ 18 := by
    refine ⟨((List.range' 1 7).flatMap findAllHNFs).toFinset ×ˢ (Finset.univ : Finset (Fin 18 → Fin 3)), ?_, ?_⟩
    · intro n u φ h1 h2 h3
      have hm : u ∈ ((List.range' 1 7).flatMap findAllHNFs).toFinset := by
        rw [List.mem_toFinset, List.mem_flatMap]
        exact ⟨n, List.mem_range'_1.mpr (by omega), h3⟩
      simp only [Finset.mem_product, Finset.mem_univ, hm, and_true]
    · rw [Finset.card_product, Finset.card_univ, Fintype.card_fun, Fintype.card_fin, Fintype.card_fin]
      have hS := List.toFinset_card_le ((List.range' 1 7).flatMap findAllHNFs)
      rw [hnfs_235] at hS
      exact Nat.mul_le_mul hS (le_refl _)
  have hsub : rows.toFinset ⊆ A.image (rowCode nb) := by
    intro row hr
    obtain ⟨n, u, φ, h1, h2, h3, h4⟩ := rowCode_onto hk hsize (hrow row (List.mem_toFinset.mp hr))
    exact Finset.mem_image.mpr ⟨(u, φ), hA n u φ h1 (by omega) h3, h4⟩
  have hc := (Finset.card_le_card hsub).trans Finset.card_image_le
  rw [List.toFinset_card_of_nodup hnd] at hc
  have : 235 * 3 ^ 18 < 10 ^ 11 := by norm_num
  omega

/-- the numbering of the sites of a supercell -/
theorem numbering_hnf {P : M3 ℝ} {bas : List V3} (hu : Usable P bas bas true) (hprim : PrimitiveCell P bas) {n : ℕ} (hn : 1 ≤ n) (hn' : n < 2 ^ 24)
    {u : M3 ℤ} (hm : u ∈ findAllHNFs n) {snf : SnfState} (hs : smithNormalForm u = some (.ok snf)) :
    IsNumbering (CrystalSites (ColLattice P.transpose) bas) (SupLat P u) (bas.length * n)
      (sitePos (castM snf.A * P.transpose⁻¹)⁻¹ (fun i => snf.M i i) bas n) := by
  obtain ⟨e, he, h⟩ := cell_data hu hprim (flag := true) (Or.inl rfl) n hn hn'
  obtain ⟨G, G', s, hd⟩ := h (e / 2) (by linarith) (by linarith) u hm
  have := hd.smith
  rw [hs] at this
  rw [Except.ok.inj (Option.some.inj this)]
  exact hd.number

/-- the numbers of the labels add up to the number of sites -/
theorem labelCounts_sum {k : ℕ} (hk : k ≤ 10) {z : Config} (hz : ∀ p ∈ z, p.1 = -1 ∧ 1 ≤ p.2 ∧ p.2 ≤ k) (h : List ℤ) {snf : SnfState} :
    ((List.range k).map (labelCount (enumEntry h snf z).labeling)).sum = z.length := by
  rw [(row_strings (snf := snf) hk hz h).2.1]
  have key : ∀ z : Config, (∀ p ∈ z, p.1 = -1 ∧ 1 ≤ p.2 ∧ p.2 ≤ k) → ((List.range k).map (labelCount (z.map (fun p => digitChar (p.2 - 1))))).sum = z.length := by
    intro z hz
    have e : ∀ f : ℕ → ℕ, ((List.range k).map f).sum = ∑ i ∈ Finset.range k, f i := fun f => by
      rw [Finset.sum_eq_multiset_sum]; rfl
    induction z with
    | nil => rw [e]; exact Finset.sum_eq_zero (fun i _ => rfl)
    | cons p z ih =>
      have ih' := ih (fun q hq => hz q (List.mem_cons_of_mem _ hq))
      have hp := hz p List.mem_cons_self
      rw [e] at ih' ⊢
      have hc : ∀ i, labelCount ((p :: z).map (fun p => digitChar (p.2 - 1))) i =
          labelCount (z.map (fun p => digitChar (p.2 - 1))) i + if p.2 - 1 = i then 1 else 0 := by
        intro i
        unfold labelCount
        rw [List.map_cons, List.countP_cons, (digitChar_digit (d := p.2 - 1) (by omega)).2.1]
        simp
      rw [Finset.sum_congr rfl (fun i _ => hc i), Finset.sum_add_distrib, ih', Finset.sum_ite_eq, if_pos (Finset.mem_range.mpr (by omega)), List.length_cons]
  exact key z hz

/-- auxiliary: makeStr on an enum.out whose rows are known: if each of the decorations with the property `D` is described by exactly one row, it is shown by exactly
one POSCAR, in any sense `Shows` in which a POSCAR that describes a row shows its decoration and no other -/
theorem files_of_rows {lat : LatticeIn} {P0 : Matrix (Fin 3) (Fin 3) ℚ} {b0 : List (Fin 3 → ℚ)} {hi k : ℕ}
    (hcell : Usable (realMat P0) (realVecs b0) (realVecs b0) true) (hspec : lat.nspecies.toNat = k)
    (hk3 : k ≤ 3) (h7 : hi ≤ 7) (hsize : b0.length * hi ≤ 18)
    (hdec : ∀ i j, SevenDecimals (P0 i j)) (hdec' : ∀ v ∈ b0, ∀ i, SevenDecimals (v i)) {now : Str} (hnow : '\n' ∉ now) {rows : List EnumEntry} (r3 : rows.Nodup)
    {E : Decoration → Prop} (r4 : ∀ row ∈ rows, RowOfCell b0.length 1 hi (fun n => concsFree n k b0.length) row ∧ ∃ ψ, RowDescribes (realMat P0) (realVecs b0) row ψ ∧ E ψ)
    {D : Decoration → Prop} (r5 : ∀ χ, D χ → ∃! row, row ∈ rows ∧ ∃ ψ, RowDescribes (realMat P0) (realVecs b0) row ψ ∧
            SameDecoration (ColLattice (realMat P0).transpose) (realVecs b0) χ ψ) :
    ∀ m : MakeArgs, selectStructures m.structures = .ok none → m.config = .str "f".toList →
      (∃ pre post : Str, (∀ c ∈ pre, c ≠ '{' ∧ c ≠ '}') ∧ (∀ c ∈ post, c ≠ '{' ∧ c ≠ '}') ∧ (m.outfile = pre ++ '{' :: '}' :: post ∨ m.outfile = pre)) →
      CanReduce (realMat P0).transpose hi m.mink.truth →
      (∀ (rz : Bool) (concs : List ℕ), concs.length = k → 0 < concs.sum → ∃ r, latticeParameter m.species concs (realMat P0).transpose b0.length rz = .ok r) →
      ∀ Shows : Poscar → Decoration → Prop,
      (∀ (n : ℕ) (u : M3 ℤ) (snf : SnfState) (z : Config), 1 ≤ n → n ≤ hi → u ∈ findAllHNFs n → smithNormalForm u = some (.ok snf) → z.length = b0.length * n →
        (∀ p ∈ z, p.1 = -1 ∧ 1 ≤ p.2 ∧ p.2 ≤ k) → ∀ Q ψ, Describes (realMat P0).transpose (realVecs b0) k m (if m.removeZeros = .str "t".toList then true else m.removeZeros.truth)
          (enumEntry (hnfNumbers u) snf z) Q →
        RowDescribes (realMat P0) (realVecs b0) (enumEntry (hnfNumbers u) snf z) ψ → Shows Q ψ) →
      (∀ Q ψ ψ', Shows Q ψ → Shows Q ψ' → ∀ x ∈ CrystalSites (ColLattice (realMat P0).transpose) (realVecs b0), ∀ l < k, ψ x = (l + 1, 0) → ψ' x = (l + 1, 0)) →
      ∀ rnd : ReadStruct → ℕ → ℕ → ℝ,
        ∃ outs : List (Str × Poscar), makeStr (some m) (enumOutFile (lat.enumParams (P0, b0)) now rows) rnd = some (.ok (outs.map (fun o => OutFile.poscar o.1 o.2))) ∧
          (outs.map (·.1)).Nodup ∧
          (∀ o ∈ outs, ∃ ψ, E ψ ∧ Shows o.2 ψ) ∧
          ∀ χ, D χ → ∃! o, o ∈ outs ∧ ∃ ψ, Shows o.2 ψ ∧
              SameDecoration (ColLattice (realMat P0).transpose) (realVecs b0) χ ψ := by
  intro m hstr hcfg hfile hred hlp Shows hsh hinj rnd
  set S := CrystalSites (ColLattice (realMat P0).transpose) (realVecs b0) with hS
  have hbl : (realVecs b0).length = b0.length := realVecs_length b0
  have hb0 : 0 < b0.length := by
    have := List.length_pos_iff.mpr hcell.nonempty
    rwa [hbl] at this
  have hplv := plv_exact lat b0 now hdec
  have hdv := dvecs_exact lat P0 now hdec'
  have hns : (lat.enumParams (P0, b0)).nspecies = k := by
    show lat.nspecies.toNat = k
    exact hspec
  have hk10 : k ≤ 10 := by omega
  obtain ⟨pre, post, hpre, hpost, hout⟩ := hfile
  have hname : ∀ n : ℕ, ∃ name, poscarName m.outfile n = .ok name := by
    intro n
    rcases hout with ho | ho <;> rw [ho]
    · exact ⟨_, (C52_name pre post hpre hpost n).1⟩
    · exact ⟨_, (C52_name pre post hpre hpost n).2⟩
  obtain ⟨os, hmake, hF⟩ := C51_make_structures (lat.enumParams (P0, b0)) now rows rfl
    (by show b0 ≠ []; exact List.length_pos_iff.mp hb0) hnow
    (by
      intro x hx
      obtain ⟨n, u, snf, z, h1, h2, h3, h4, rfl, h6, hz⟩ := row_facts (r4 x hx).1
      exact row_fits h1 (by omega) hk10 hb0 h3 h4 h6 hz)
    (rows_few r3 hk3 h7 hsize (fun row hr => (r4 row hr).1)) m none hstr (by simp) hcfg hname
    (by rw [hplv, Matrix.det_transpose]; exact hcell.det) rnd _ rfl
    (by
      intro x hx
      obtain ⟨n, u, snf, z, h1, h2, h3, h4, rfl, h6, hz⟩ := row_facts (r4 x hx).1
      rw [hplv, hdv, hns]
      exact row_printable h1 h2 (by omega) hk10 (by rw [hbl]; exact hb0) h3 h4 (by rw [hbl]; exact h6) hz _ m hred _ (by
        rw [hbl]
        refine hlp _ _ (by simp) ?_
        rw [labelCounts_sum hk10 hz (hnfNumbers u), h6]
        exact Nat.mul_pos hb0 h1))
  rw [hplv, hdv, hns] at hF
  have hall' : (enumOutRows rows).filter (fun r => Asked none r.1) = enumOutRows rows := by
    apply List.filter_eq_self.mpr
    intro r _
    simp [Asked]
  rw [hall'] at hF
  have hnames := C52_no_overwriting rows none pre post m.outfile hpre hpost hout
  rw [hall'] at hnames
  have hperm := C50_rows_are_the_structures rows
  have hndr : ((enumOutRows rows).map (fun r => r.2.2)).Nodup := hperm.nodup_iff.mpr r3
  -- what one POSCAR shows
  have hshow : ∀ row ∈ rows, ∀ Q ψ, Describes (realMat P0).transpose (realVecs b0) k m (if m.removeZeros = .str "t".toList then true else m.removeZeros.truth) row Q → RowDescribes (realMat P0) (realVecs b0) row ψ → Shows Q ψ := by
    intro row hr Q ψ hQ hψ
    obtain ⟨n, u, snf, z, h1, h2, h3, h4, rfl, h6, hz⟩ := row_facts (r4 row hr).1
    exact hsh n u snf z h1 h2 h3 h4 h6 hz Q ψ hQ hψ
  have hback : ∀ row ∈ rows, ∀ Q ψ, Describes (realMat P0).transpose (realVecs b0) k m (if m.removeZeros = .str "t".toList then true else m.removeZeros.truth) row Q → Shows Q ψ → RowDescribes (realMat P0) (realVecs b0) row ψ := by
    intro row hr Q ψ hQ hψ
    obtain ⟨ψ0, hψ0, -⟩ := (r4 row hr).2
    have h0 := hshow row hr Q ψ0 hQ hψ0
    obtain ⟨n, u, snf, z, h1, h2, h3, h4, rfl, h6, hz⟩ := row_facts (r4 row hr).1
    intro b hb v
    obtain ⟨l, r, q1, q2, q3⟩ := hψ0 b hb v
    refine ⟨l, r, q1, q2, ?_⟩
    have hr0 : r = 0 := by
      obtain ⟨-, -, w2⟩ := row_strings (snf := snf) hk10 hz (hnfNumbers u)
      obtain ⟨q4, q5⟩ := q2
      rw [w2, List.getElem?_map] at q5
      cases hzi : z[rowIndex (enumEntry (hnfNumbers u) snf z) b v]? with
      | none => rw [hzi] at q5; cases q5
      | some p =>
        rw [hzi] at q5
        exact (digitChar_inj (by norm_num) q4 (show digitChar 0 = digitChar r from Option.some.inj q5)).symm
    rw [hr0, if_pos rfl] at q3
    rw [hr0, if_pos rfl]
    have hsite : (realVecs b0).getD b 0 + (realMat P0).transpose.mulVec (fun i => (v i : ℝ)) ∈ S :=
      ⟨(realVecs b0).getD b 0, by rw [getD_lt hb]; exact List.getElem_mem hb, by rw [add_sub_cancel_left]; exact ⟨v, rfl⟩⟩
    refine hinj Q ψ0 ψ h0 hψ _ hsite l ?_ q3
    obtain ⟨-, w1, -⟩ := row_strings (snf := snf) hk10 hz (hnfNumbers u)
    obtain ⟨q4, q5⟩ := q1
    rw [w1, List.getElem?_map] at q5
    cases hzi : z[rowIndex (enumEntry (hnfNumbers u) snf z) b v]? with
    | none => rw [hzi] at q5; cases q5
    | some p =>
      rw [hzi] at q5
      have hp := hz p (List.mem_of_getElem? hzi)
      have := digitChar_inj (by omega) q4 (show digitChar (p.2 - 1) = digitChar l from Option.some.inj q5)
      omega
  -- the files as pairs
  obtain ⟨outs, houts, hF2⟩ : ∃ outs : List (Str × Poscar), os = outs.map (fun o => OutFile.poscar o.1 o.2) ∧
      List.Forall₂ (fun (r : ℕ × ℕ × EnumEntry) (o : Str × Poscar) => poscarName m.outfile (r.1 : ℕ) = .ok o.1 ∧
        Describes (realMat P0).transpose (realVecs b0) k m (if m.removeZeros = .str "t".toList then true else m.removeZeros.truth) r.2.2 o.2) (enumOutRows rows) outs := by
    clear hmake hperm hndr hnames hall'
    generalize enumOutRows rows = L at hF ⊢
    induction hF with
    | nil => exact ⟨[], rfl, List.Forall₂.nil⟩
    | cons hh _ ih =>
      obtain ⟨outs, e1, e2⟩ := ih
      obtain ⟨name, Q, rfl, g1, g2⟩ := hh
      exact ⟨(name, Q) :: outs, by rw [List.map_cons, ← e1], List.Forall₂.cons ⟨g1, g2⟩ e2⟩
  subst houts
  have hnd2 : (outs.map (·.1)).Nodup := by
    have : (enumOutRows rows).map (fun r => poscarName m.outfile (r.1 : ℕ)) = (outs.map (·.1)).map Except.ok := by
      clear hmake hperm hndr hnames hall' hF
      generalize enumOutRows rows = L at hF2 ⊢
      induction hF2 with
      | nil => rfl
      | cons hh _ ih => rw [List.map_cons, List.map_cons, List.map_cons, ih, hh.1]
    rw [this] at hnames
    exact hnames.of_map _
  have hright : ∀ o ∈ outs, ∃ r ∈ enumOutRows rows, poscarName m.outfile (r.1 : ℕ) = .ok o.1 ∧
      Describes (realMat P0).transpose (realVecs b0) k m (if m.removeZeros = .str "t".toList then true else m.removeZeros.truth) r.2.2 o.2 := by
    intro o ho
    obtain ⟨i, hi, rfl⟩ := List.getElem_of_mem ho
    have hl := hF2.length_eq
    exact ⟨(enumOutRows rows)[i], List.getElem_mem (by omega), hF2.get (by omega) hi⟩
  have hleft : ∀ r ∈ enumOutRows rows, ∃ o ∈ outs, poscarName m.outfile (r.1 : ℕ) = .ok o.1 ∧
      Describes (realMat P0).transpose (realVecs b0) k m (if m.removeZeros = .str "t".toList then true else m.removeZeros.truth) r.2.2 o.2 := by
    intro r hr
    obtain ⟨i, hi, rfl⟩ := List.getElem_of_mem hr
    have hl := hF2.length_eq
    exact ⟨outs[i], List.getElem_mem (by omega), hF2.get hi (by omega)⟩
  have hmemrow : ∀ r ∈ enumOutRows rows, r.2.2 ∈ rows := fun r hr => hperm.mem_iff.mp (List.mem_map.mpr ⟨r, hr, rfl⟩)
  refine ⟨outs, hmake, hnd2, ?_, ?_⟩
  · intro o ho
    obtain ⟨r, hr, -, hQ⟩ := hright o ho
    obtain ⟨ψ, hψ, hE⟩ := (r4 _ (hmemrow r hr)).2
    exact ⟨ψ, hE, hshow _ (hmemrow r hr) _ ψ hQ hψ⟩
  · intro χ hχ
    obtain ⟨row, ⟨hrow, ψ, hψ, hsame⟩, hun⟩ := r5 χ hχ
    obtain ⟨r, hr, rfl⟩ := List.mem_map.mp (hperm.mem_iff.mpr hrow)
    obtain ⟨o, ho, g1, g2⟩ := hleft r hr
    refine ⟨o, ⟨ho, ψ, hshow _ hrow _ ψ g2 hψ, hsame⟩, ?_⟩
    rintro o' ⟨ho', ψ', hψ', hsame'⟩
    obtain ⟨r', hr', g1', g2'⟩ := hright o' ho'
    have hrd := hback _ (hmemrow r' hr') _ ψ' g2' hψ'
    have heq := hun r'.2.2 ⟨hmemrow r' hr', ψ', hrd, hsame'⟩
    have hrr : r' = r := List.inj_on_of_nodup_map hndr hr' hr heq
    rw [hrr, g1] at g1'
    exact (List.inj_on_of_nodup_map hnd2 ho' ho (Except.ok.inj g1').symm)

/-- auxiliary: makeStr on an enum.out whose rows are known: if each of the decorations with the property `D` is described by exactly one row, it is shown by exactly
one POSCAR -/
theorem poscars_of_rows {lat : LatticeIn} {P0 : Matrix (Fin 3) (Fin 3) ℚ} {b0 : List (Fin 3 → ℚ)} {hi k : ℕ}
    (hcell : Usable (realMat P0) (realVecs b0) (realVecs b0) true) (hprim : PrimitiveCell (realMat P0) (realVecs b0)) (hspec : lat.nspecies.toNat = k)
    (hk3 : k ≤ 3) (h7 : hi ≤ 7) (hsize : b0.length * hi ≤ 18)
    (hdec : ∀ i j, SevenDecimals (P0 i j)) (hdec' : ∀ v ∈ b0, ∀ i, SevenDecimals (v i)) {now : Str} (hnow : '\n' ∉ now) {rows : List EnumEntry} (r3 : rows.Nodup)
    {E : Decoration → Prop} (r4 : ∀ row ∈ rows, RowOfCell b0.length 1 hi (fun n => concsFree n k b0.length) row ∧ ∃ ψ, RowDescribes (realMat P0) (realVecs b0) row ψ ∧ E ψ)
    {D : Decoration → Prop} (r5 : ∀ χ, D χ → ∃! row, row ∈ rows ∧ ∃ ψ, RowDescribes (realMat P0) (realVecs b0) row ψ ∧
            SameDecoration (ColLattice (realMat P0).transpose) (realVecs b0) χ ψ) :
    ∀ m : MakeArgs, AllPoscars m → CanReduce (realMat P0).transpose hi m.mink.truth → ∀ rnd : ReadStruct → ℕ → ℕ → ℝ,
        ∃ outs : List (Str × Poscar), makeStr (some m) (enumOutFile (lat.enumParams (P0, b0)) now rows) rnd = some (.ok (outs.map (fun o => OutFile.poscar o.1 o.2))) ∧
          (outs.map (·.1)).Nodup ∧
          (∀ o ∈ outs, ∃ ψ, E ψ ∧ PoscarShows (CrystalSites (ColLattice (realMat P0).transpose) (realVecs b0)) k o.2 ψ) ∧
          ∀ χ, D χ → ∃! o, o ∈ outs ∧ ∃ ψ, PoscarShows (CrystalSites (ColLattice (realMat P0).transpose) (realVecs b0)) k o.2 ψ ∧
              SameDecoration (ColLattice (realMat P0).transpose) (realVecs b0) χ ψ := by
  intro m hm hred rnd
  have hb0 : 0 < b0.length := by
    have := List.length_pos_iff.mpr hcell.nonempty
    rwa [realVecs_length] at this
  refine files_of_rows hcell hspec hk3 h7 hsize hdec hdec' hnow r3 r4 r5 m hm.structures hm.config hm.outfile hred ?_
    (fun Q ψ => PoscarShows (CrystalSites (ColLattice (realMat P0).transpose) (realVecs b0)) k Q ψ) ?_ ?_ rnd
  · intro rz concs _ _
    rw [hm.species]
    exact ⟨_, rfl⟩
  · intro n u snf z h1 h2 h3 h4 h6 hz Q ψ hQ hψ
    exact describes_shows hcell.det h1 (by omega) h3 h4 (numbering_hnf hcell hprim h1 (by omega) h3 h4) (by rw [realVecs_length]; exact h6) hz hm.species hQ hψ
  · intro Q ψ ψ' h0 hψ x hx l _ hl
    have hm1 : (l, x) ∈ {a : ℕ × V3 | a.2 ∈ CrystalSites (ColLattice (realMat P0).transpose) (realVecs b0) ∧ ψ a.2 = (a.1 + 1, 0)} := ⟨hx, hl⟩
    rw [← h0.2.2.2, hψ.2.2.2] at hm1
    exact hm1.2

/-- auxiliary: the same at tolerances at which the searches are exact -/
theorem one_poscar_per_crystal_at {text : Str} {lat : LatticeIn} {P0 : Matrix (Fin 3) (Fin 3) ℚ} {b0 : List (Fin 3 → ℚ)} {hi k : ℕ}
    (h : CrystalInput text lat P0 b0 1 hi k) (hfree : lat.restricted = false) (hk3 : k ≤ 3) (h7 : hi ≤ 7) (hsize : b0.length * hi ≤ 18)
    (hdec : ∀ i j, SevenDecimals (P0 i j)) (hdec' : ∀ v ∈ b0, ∀ i, SevenDecimals (v i)) {tol : Tol} (ht : ExactTol P0 b0 hi tol) :
    ∀ (w : World) (a : Args) (lattice : Str) (d : Dir), (∀ l, (w.listdir l).Perm l) → '\n' ∉ w.now →
        PlainCall a lattice false → FreshDir lattice text d →
      ∃ (file : Str) (d' : Dir), scriptEnum w tol a d = (pure d' : Run Dir) ∧ dictGet d' "enum.out".toList = some file ∧
        ∀ m : MakeArgs, AllPoscars m → CanReduce (realMat P0).transpose hi m.mink.truth → ∀ rnd : ReadStruct → ℕ → ℕ → ℝ,
        ∃ outs : List (Str × Poscar), makeStr (some m) file rnd = some (.ok (outs.map (fun o => OutFile.poscar o.1 o.2))) ∧ (outs.map (·.1)).Nodup ∧
          (∀ o ∈ outs, ∃ ψ, PoscarShows (CrystalSites (ColLattice (realMat P0).transpose) (realVecs b0)) k o.2 ψ) ∧
          ∀ (M : M3 ℤ), 1 ≤ M.det.natAbs → M.det.natAbs ≤ hi → ∀ χ : Decoration,
            PeriodicOn (CrystalSites (ColLattice (realMat P0).transpose) (realVecs b0)) (SupLat (realMat P0) M) χ →
            (∀ x ∈ CrystalSites (ColLattice (realMat P0).transpose) (realVecs b0), (χ x).2 = 0 ∧ 1 ≤ (χ x).1 ∧ (χ x).1 ≤ k) →
            ∃! o, o ∈ outs ∧ ∃ ψ, PoscarShows (CrystalSites (ColLattice (realMat P0).transpose) (realVecs b0)) k o.2 ψ ∧
              SameDecoration (ColLattice (realMat P0).transpose) (realVecs b0) χ ψ := by
  intro w a lattice d hw hnow ha hd
  obtain ⟨rows, d', r1, r2, r3, r4, r5⟩ := all_crystals_rows h hfree hk3 (by omega) ht w a lattice d hw ha hd
  refine ⟨_, d', r1, r2, fun m hm hred rnd => ?_⟩
  obtain ⟨outs, q1, q2, q3, q4⟩ := poscars_of_rows h.cell h.primitive (by rw [h.species.1]; simp) hk3 h7 hsize hdec hdec' hnow r3
    (E := fun _ => True) (fun row hrow => ⟨(r4 row hrow).1, by obtain ⟨ψ, q⟩ := (r4 row hrow).2; exact ⟨ψ, q, trivial⟩⟩)
    (D := fun χ => ∃ M : M3 ℤ, 1 ≤ M.det.natAbs ∧ M.det.natAbs ≤ hi ∧
      PeriodicOn (CrystalSites (ColLattice (realMat P0).transpose) (realVecs b0)) (SupLat (realMat P0) M) χ ∧
      ∀ x ∈ CrystalSites (ColLattice (realMat P0).transpose) (realVecs b0), (χ x).2 = 0 ∧ 1 ≤ (χ x).1 ∧ (χ x).1 ≤ k)
    (fun χ hχ => by obtain ⟨M, m1, m2, h1, h2⟩ := hχ; exact r5 M m1 m2 χ h1 h2) m hm hred rnd
  exact ⟨outs, q1, q2, fun o ho => by obtain ⟨ψ, -, q⟩ := q3 o ho; exact ⟨ψ, q⟩, fun M m1 m2 χ h1 h2 => q4 χ ⟨M, m1, m2, h1, h2⟩⟩

/-- C62. From lattice.in to POSCAR files. Let lattice.in describe a crystal (numbers with at most seven decimals), the sizes `1 .. hi` with `hi ≤ 7`, two or three species
and no restrictions. The default call `enumeration.py -enum`, and then makeStr on its enum.out for all structures, both finish. All files written have different names; each
POSCAR shows a decoration of the sites of the crystal; and every decoration `χ` with the species `1 .. k` that is periodic with respect to some superlattice of at most `hi`
cells is, up to a symmetry of the crystal, shown by exactly one POSCAR. -/
theorem C62_one_poscar_per_crystal {text : Str} {lat : LatticeIn} {P0 : Matrix (Fin 3) (Fin 3) ℚ} {b0 : List (Fin 3 → ℚ)} {hi k : ℕ}
    (h : CrystalInput text lat P0 b0 1 hi k) (hfree : lat.restricted = false) (hk3 : k ≤ 3) (h7 : hi ≤ 7) (hsize : b0.length * hi ≤ 18)
    (hdec : ∀ i j, SevenDecimals (P0 i j)) (hdec' : ∀ v ∈ b0, ∀ i, SevenDecimals (v i)) :
    ∃ e > 0, ∀ tol : Tol, 0 < tol.hnf → tol.hnf < e → 0 < tol.sym → tol.sym < e →
      ∀ (w : World) (a : Args) (lattice : Str) (d : Dir), (∀ l, (w.listdir l).Perm l) → '\n' ∉ w.now →
        PlainCall a lattice false → FreshDir lattice text d →
      ∃ (file : Str) (d' : Dir), scriptEnum w tol a d = (pure d' : Run Dir) ∧ dictGet d' "enum.out".toList = some file ∧
        ∀ m : MakeArgs, AllPoscars m → CanReduce (realMat P0).transpose hi m.mink.truth → ∀ rnd : ReadStruct → ℕ → ℕ → ℝ,
        ∃ outs : List (Str × Poscar), makeStr (some m) file rnd = some (.ok (outs.map (fun o => OutFile.poscar o.1 o.2))) ∧ (outs.map (·.1)).Nodup ∧
          (∀ o ∈ outs, ∃ ψ, PoscarShows (CrystalSites (ColLattice (realMat P0).transpose) (realVecs b0)) k o.2 ψ) ∧
          ∀ (M : M3 ℤ), 1 ≤ M.det.natAbs → M.det.natAbs ≤ hi → ∀ χ : Decoration,
            PeriodicOn (CrystalSites (ColLattice (realMat P0).transpose) (realVecs b0)) (SupLat (realMat P0) M) χ →
            (∀ x ∈ CrystalSites (ColLattice (realMat P0).transpose) (realVecs b0), (χ x).2 = 0 ∧ 1 ≤ (χ x).1 ∧ (χ x).1 ≤ k) →
            ∃! o, o ∈ outs ∧ ∃ ψ, PoscarShows (CrystalSites (ColLattice (realMat P0).transpose) (realVecs b0)) k o.2 ψ ∧
              SameDecoration (ColLattice (realMat P0).transpose) (realVecs b0) χ ψ :=
  small_tol h.cell.det h.cell.nonempty hi (fun _ ht => one_poscar_per_crystal_at h hfree hk3 h7 hsize hdec hdec' ht)

/-- makeStr for all structures, called from Python without reduction -/
noncomputable def allArgs : MakeArgs :=
  { structures := some ["all".toList], displace := 0, mink := .bool false, species := none, speciesMapping := none,
    outfile := "vasp.{}".toList, config := .str "f".toList, removeZeros := .str "f".toList }

/-- C62 for the simple cubic file of the examples: the two programs run one after the other write exactly one POSCAR that shows alternating layers, and
exactly one that shows the crystal with atoms of the first species only. -/
example : ∃ e > 0, ∀ tol : Tol, 0 < tol.hnf → tol.hnf < e → 0 < tol.sym → tol.sym < e →
    ∀ (w : World) (a : Args) (lattice : Str) (d : Dir), (∀ l, (w.listdir l).Perm l) → '\n' ∉ w.now →
      PlainCall a lattice false → FreshDir lattice scText d →
    ∃ (file : Str) (d' : Dir), scriptEnum w tol a d = (pure d' : Run Dir) ∧ dictGet d' "enum.out".toList = some file ∧
      ∀ rnd : ReadStruct → ℕ → ℕ → ℝ,
      ∃ outs : List (Str × Poscar), makeStr (some allArgs) file rnd = some (.ok (outs.map (fun o => OutFile.poscar o.1 o.2))) ∧ (outs.map (·.1)).Nodup ∧
        (∃! o, o ∈ outs ∧ ∃ ψ, PoscarShows (CrystalSites (ColLattice (1 : M3 ℝ).transpose) [0]) 2 o.2 ψ ∧
          SameDecoration (ColLattice (1 : M3 ℝ).transpose) [0] layers ψ) ∧
        (∃! o, o ∈ outs ∧ ∃ ψ, PoscarShows (CrystalSites (ColLattice (1 : M3 ℝ).transpose) [0]) 2 o.2 ψ ∧
          SameDecoration (ColLattice (1 : M3 ℝ).transpose) [0] (fun _ => (1, 0)) ψ) := by
  have h0 : SevenDecimals 0 := ⟨0, by norm_num⟩
  have h1 : SevenDecimals 1 := ⟨10 ^ 7, by norm_num⟩
  obtain ⟨e, he, h⟩ := C62_one_poscar_per_crystal sc_crystal rfl (by norm_num) (by norm_num) (by simp)
    (by intro i j; fin_cases i <;> fin_cases j <;> first | exact h0 | exact h1)
    (by
      intro v hv i
      rw [List.mem_singleton] at hv
      subst hv
      fin_cases i <;> exact h0)
  refine ⟨e, he, fun tol t1 t2 t3 t4 w a lattice d hw hnow ha hd => ?_⟩
  obtain ⟨file, d', r1, r2, r3⟩ := h tol t1 t2 t3 t4 w a lattice d hw hnow ha hd
  refine ⟨file, d', r1, r2, fun rnd => ?_⟩
  obtain ⟨outs, q1, q2, -, q4⟩ := r3 allArgs ⟨by decide, rfl, rfl, "vasp.".toList, [], by decide, by simp, Or.inl rfl⟩ (fun h => absurd h (by decide)) rnd
  rw [realVecs_zero, realMat_sc] at q4
  have hdet : (!![2, 0, 0; 0, 1, 0; 0, 0, 1] : M3 ℤ).det = 2 := by rw [Matrix.det_fin_three]; simp
  refine ⟨outs, q1, q2, ?_, ?_⟩
  · refine q4 !![2, 0, 0; 0, 1, 0; 0, 0, 1] (by rw [hdet]; decide) (by rw [hdet]; decide) layers layers_structure.1 ?_
    intro x _
    unfold layers
    split <;> simp
  · exact q4 1 (by simp) (by simp) _ (fun x _ t _ => rfl) (fun x _ => ⟨rfl, le_refl _, by norm_num⟩)

end Phenum
