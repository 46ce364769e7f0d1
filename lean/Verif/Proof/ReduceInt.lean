import Verif.Proof.ReduceFull
/-
The reduction of lattices with integer vectors (times a scale factor), in integer arithmetic: a check that can be evaluated and that
implies that the reduction of the code succeeds.
-/
namespace Phenum
open Spec

abbrev Z3 := ℤ × ℤ × ℤ

def zdot (a b : Z3) : ℤ := a.1 * b.1 + a.2.1 * b.2.1 + a.2.2 * b.2.2

/-- `v - m u` -/
def zsub (v : Z3) (m : ℤ) (u : Z3) : Z3 := (v.1 - m * u.1, v.2.1 - m * u.2.1, v.2.2 - m * u.2.2)

def zadd (v u : Z3) : Z3 := zsub v (-1) u

/-- the vector with a scale factor -/
def toV (s : ℝ) (z : Z3) : V3 := ![s * z.1, s * z.2.1, s * z.2.2]

def zGaussIter (W : ℤ) : ℕ → Z3 → Z3 → Option (Z3 × Z3)
  | 0, _, _ => none
  | k + 1, U, V =>
    let u := zdot U U
    if 0 < u ∧ u ≤ W then
      let R := zsub V ((2 * zdot U V + u) / (2 * u)) U
      if u ≤ zdot R R then some (U, R) else zGaussIter W k R U
    else none

def zGauss (W : ℤ) (U V : Z3) : Option (Z3 × Z3) :=
  if zdot V V ≤ W then
    if zdot V V ≤ zdot U U then zGaussIter W 10 V U else zGaussIter W 10 U V
  else none

/-- the shortest of four vectors, the first one if several are -/
def zBest (c : Z3) : List Z3 → Z3
  | [] => c
  | d :: l => if zdot d d < zdot c c then zBest d l else zBest c l

def zReduceC (W D : ℤ) (A B C : Z3) : Option (Z3 × Z3 × Z3) :=
  match zGauss W A B with
  | none => none
  | some (A, B) =>
    let a := zdot A A
    let b := zdot B B
    let c := zdot A B
    let g := a * b - c * c
    if 0 < g ∧ g ≤ D then
      let x := (zdot C A * b - zdot C B * c) / g
      let y := (zdot C B * a - zdot C A * c) / g
      let C0 := zsub (zsub C x A) y B
      some (A, B, zBest C0 [zsub C0 1 A, zsub C0 1 B, zsub (zsub C0 1 A) 1 B])
    else none

def zArgMax (n0 n1 n2 : ℤ) : Fin 3 := if n1 ≤ n0 ∧ n2 ≤ n0 then 0 else if n2 ≤ n1 then 1 else 2

def zPick {α : Type} (A B C : α) (i : Fin 3) : α := if i = 0 then A else if i = 1 then B else C

def zSort (A B C : Z3) : Z3 × Z3 × Z3 :=
  let n0 := zdot A A
  let n1 := zdot B B
  let n2 := zdot C C
  let i2 := zArgMax n0 n1 n2
  let m0 := if i2 = 0 then 0 else n0
  let m1 := if i2 = 1 then 0 else n1
  let m2 := if i2 = 2 then 0 else n2
  let i1 := zArgMax m0 m1 m2
  let l0 := if i1 = 0 then 0 else m0
  let l1 := if i1 = 1 then 0 else m1
  let l2 := if i1 = 2 then 0 else m2
  (zPick A B C (zArgMax l0 l1 l2), zPick A B C i1, zPick A B C i2)

def zMinkLoop (W D : ℤ) : ℕ → Z3 → Z3 → Z3 → Option (Z3 × Z3 × Z3)
  | 0, _, _, _ => none
  | k + 1, A, B, C =>
    match zSort A B C with
    | (A, B, C) =>
      match zReduceC W D A B C with
      | none => none
      | some (A, B, C) =>
        if zdot B B ≤ W then
          if zdot B B ≤ zdot C C then some (A, B, C) else zMinkLoop W D k A B C
        else none

def zLe (a b : Z3) : Bool := decide (zdot a a ≤ zdot b b)

def zCheck (b1 b2 b3 : Z3) : Bool :=
  zLe b1 b2 && zLe b2 b3 && zLe b2 (zadd b1 b2) && zLe b2 (zsub b1 1 b2) && zLe b3 (zadd b1 b3) && zLe b3 (zsub b3 1 b1) &&
  zLe b3 (zadd b2 b3) && zLe b3 (zsub b3 1 b2) && zLe b3 (zadd (zadd b1 b2) b3) && zLe b3 (zadd (zsub b1 1 b2) b3) &&
  zLe b3 (zsub (zadd b1 b2) 1 b3) && zLe b3 (zsub (zsub b1 1 b2) 1 b3)

def zMink (W D : ℤ) (A B C : Z3) : Bool :=
  match zMinkLoop W D 10 A B C with
  | none => false
  | some (A, B, C) => zCheck A B C

/-- the scale factor and the tolerance fit to the bounds -/
structure ZScale (s eps : ℝ) (W D : ℤ) : Prop where
  s_pos : 0 < s
  e_pos : 0 < eps
  e_one : eps < 1
  gap : 4 * W * eps ^ 2 < s ^ 2
  wmax : W ≤ 10 ^ 9
  dmax : eps * D < 1

section
variable {s eps : ℝ} {W D : ℤ}

theorem toV_dot (a b : Z3) : vdot (toV s a) (toV s b) = s ^ 2 * (zdot a b : ℤ) := by
  have e : vdot (toV s a) (toV s b) = s * a.1 * (s * b.1) + s * a.2.1 * (s * b.2.1) + s * a.2.2 * (s * b.2.2) := rfl
  rw [e]
  unfold zdot
  push_cast
  ring

theorem toV_sub (v : Z3) (m : ℤ) (u : Z3) : toV s (zsub v m u) = fun i => toV s v i - (m : ℝ) * toV s u i := by
  funext i
  unfold toV zsub
  fin_cases i <;> simp <;> ring

theorem toV_add (v u : Z3) : toV s (zadd v u) = fun i => toV s v i + toV s u i := by
  unfold zadd
  rw [toV_sub]
  funext i
  push_cast
  ring

variable (h : ZScale s eps W D)
include h

theorem toV_le {a b : Z3} (hab : zdot a a ≤ zdot b b) : vnorm (toV s a) ≤ vnorm (toV s b) := by
  have hs := h.s_pos
  rw [vnorm_le_iff, toV_dot, toV_dot]
  have : ((zdot a a : ℤ) : ℝ) ≤ (zdot b b : ℤ) := by exact_mod_cast hab
  exact mul_le_mul_of_nonneg_left this (by positivity)

theorem toV_gap {a b : Z3} (hab : zdot a a < zdot b b) (hb : zdot b b ≤ W) : vnorm (toV s a) < vnorm (toV s b) - eps := by
  have hs := h.s_pos
  have he := h.e_pos
  have e1 := vnorm_sq' (toV s a)
  have e2 := vnorm_sq' (toV s b)
  rw [toV_dot] at e1 e2
  have h1 : ((zdot a a : ℤ) : ℝ) + 1 ≤ (zdot b b : ℤ) := by exact_mod_cast hab
  have h2 : ((zdot b b : ℤ) : ℝ) ≤ W := by exact_mod_cast hb
  set x := vnorm (toV s b)
  set y := vnorm (toV s a)
  have hx : 0 ≤ x := vnorm_nonneg _
  have hy : 0 ≤ y := vnorm_nonneg _
  by_contra hc
  have hc : x - eps ≤ y := not_lt.mp hc
  have hs2 : 0 < s ^ 2 := by positivity
  have d1 : s ^ 2 ≤ x ^ 2 - y ^ 2 := by rw [e1, e2]; nlinarith
  have d2 : y < x := by
    by_contra hxy
    have := not_lt.mp hxy
    nlinarith
  have d3 : s ^ 2 ≤ 2 * eps * x := by nlinarith
  have d4 : (s ^ 2) ^ 2 ≤ (2 * eps * x) ^ 2 := pow_le_pow_left₀ hs2.le d3 2
  have d5 : (2 * eps * x) ^ 2 = 4 * eps ^ 2 * (s ^ 2 * (zdot b b : ℤ)) := by rw [← e2]; ring
  rw [d5] at d4
  have d6 : 4 * eps ^ 2 * (s ^ 2 * ((zdot b b : ℤ) : ℝ)) ≤ s ^ 2 * (4 * W * eps ^ 2) := by
    have : (4 * eps ^ 2 * s ^ 2) * ((zdot b b : ℤ) : ℝ) ≤ (4 * eps ^ 2 * s ^ 2) * W := mul_le_mul_of_nonneg_left h2 (by positivity)
    linarith
  have d7 := mul_lt_mul_of_pos_left h.gap hs2
  nlinarith

/-- the rounding is exact -/
theorem round_int {U V : Z3} (hu : 0 < zdot U U) (hW : zdot U U ≤ W) :
    npRound (vdot (toV s U) (toV s V) / vdot (toV s U) (toV s U) + 1 / 10 ^ 10) = (2 * zdot U V + zdot U U) / (2 * zdot U U) := by
  have hs := h.s_pos
  set u := zdot U U with hudef
  set p := zdot U V
  have hu' : (0 : ℝ) < u := by exact_mod_cast hu
  have e : vdot (toV s U) (toV s V) / vdot (toV s U) (toV s U) = (p : ℝ) / u := by
    rw [toV_dot, toV_dot, mul_div_mul_left _ _ (by positivity)]
  rw [e]
  set m := (2 * p + u) / (2 * u) with hm
  have hdiv := Int.mul_ediv_add_emod (2 * p + u) (2 * u)
  have hmod0 := Int.emod_nonneg (2 * p + u) (show 2 * u ≠ 0 by omega)
  have hmod1 := Int.emod_lt_of_pos (2 * p + u) (show 0 < 2 * u by omega)
  rw [← hm] at hdiv
  set r := (2 * p + u) % (2 * u)
  have hp : (2 * p : ℝ) = 2 * u * m + r - u := by
    have : 2 * p = 2 * u * m + r - u := by omega
    exact_mod_cast this
  have hW9 : (u : ℝ) ≤ 10 ^ 9 := by
    have := le_trans hW h.wmax
    exact_mod_cast this
  have hr0 : (0 : ℝ) ≤ r := by exact_mod_cast hmod0
  have hr1 : (r : ℝ) + 1 ≤ 2 * u := by exact_mod_cast hmod1
  have hx : (p : ℝ) / u = m - 1 / 2 + r / (2 * u) := by
    field_simp
    linarith
  have hf1 : (r : ℝ) / (2 * u) ≤ 1 - 1 / (2 * u) := by
    rw [div_le_iff₀ (by positivity)]
    field_simp
    linarith
  have hf0 : 0 ≤ (r : ℝ) / (2 * u) := by positivity
  have hinv : (4 : ℝ) / 10 ^ 10 ≤ 1 / (2 * u) := by
    rw [div_le_div_iff₀ (by norm_num) (by positivity)]
    linarith
  have hnear := abs_le.mp (npRound_near ((p : ℝ) / u + 1 / 10 ^ 10))
  set z := npRound ((p : ℝ) / u + 1 / 10 ^ 10)
  have h1 : (z : ℝ) < m + 1 := by linarith [hnear.1]
  have h2 : (m : ℝ) < z + 1 := by linarith [hnear.2]
  have h3 : z < m + 1 := by exact_mod_cast h1
  have h4 : m < z + 1 := by exact_mod_cast h2
  omega

theorem zGaussIter_ok : ∀ (k : ℕ) (U V U' V' : Z3), zGaussIter W k U V = some (U', V') →
    gaussIter eps k (toV s U) (toV s V) = .ok (toV s U', toV s V')
  | 0, _, _, _, _, hz => by simp [zGaussIter] at hz
  | k + 1, U, V, U', V', hz => by
    unfold zGaussIter at hz
    simp only at hz
    split_ifs at hz with hc hd
    · obtain ⟨hu, hW⟩ := hc
      simp only [Option.some.injEq, Prod.mk.injEq] at hz
      obtain ⟨rfl, rfl⟩ := hz
      unfold gaussIter
      have hne : vdot (toV s U) (toV s U) ≠ 0 := by
        rw [toV_dot]
        have hs := h.s_pos
        have : (0 : ℝ) < zdot U U := by exact_mod_cast hu
        positivity
      rw [if_neg hne]
      simp only
      rw [round_int h hu hW, ← toV_sub, if_pos]
      have := toV_le h hd
      have := h.e_pos
      linarith
    · obtain ⟨hu, hW⟩ := hc
      have ih := zGaussIter_ok k _ _ _ _ hz
      unfold gaussIter
      have hne : vdot (toV s U) (toV s U) ≠ 0 := by
        rw [toV_dot]
        have hs := h.s_pos
        have : (0 : ℝ) < zdot U U := by exact_mod_cast hu
        positivity
      rw [if_neg hne]
      simp only
      rw [round_int h hu hW, ← toV_sub, if_neg]
      · exact ih
      · exact not_le.mpr (toV_gap h (not_le.mp hd) hW)

theorem zGauss_ok {U V U' V' : Z3} (hz : zGauss W U V = some (U', V')) : gaussReduce (toV s U) (toV s V) eps = .ok (toV s U', toV s V') := by
  unfold zGauss at hz
  unfold gaussReduce
  split_ifs at hz with h1 h2
  · rw [if_pos]
    · exact zGaussIter_ok h _ _ _ _ _ hz
    · have := toV_le h h2
      have := h.e_pos
      linarith
  · rw [if_neg]
    · exact zGaussIter_ok h _ _ _ _ _ hz
    · exact not_lt.mpr (toV_gap h (not_le.mp h2) h1).le

omit h in
theorem floor_div {p g : ℤ} (hg : 0 < g) (he : 0 ≤ eps) (hge : eps * g < 1) : ⌊(p : ℝ) / g + eps⌋ = p / g := by
  have hdiv := Int.mul_ediv_add_emod p g
  have hm0 := Int.emod_nonneg p hg.ne'
  have hm1 := Int.emod_lt_of_pos p hg
  have hg' : (0 : ℝ) < g := by exact_mod_cast hg
  have hp : (p : ℝ) = g * (p / g : ℤ) + (p % g : ℤ) := by exact_mod_cast hdiv.symm
  have h0 : (0 : ℝ) ≤ (p % g : ℤ) := by exact_mod_cast hm0
  have h1 : ((p % g : ℤ) : ℝ) + 1 ≤ g := by exact_mod_cast hm1
  have hx : (p : ℝ) / g = (p / g : ℤ) + ((p % g : ℤ) : ℝ) / g := by
    rw [div_eq_iff hg'.ne', add_mul, div_mul_cancel₀ _ hg'.ne']
    linarith
  rw [Int.floor_eq_iff, hx]
  have h2 : 0 ≤ ((p % g : ℤ) : ℝ) / g := by positivity
  constructor
  · linarith
  · have : ((p % g : ℤ) : ℝ) / g + eps < 1 := by
      have h3 : ((p % g : ℤ) : ℝ) / g ≤ 1 - 1 / g := by
        rw [div_le_iff₀ hg', sub_mul, one_mul, div_mul_cancel₀ _ hg'.ne']
        linarith
      have h4 : eps < 1 / g := by rw [lt_div_iff₀ hg']; exact hge
      linarith
    linarith

theorem zBest_ok {α : Type} (f : α → Z3) : ∀ (c : α) (l : List α),
    f (argMin (fun k => vnorm (toV s (f k))) c l) = zBest (f c) (l.map f)
  | _, [] => rfl
  | c, d :: l => by
    rw [List.map_cons]
    unfold argMin zBest
    by_cases hc : zdot (f d) (f d) < zdot (f c) (f c)
    · rw [if_pos hc, if_pos]
      · exact zBest_ok f d l
      · rw [vnorm_lt_iff, toV_dot, toV_dot]
        have hs := h.s_pos
        have : ((zdot (f d) (f d) : ℤ) : ℝ) < (zdot (f c) (f c) : ℤ) := by exact_mod_cast hc
        exact mul_lt_mul_of_pos_left this (by positivity)
    · rw [if_neg hc, if_neg]
      · exact zBest_ok f c l
      · exact not_lt.mpr (toV_le h (not_lt.mp hc))

theorem zReduceC_ok {A B C A' B' C' : Z3} (hd : (rows3 (toV s A) (toV s B) (toV s C)).det ≠ 0) (hz : zReduceC W D A B C = some (A', B', C')) :
    reduceC (toV s A) (toV s B) (toV s C) eps = .ok (toV s A', toV s B', toV s C') ∧
      RowLat (rows3 (toV s A') (toV s B') (toV s C')) = RowLat (rows3 (toV s A) (toV s B) (toV s C)) := by
  have hs := h.s_pos
  unfold zReduceC at hz
  split at hz
  · cases hz
  · rename_i A1 B1 hg
    simp only at hz
    split_ifs at hz with hc
    simp only [Option.some.injEq, Prod.mk.injEq] at hz
    obtain ⟨rfl, rfl, hC'⟩ := hz
    obtain ⟨r1, r2, -, -, -⟩ := reduceC_full h.e_pos.le h.e_one hd (zGauss_ok h hg)
    set g := zdot A1 A1 * zdot B1 B1 - zdot A1 B1 * zdot A1 B1 with hgdef
    have hg0 : (0 : ℝ) < g := by exact_mod_cast hc.1
    have hgD : eps * (g : ℝ) < 1 := by
      have : (g : ℝ) ≤ D := by exact_mod_cast hc.2
      have := mul_le_mul_of_nonneg_left this h.e_pos.le
      linarith [h.dmax]
    have hgram : gramDet (toV s A1) (toV s B1) = s ^ 4 * (g : ℝ) := by
      unfold gramDet
      rw [toV_dot, toV_dot, toV_dot, hgdef]
      push_cast
      ring
    have hcA : cornerA (toV s A1) (toV s B1) (toV s C) eps = (zdot C A1 * zdot B1 B1 - zdot C B1 * zdot A1 B1) / g := by
      unfold cornerA
      rw [hgram, toV_dot, toV_dot, toV_dot, toV_dot, ← floor_div hc.1 h.e_pos.le hgD]
      congr 2
      rw [div_eq_div_iff (by positivity) hg0.ne']
      push_cast
      ring
    have hcB : cornerB (toV s A1) (toV s B1) (toV s C) eps = (zdot C B1 * zdot A1 A1 - zdot C A1 * zdot A1 B1) / g := by
      unfold cornerB
      rw [hgram, toV_dot, toV_dot, toV_dot, toV_dot, ← floor_div hc.1 h.e_pos.le hgD]
      congr 2
      rw [div_eq_div_iff (by positivity) hg0.ne']
      push_cast
      ring
    set x := (zdot C A1 * zdot B1 B1 - zdot C B1 * zdot A1 B1) / g
    set y := (zdot C B1 * zdot A1 A1 - zdot C A1 * zdot A1 B1) / g
    set f : ℤ × ℤ → Z3 := fun k => zsub (zsub C (k.1 + x) A1) (k.2 + y) B1 with hf
    have hshift : ∀ k : ℤ × ℤ, shiftC (toV s A1) (toV s B1) (toV s C) (k.1 + x) (k.2 + y) = toV s (f k) := by
      intro k
      rw [hf]
      simp only
      rw [toV_sub, toV_sub]
      funext i
      unfold shiftC
      ring
    have hbest : toV s C' = shiftC (toV s A1) (toV s B1) (toV s C) ((bestCorner (toV s A1) (toV s B1) (toV s C) eps).1 + cornerA (toV s A1) (toV s B1) (toV s C) eps)
        ((bestCorner (toV s A1) (toV s B1) (toV s C) eps).2 + cornerB (toV s A1) (toV s B1) (toV s C) eps) := by
      rw [hcA, hcB, hshift]
      congr 1
      unfold bestCorner
      rw [hcA, hcB]
      have e : (fun k : ℤ × ℤ => vnorm (shiftC (toV s A1) (toV s B1) (toV s C) (k.1 + x) (k.2 + y))) = fun k => vnorm (toV s (f k)) := by
        funext k; rw [hshift]
      rw [e, zBest_ok h f, ← hC']
      congr 1
      · simp [hf, zsub]
      · simp only [List.map_cons, List.map_nil, hf]
        congr 1
        · simp only [zsub, Prod.mk.injEq]; refine ⟨?_, ?_, ?_⟩ <;> ring
        congr 1
        · simp only [zsub, Prod.mk.injEq]; refine ⟨?_, ?_, ?_⟩ <;> ring
        congr 1
        · simp only [zsub, Prod.mk.injEq]; refine ⟨?_, ?_, ?_⟩ <;> ring
    rw [← hbest] at r1 r2
    exact ⟨r1, r2⟩

omit h in
theorem argMax_ok {n : Fin 3 → ℝ} {a b c : ℤ} (h1 : n 1 ≤ n 0 ↔ b ≤ a) (h2 : n 2 ≤ n 0 ↔ c ≤ a) (h3 : n 2 ≤ n 1 ↔ c ≤ b) :
    argMax3 n = zArgMax a b c := by
  unfold argMax3 zArgMax
  simp only [h1, h2, h3]

theorem toV_le_iff (a b : Z3) : vnorm (toV s a) ≤ vnorm (toV s b) ↔ zdot a a ≤ zdot b b := by
  constructor
  · intro hle
    by_contra hc
    have hs := h.s_pos
    have hc : zdot b b < zdot a a := not_le.mp hc
    have : vnorm (toV s b) < vnorm (toV s a) := by
      rw [vnorm_lt_iff, toV_dot, toV_dot]
      have : ((zdot b b : ℤ) : ℝ) < (zdot a a : ℤ) := by exact_mod_cast hc
      exact mul_lt_mul_of_pos_left this (by positivity)
    linarith
  · exact toV_le h

/-- the squared lengths, some of them replaced by zero, are ordered as the lengths -/
theorem mask_le {a b : Z3} (c d : Prop) [Decidable c] [Decidable d] :
    (if c then 0 else vnorm (toV s a)) ≤ (if d then 0 else vnorm (toV s b)) ↔ (if c then 0 else zdot a a) ≤ (if d then 0 else zdot b b) := by
  have h0 : zdot (0, 0, 0) (0, 0, 0) = 0 := rfl
  have hv0 : vnorm (toV s (0, 0, 0)) = 0 := by simp [vnorm, toV]
  have key := toV_le_iff h (if c then (0, 0, 0) else a) (if d then (0, 0, 0) else b)
  split_ifs at key ⊢ <;> first | (simp only [h0, hv0] at key; exact key) | exact key

theorem zSort_ok {A B C A' B' C' : Z3} (hz : zSort A B C = (A', B', C')) :
    sortRows (rows3 (toV s A) (toV s B) (toV s C)) = rows3 (toV s A') (toV s B') (toV s C') := by
  unfold zSort at hz
  simp only [Prod.mk.injEq] at hz
  obtain ⟨hA, hB, hC⟩ := hz
  set M := rows3 (toV s A) (toV s B) (toV s C) with hM
  have hpick : ∀ i, M i = toV s (zPick A B C i) := by
    intro i
    fin_cases i <;> rfl
  unfold sortRows
  simp only
  set n0 : Fin 3 → ℝ := fun i => vnorm (M i) with hn0
  have v0 : ∀ i, n0 i = vnorm (toV s (zPick A B C i)) := fun i => by show vnorm (M i) = _; rw [hpick]
  have e2 : argMax3 n0 = zArgMax (zdot A A) (zdot B B) (zdot C C) := by
    refine argMax_ok ?_ ?_ ?_ <;> rw [v0, v0] <;> exact toV_le_iff h _ _
  rw [e2]
  set i2 := zArgMax (zdot A A) (zdot B B) (zdot C C)
  set n1 := Function.update n0 i2 0 with hn1
  have v1 : ∀ i, n1 i = if i2 = i then 0 else vnorm (toV s (zPick A B C i)) := by
    intro i
    rw [hn1, Function.update_apply]
    by_cases hi : i = i2
    · rw [if_pos hi, if_pos hi.symm]
    · rw [if_neg hi, if_neg (Ne.symm hi), v0]
  have e1 : argMax3 n1 = zArgMax (if i2 = 0 then 0 else zdot A A) (if i2 = 1 then 0 else zdot B B) (if i2 = 2 then 0 else zdot C C) := by
    refine argMax_ok ?_ ?_ ?_ <;> rw [v1, v1]
    · exact mask_le h (a := B) (b := A) _ _
    · exact mask_le h (a := C) (b := A) _ _
    · exact mask_le h (a := C) (b := B) _ _
  rw [e1]
  set i1 := zArgMax (if i2 = 0 then 0 else zdot A A) (if i2 = 1 then 0 else zdot B B) (if i2 = 2 then 0 else zdot C C)
  set n2 := Function.update n1 i1 0 with hn2
  have v2 : ∀ i, n2 i = if i1 = i ∨ i2 = i then 0 else vnorm (toV s (zPick A B C i)) := by
    intro i
    rw [hn2, Function.update_apply]
    by_cases hi : i = i1
    · rw [if_pos hi, if_pos (Or.inl hi.symm)]
    · rw [if_neg hi, v1]
      by_cases hi' : i2 = i
      · rw [if_pos hi', if_pos (Or.inr hi')]
      · rw [if_neg hi', if_neg (by rintro (h | h); exacts [hi h.symm, hi' h])]
  have enest : ∀ (j : Fin 3) (x : ℤ), (if i1 = j then 0 else if i2 = j then 0 else x) = if i1 = j ∨ i2 = j then 0 else x := by
    intro j x
    split_ifs <;> simp_all
  have e0 : argMax3 n2 = zArgMax (if i1 = 0 then 0 else if i2 = 0 then 0 else zdot A A) (if i1 = 1 then 0 else if i2 = 1 then 0 else zdot B B)
      (if i1 = 2 then 0 else if i2 = 2 then 0 else zdot C C) := by
    rw [enest, enest, enest]
    refine argMax_ok ?_ ?_ ?_ <;> rw [v2, v2]
    · exact mask_le h (a := B) (b := A) _ _
    · exact mask_le h (a := C) (b := A) _ _
    · exact mask_le h (a := C) (b := B) _ _
  rw [e0, hpick, hpick, hpick, hA, hB, hC]

theorem zMinkLoop_ok : ∀ (k : ℕ) (A B C A' B' C' : Z3), (rows3 (toV s A) (toV s B) (toV s C)).det ≠ 0 → zMinkLoop W D k A B C = some (A', B', C') →
    minkLoop eps k (rows3 (toV s A) (toV s B) (toV s C)) = .ok (rows3 (toV s A') (toV s B') (toV s C'))
  | 0, _, _, _, _, _, _, _, hz => by simp [zMinkLoop] at hz
  | k + 1, A, B, C, A', B', C', hd, hz => by
    unfold zMinkLoop at hz
    split at hz
    rename_i A1 B1 C1 hsort
    have hso := zSort_ok h hsort
    have hs := (sortRows_spec (norm_pos_of_det hd)).1
    rw [hso] at hs
    have hd1 := rowLat_det hs hd
    split at hz
    · cases hz
    rename_i A2 B2 C2 hred
    obtain ⟨hr, hrow⟩ := zReduceC_ok h hd1 hred
    have hd2 := rowLat_det hrow hd1
    unfold minkLoop
    simp only [bind, Except.bind]
    rw [hso]
    have hr' : reduceC (rows3 (toV s A1) (toV s B1) (toV s C1) 0) (rows3 (toV s A1) (toV s B1) (toV s C1) 1)
        (rows3 (toV s A1) (toV s B1) (toV s C1) 2) eps = .ok (toV s A2, toV s B2, toV s C2) := hr
    rw [hr']
    simp only
    split_ifs at hz with hW hle
    · simp only [Option.some.injEq, Prod.mk.injEq] at hz
      obtain ⟨rfl, rfl, rfl⟩ := hz
      rw [if_pos]
      have := toV_le h hle
      have := h.e_pos
      linarith
    · rw [if_neg (not_le.mpr (toV_gap h (not_le.mp hle) hW))]
      exact zMinkLoop_ok k _ _ _ _ _ _ hd2 hz

theorem zCheck_ok {A B C : Z3} (hz : zCheck A B C = true) : minkCheck (rows3 (toV s A) (toV s B) (toV s C)) eps := by
  unfold zCheck zLe at hz
  simp only [Bool.and_eq_true, decide_eq_true_eq] at hz
  obtain ⟨⟨⟨⟨⟨⟨⟨⟨⟨⟨⟨c1, c2⟩, c3⟩, c4⟩, c5⟩, c6⟩, c7⟩, c8⟩, c9⟩, c10⟩, c11⟩, c12⟩ := hz
  have key : ∀ {a b : Z3} {w : V3}, zdot a a ≤ zdot b b → toV s b = w → vnorm (toV s a) ≤ vnorm w + eps := by
    intro a b w hab hw
    have := toV_le h hab
    rw [hw] at this
    linarith [h.e_pos]
  have e0 : rows3 (toV s A) (toV s B) (toV s C) 0 = toV s A := rfl
  have e1 : rows3 (toV s A) (toV s B) (toV s C) 1 = toV s B := rfl
  have e2 : rows3 (toV s A) (toV s B) (toV s C) 2 = toV s C := rfl
  unfold minkCheck
  simp only [e0, e1, e2, gt_iff_lt, not_lt]
  refine ⟨key c1 rfl, key c2 rfl, key c3 ?_, key c4 ?_, key c5 ?_, key c6 ?_, key c7 ?_, key c8 ?_, key c9 ?_, key c10 ?_, key c11 ?_, key c12 ?_⟩ <;>
    simp only [toV_add, toV_sub, Int.cast_one, one_mul]

theorem zMink_ok {A B C : Z3} (hd : eps < |(rows3 (toV s A) (toV s B) (toV s C)).det|) (hz : zMink W D A B C = true) :
    ∃ N, minkReduce (rows3 (toV s A) (toV s B) (toV s C)) eps = .ok N := by
  unfold zMink at hz
  split at hz
  · cases hz
  rename_i A' B' C' hl
  have hd0 : (rows3 (toV s A) (toV s B) (toV s C)).det ≠ 0 := by
    intro h0
    rw [h0, abs_zero] at hd
    linarith [h.e_pos]
  have h1 := zMinkLoop_ok h 10 _ _ _ _ _ _ hd0 hl
  have h2 := zCheck_ok h hz
  unfold minkReduce
  rw [if_neg (not_le.mpr hd)]
  simp only [bind, Except.bind]
  rw [h1]
  simp only [h2, not_true_eq_false, if_false]
  split_ifs
  · exact ⟨_, rfl⟩
  · exact ⟨_, rfl⟩

/-- the rows of a supercell: the matrix `Z` has the parent lattice vectors as rows -/
def zRow (Z u : M3 ℤ) (i : Fin 3) : Z3 := (∑ k, u k i * Z k 0, ∑ k, u k i * Z k 1, ∑ k, u k i * Z k 2)

omit h in
theorem zRow_cell (Z u : M3 ℤ) {A : M3 ℝ} (hA : ∀ i j, A i j = s * Z j i) :
    (A * castM u).transpose = rows3 (toV s (zRow Z u 0)) (toV s (zRow Z u 1)) (toV s (zRow Z u 2)) := by
  have key : ∀ i j, (A * castM u).transpose i j = toV s (zRow Z u i) j := by
    intro i j
    rw [Matrix.transpose_apply, Matrix.mul_apply, Fin.sum_univ_three, hA, hA, hA]
    unfold castM zRow toV
    simp only [Fin.sum_univ_three]
    fin_cases j <;> simp <;> ring
  ext i j
  rw [key]
  fin_cases i <;> rfl

/-- all supercells of fewer than `hi` cells can be reduced -/
def zCanReduce (Z : M3 ℤ) (W D : ℤ) (hi : ℕ) : Bool :=
  (List.range' 1 hi).all fun n => (findAllHNFs n).all fun u => zMink W D (zRow Z u 0) (zRow Z u 1) (zRow Z u 2)

end

end Phenum
