import Verif.Proof.Corner
import Verif.Proof.ReduceFull
/-
When the loop of `_minkowski_reduce_basis` ends because the vectors are sorted, the conditions checked afterwards hold.
-/
namespace Phenum
open Spec

theorem qf_flip (a b c u v : ℝ) : qf a b (-c) (-u) v = qf a b c u v ∧ qf a b (-c) u (-v) = qf a b c u v ∧ qf a b c (-u) (-v) = qf a b c u v := by
  unfold qf
  refine ⟨?_, ?_, ?_⟩ <;> ring

/-- the best of the corners of the unit square -/
theorem best_corner {a b c α β : ℝ} (h : RedForm a b c) (ha : -(1 / 100) ≤ α) (ha' : α ≤ 1 + 1 / 100) (hb : -(1 / 100) ≤ β) (hb' : β ≤ 1 + 1 / 100)
    {k l : ℤ} (hk : k = 0 ∨ k = 1) (hl : l = 0 ∨ l = 1)
    (hbest : ∀ k' l' : ℤ, (k' = 0 ∨ k' = 1) → (l' = 0 ∨ l' = 1) → qf a b c (α - k) (β - l) ≤ qf a b c (α - k') (β - l')) :
    (∀ s t : ℤ, -1 ≤ s → s ≤ 1 → -1 ≤ t → t ≤ 1 → qf a b c (α - k) (β - l) ≤ qf a b c (α - k + s) (β - l + t)) ∧
      qf a b c (α - k) (β - l) ≤ 26 / 100 * (a + b) := by
  have h00 := hbest 0 0 (Or.inl rfl) (Or.inl rfl)
  have h10 := hbest 1 0 (Or.inr rfl) (Or.inl rfl)
  have h01 := hbest 0 1 (Or.inl rfl) (Or.inr rfl)
  have h11 := hbest 1 1 (Or.inr rfl) (Or.inr rfl)
  simp only [Int.cast_zero, Int.cast_one, sub_zero] at h00 h10 h01 h11
  rcases hk with rfl | rfl <;> rcases hl with rfl | rfl <;> simp only [Int.cast_zero, Int.cast_one, sub_zero] at *
  · exact ⟨corner_best h ha ha' hb hb' h10 h01 h11, corner_close h ha ha' hb hb' h10 h01 h11⟩
  · have f : ∀ u v, qf a b (-c) u (-v) = qf a b c u v := fun u v => (qf_flip a b c u v).2.1
    have e : -(β - 1) - 1 = -β := by ring
    have q1 : qf a b (-c) α (-(β - 1)) ≤ qf a b (-c) (α - 1) (-(β - 1)) := by rw [f, f]; exact h11
    have q2 : qf a b (-c) α (-(β - 1)) ≤ qf a b (-c) α (-(β - 1) - 1) := by rw [e, f, f]; exact h00
    have q3 : qf a b (-c) α (-(β - 1)) ≤ qf a b (-c) (α - 1) (-(β - 1) - 1) := by rw [e, f, f]; exact h10
    have r1 := corner_best h.neg ha ha' (by linarith) (by linarith) q1 q2 q3
    have r2 := corner_close h.neg ha ha' (by linarith) (by linarith) q1 q2 q3
    rw [f] at r2
    refine ⟨fun s t hs hs' ht ht' => ?_, r2⟩
    have := r1 s (-t) hs hs' (by omega) (by omega)
    rw [f] at this
    rw [show -(β - 1) + ((-t : ℤ) : ℝ) = -(β - 1 + t) by push_cast; ring, f] at this
    exact this
  · have f : ∀ u v, qf a b (-c) (-u) v = qf a b c u v := fun u v => (qf_flip a b c u v).1
    have e : -(α - 1) - 1 = -α := by ring
    have q1 : qf a b (-c) (-(α - 1)) β ≤ qf a b (-c) (-(α - 1) - 1) β := by rw [e, f, f]; exact h00
    have q2 : qf a b (-c) (-(α - 1)) β ≤ qf a b (-c) (-(α - 1)) (β - 1) := by rw [f, f]; exact h11
    have q3 : qf a b (-c) (-(α - 1)) β ≤ qf a b (-c) (-(α - 1) - 1) (β - 1) := by rw [e, f, f]; exact h01
    have r1 := corner_best h.neg (by linarith) (by linarith) hb hb' q1 q2 q3
    have r2 := corner_close h.neg (by linarith) (by linarith) hb hb' q1 q2 q3
    rw [f] at r2
    refine ⟨fun s t hs hs' ht ht' => ?_, r2⟩
    have := r1 (-s) t (by omega) (by omega) ht ht'
    rw [f] at this
    rw [show -(α - 1) + ((-s : ℤ) : ℝ) = -(α - 1 + s) by push_cast; ring, f] at this
    exact this
  · have f : ∀ u v, qf a b c (-u) (-v) = qf a b c u v := fun u v => (qf_flip a b c u v).2.2
    have e : -(α - 1) - 1 = -α := by ring
    have e' : -(β - 1) - 1 = -β := by ring
    have q1 : qf a b c (-(α - 1)) (-(β - 1)) ≤ qf a b c (-(α - 1) - 1) (-(β - 1)) := by rw [e, f, f]; exact h01
    have q2 : qf a b c (-(α - 1)) (-(β - 1)) ≤ qf a b c (-(α - 1)) (-(β - 1) - 1) := by rw [e', f, f]; exact h10
    have q3 : qf a b c (-(α - 1)) (-(β - 1)) ≤ qf a b c (-(α - 1) - 1) (-(β - 1) - 1) := by rw [e, e', f, f]; exact h00
    have r1 := corner_best h (by linarith) (by linarith) (by linarith) (by linarith) q1 q2 q3
    have r2 := corner_close h (by linarith) (by linarith) (by linarith) (by linarith) q1 q2 q3
    rw [f] at r2
    refine ⟨fun s t hs hs' ht ht' => ?_, r2⟩
    have := r1 (-s) (-t) (by omega) (by omega) (by omega) (by omega)
    rw [f] at this
    rw [show -(α - 1) + ((-s : ℤ) : ℝ) = -(α - 1 + s) by push_cast; ring, show -(β - 1) + ((-t : ℤ) : ℝ) = -(β - 1 + t) by push_cast; ring, f] at this
    exact this

/-- the squared height of `C` over the plane of `A` and `B` -/
noncomputable def height2 (A B C : V3) : ℝ := (rows3 A B C).det ^ 2 / gramDet A B

section
variable {A B C : V3} (hg : 0 < gramDet A B)
include hg

theorem shift_pyth (p q : ℤ) : vdot (shiftC A B C p q) (shiftC A B C p q) =
    qf (vdot A A) (vdot B B) (vdot A B) ((vdot C A * vdot B B - vdot C B * vdot A B) / gramDet A B - p)
      ((vdot C B * vdot A A - vdot C A * vdot A B) / gramDet A B - q) + height2 A B C := by
  have hg' := hg.ne'
  set x := (vdot C A * vdot B B - vdot C B * vdot A B) / gramDet A B with hx
  set y := (vdot C B * vdot A A - vdot C A * vdot A B) / gramDet A B with hy
  have eA : vdot A A * x + vdot A B * y = vdot C A := by
    rw [hx, hy]
    field_simp
    unfold gramDet
    ring
  have eB : vdot A B * x + vdot B B * y = vdot C B := by
    rw [hx, hy]
    field_simp
    unfold gramDet
    ring
  have eh : height2 A B C = vdot C C - qf (vdot A A) (vdot B B) (vdot A B) x y := by
    unfold height2
    rw [div_eq_iff hg', hx, hy]
    unfold qf
    have : (rows3 A B C).det ^ 2 = vdot C C * gramDet A B - (vdot C A ^ 2 * vdot B B - 2 * vdot C A * vdot C B * vdot A B + vdot C B ^ 2 * vdot A A) := by
      rw [rows3_det]
      unfold gramDet vdot vcross
      simp
      ring
    rw [this]
    field_simp
    unfold gramDet
    ring
  have es : vdot (shiftC A B C p q) (shiftC A B C p q) =
      vdot C C - 2 * p * vdot C A - 2 * q * vdot C B + p ^ 2 * vdot A A + 2 * p * q * vdot A B + q ^ 2 * vdot B B := by
    unfold vdot shiftC
    ring
  rw [es, eh, ← eA, ← eB]
  unfold qf
  ring

/-- the vector chosen is at least as short as its neighbours, and the plane part of it is short -/
theorem bestC_spec {eps : ℝ} (h0 : 0 ≤ eps) (h1 : eps ≤ 1 / 100) (hr : RedForm (vdot A A) (vdot B B) (vdot A B)) :
    ∃ p q : ℤ, p = (bestCorner A B C eps).1 + cornerA A B C eps ∧ q = (bestCorner A B C eps).2 + cornerB A B C eps ∧
      (∀ s t : ℤ, -1 ≤ s → s ≤ 1 → -1 ≤ t → t ≤ 1 → vnorm (shiftC A B C p q) ≤ vnorm (shiftC A B C (p + s) (q + t))) ∧
      vdot (shiftC A B C p q) (shiftC A B C p q) ≤ 26 / 100 * (vdot A A + vdot B B) + height2 A B C := by
  refine ⟨_, _, rfl, rfl, ?_⟩
  set x := (vdot C A * vdot B B - vdot C B * vdot A B) / gramDet A B with hx
  set y := (vdot C B * vdot A A - vdot C A * vdot A B) / gramDet A B with hy
  set k := bestCorner A B C eps with hk
  obtain ⟨hmem, hmin⟩ := argMin_le (fun k : ℤ × ℤ => vnorm (shiftC A B C (k.1 + cornerA A B C eps) (k.2 + cornerB A B C eps))) (0, 0) [(1, 0), (0, 1), (1, 1)]
  have hk01 : (k.1 = 0 ∨ k.1 = 1) ∧ (k.2 = 0 ∨ k.2 = 1) := by
    have hm : k ∈ [(0, 0), (1, 0), (0, 1), (1, 1)] := hmem
    simp only [List.mem_cons, List.not_mem_nil, or_false] at hm
    rcases hm with e | e | e | e <;> rw [e] <;> simp
  have hmin' : ∀ k' l' : ℤ, (k' = 0 ∨ k' = 1) → (l' = 0 ∨ l' = 1) →
      vnorm (shiftC A B C (k.1 + cornerA A B C eps) (k.2 + cornerB A B C eps)) ≤ vnorm (shiftC A B C (k' + cornerA A B C eps) (l' + cornerB A B C eps)) := by
    intro k' l' h1 h2
    have := hmin (k', l') (by rcases h1 with rfl | rfl <;> rcases h2 with rfl | rfl <;> simp)
    exact this
  have hA1 := Int.floor_le (x + eps)
  have hA2 := Int.lt_floor_add_one (x + eps)
  have hB1 := Int.floor_le (y + eps)
  have hB2 := Int.lt_floor_add_one (y + eps)
  have hcA : cornerA A B C eps = ⌊x + eps⌋ := rfl
  have hcB : cornerB A B C eps = ⌊y + eps⌋ := rfl
  rw [← hcA] at hA1 hA2
  rw [← hcB] at hB1 hB2
  set LA := cornerA A B C eps
  set LB := cornerB A B C eps
  have key : ∀ p q : ℤ, vdot (shiftC A B C (p + LA) (q + LB)) (shiftC A B C (p + LA) (q + LB)) =
      qf (vdot A A) (vdot B B) (vdot A B) (x - LA - p) (y - LB - q) + height2 A B C := by
    intro p q
    rw [shift_pyth hg, ← hx, ← hy]
    push_cast
    rw [show x - ((p : ℝ) + LA) = x - LA - p by ring, show y - ((q : ℝ) + LB) = y - LB - q by ring]
  have hbest : ∀ k' l' : ℤ, (k' = 0 ∨ k' = 1) → (l' = 0 ∨ l' = 1) →
      qf (vdot A A) (vdot B B) (vdot A B) (x - LA - k.1) (y - LB - k.2) ≤ qf (vdot A A) (vdot B B) (vdot A B) (x - LA - k') (y - LB - l') := by
    intro k' l' h1 h2
    have := vnorm_le_iff.mp (hmin' k' l' h1 h2)
    rw [key, key] at this
    linarith
  obtain ⟨r1, r2⟩ := best_corner hr (α := x - LA) (β := y - LB) (by linarith) (by linarith) (by linarith) (by linarith) hk01.1 hk01.2 hbest
  constructor
  · intro s t hs hs' ht ht'
    rw [vnorm_le_iff, key, show k.1 + LA + s = (k.1 + s) + LA by ring, show k.2 + LB + t = (k.2 + t) + LB by ring, key]
    have := r1 (-s) (-t) (by omega) (by omega) (by omega) (by omega)
    push_cast at this ⊢
    rw [show x - LA - (k.1 + s : ℝ) = x - LA - k.1 + -s by ring, show y - LB - (k.2 + t : ℝ) = y - LB - k.2 + -t by ring]
    linarith
  · rw [key]
    linarith
end

/-- The conditions after a normal end of the loop. -/
theorem minkCheck_exit {A B C : V3} {p q : ℤ} {eps : ℝ} (h0 : 0 < eps) (hp : PairReduced eps A B) (hA : vnorm A ≤ 10 ^ 9 * (2 * eps)) (hApos : 0 < vnorm A)
    (hnb : ∀ s t : ℤ, -1 ≤ s → s ≤ 1 → -1 ≤ t → t ≤ 1 → vnorm (shiftC A B C p q) ≤ vnorm (shiftC A B C (p + s) (q + t)))
    (hexit : vnorm (shiftC A B C p q) ≥ vnorm B - eps) (hBA : vnorm A ≤ 2 * vnorm B) : minkCheck (rows3 A B (shiftC A B C p q)) eps := by
  obtain ⟨hp1, hp2⟩ := hp
  have hsum : ∀ (W : V3), (vdot W W = vdot A A + vdot B B + 2 * vdot A B ∨ vdot W W = vdot A A + vdot B B - 2 * vdot A B) → vnorm B ≤ vnorm W + eps := by
    intro W hW
    by_contra hc
    have hc : vnorm W + eps < vnorm B := not_le.mp hc
    have hW0 := vnorm_nonneg W
    have h2 := abs_le.mp hp2
    have e1 := vnorm_sq' A
    have e2 := vnorm_sq' B
    have e3 := vnorm_sq' W
    have h3 : vdot B B - 2 / 10 ^ 10 * vdot A A ≤ vdot W W := by
      rcases hW with h | h <;> rw [h] <;> linarith [h2.1, h2.2]
    have h4 : vnorm B ^ 2 - vnorm W ^ 2 ≤ 2 / 10 ^ 10 * vnorm A ^ 2 := by rw [e1, e2, e3]; linarith
    have h5 : eps * vnorm B ≤ vnorm B ^ 2 - vnorm W ^ 2 := by nlinarith
    have h6 : vnorm A ^ 2 ≤ 10 ^ 9 * (2 * eps) * (2 * vnorm B) := by
      rw [sq]
      exact mul_le_mul hA hBA hApos.le (by positivity)
    have hB : 0 < vnorm B := by linarith
    have : 0 < eps * vnorm B := mul_pos h0 hB
    nlinarith
  have hn : ∀ (s t : ℤ) (W : V3), -1 ≤ s → s ≤ 1 → -1 ≤ t → t ≤ 1 →
      (W = shiftC A B C (p + s) (q + t) ∨ W = fun i => - shiftC A B C (p + s) (q + t) i) → vnorm (shiftC A B C p q) ≤ vnorm W + eps := by
    intro s t W a1 a2 a3 a4 hW
    have := hnb s t a1 a2 a3 a4
    rcases hW with rfl | rfl
    · linarith
    · rw [vnorm_neg]; linarith
  have e0 : rows3 A B (shiftC A B C p q) 0 = A := rfl
  have e1 : rows3 A B (shiftC A B C p q) 1 = B := rfl
  have e2 : rows3 A B (shiftC A B C p q) 2 = shiftC A B C p q := rfl
  unfold minkCheck
  simp only [e0, e1, e2, gt_iff_lt, not_lt]
  refine ⟨hp1, by linarith, hsum _ (Or.inl (by unfold vdot; ring)), hsum _ (Or.inr (by unfold vdot; ring)), ?_, ?_, ?_, ?_, ?_, ?_, ?_, ?_⟩
  · refine hn (-1) 0 _ (by norm_num) (by norm_num) (by norm_num) (by norm_num) (Or.inl ?_)
    funext i; unfold shiftC; push_cast; ring
  · refine hn 1 0 _ (by norm_num) (by norm_num) (by norm_num) (by norm_num) (Or.inl ?_)
    funext i; unfold shiftC; push_cast; ring
  · refine hn 0 (-1) _ (by norm_num) (by norm_num) (by norm_num) (by norm_num) (Or.inl ?_)
    funext i; unfold shiftC; push_cast; ring
  · refine hn 0 1 _ (by norm_num) (by norm_num) (by norm_num) (by norm_num) (Or.inl ?_)
    funext i; unfold shiftC; push_cast; ring
  · refine hn (-1) (-1) _ (by norm_num) (by norm_num) (by norm_num) (by norm_num) (Or.inl ?_)
    funext i; unfold shiftC; push_cast; ring
  · refine hn (-1) 1 _ (by norm_num) (by norm_num) (by norm_num) (by norm_num) (Or.inl ?_)
    funext i; unfold shiftC; push_cast; ring
  · refine hn 1 1 _ (by norm_num) (by norm_num) (by norm_num) (by norm_num) (Or.inr ?_)
    funext i; unfold shiftC; push_cast; ring
  · refine hn 1 (-1) _ (by norm_num) (by norm_num) (by norm_num) (by norm_num) (Or.inr ?_)
    funext i; unfold shiftC; push_cast; ring

end Phenum
