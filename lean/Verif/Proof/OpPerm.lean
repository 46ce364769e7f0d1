import Verif.Proof.Members
import Verif.Proof.Induced
/-
The permutation computed for one operation is the one it induces.
-/
namespace Phenum
open Spec

theorem mapM_ok_eq {α β : Type} (f : α → Py β) (h : α → β) (l : List α) (H : ∀ x ∈ l, f x = .ok (h x)) :
    l.mapM f = .ok (l.map h) := by
  induction l with
  | nil => rfl
  | cons a l ih =>
    rw [List.mapM_cons, H a (by simp), ih (fun x hx => H x (by simp [hx]))]
    rfl

/-- an integer vector as a vector over `K` -/
def castV {K : Type} [Field K] (x : GVec) : Fin 3 → K := fun i => (x i : K)

/-- reduction modulo the diagonal of the SNF -/
def red (S x : GVec) : GVec := fun i => x i % S i

theorem red_valid {S : GVec} (hS : ∀ i, 0 < S i) (x : GVec) : Valid S (red S x) :=
  fun i => ⟨Int.emod_nonneg _ (hS i).ne', Int.emod_lt_of_pos _ (hS i)⟩

theorem red_dvd (S x : GVec) (i : Fin 3) : S i ∣ x i - red S x i := by
  unfold red
  exact Int.dvd_self_sub_emod

theorem valid_eq {S x y : GVec} (hx : Valid S x) (hy : Valid S y) (h : ∀ i, S i ∣ x i - y i) : x = y := by
  ext i
  have h1 := hx i; have h2 := hy i
  have := Int.emod_emod_of_dvd (x i - y i) (dvd_refl (S i))
  have e : x i % S i = y i % S i := Int.emod_eq_emod_iff_emod_sub_eq_zero.mpr (Int.emod_eq_zero_of_dvd (h i))
  rwa [Int.emod_eq_of_lt h1.1 h1.2, Int.emod_eq_of_lt h2.1 h2.2] at e

section
variable {K : Type} [Field K]

theorem castV_add (x y : GVec) : (castV (x + y) : Fin 3 → K) = castV x + castV y := by ext i; simp [castV]
theorem castV_sub (x y : GVec) : (castV (x - y) : Fin 3 → K) = castV x - castV y := by ext i; simp [castV]
theorem castV_neg (x : GVec) : (castV (-x) : Fin 3 → K) = -castV x := by ext i; simp [castV]
theorem castV_zero : (castV 0 : Fin 3 → K) = 0 := by ext i; simp [castV]

/-- the superlattice in terms of the transformed coordinates -/
def SLat (T : M3 K) (S : GVec) : Set (Fin 3 → K) := {w | ∃ u : GVec, (∀ i, S i ∣ u i) ∧ T.mulVec (castV u) = w}

theorem slat_isSub (T : M3 K) (S : GVec) : IsSub (SLat T S) := by
  refine ⟨⟨0, by simp, by rw [castV_zero, Matrix.mulVec_zero]⟩, ?_, ?_⟩
  · rintro _ ⟨u, hu, rfl⟩ _ ⟨v, hv, rfl⟩
    exact ⟨u + v, fun i => dvd_add (hu i) (hv i), by rw [castV_add, Matrix.mulVec_add]⟩
  · rintro _ ⟨u, hu, rfl⟩
    exact ⟨-u, fun i => (dvd_neg).mpr (hu i), by rw [castV_neg, Matrix.mulVec_neg]⟩

theorem slat_sub_colLat {T : M3 K} {S : GVec} {u : Fin 3 → K} (h : u ∈ SLat T S) : u ∈ ColLattice T := by
  obtain ⟨x, -, rfl⟩ := h
  exact ⟨x, rfl⟩

/-- the position of site `i`: site `d*n + k` is the basis atom `d` translated by the member `k` -/
def sitePos (T : M3 K) (S : GVec) (d : List (Fin 3 → K)) (n : ℕ) (i : ℕ) : Fin 3 → K :=
  d.getD (i / n) 0 + T.mulVec (castV ((memberList S).getD (i % n) 0))

end

section
variable {K : Type} [Field K] [CharZero K] {T : M3 K} (hT : T.det ≠ 0) {S : GVec} (hS : ∀ i, 0 < S i)
include hT

theorem slat_mem_iff (x : GVec) : T.mulVec (castV x) ∈ SLat T S ↔ ∀ i, S i ∣ x i := by
  constructor
  · rintro ⟨u, hu, e⟩
    have := castVec_inj (mulVec_cancel hT e)
    rw [← this]; exact hu
  · intro h; exact ⟨x, h, rfl⟩

include hS in
theorem sites_apart {d : List (Fin 3 → K)} {nd : ℕ}
    (hd : ∀ i j, i < nd → j < nd → d.getD i 0 - d.getD j 0 ∈ ColLattice T → i = j) :
    Apart (SLat T S) (nd * (memberList S).length) (sitePos T S d (memberList S).length) := by
  intro i j hi hj h
  set n := (memberList S).length with hn
  have hn0 : 0 < n := by rw [hn, memberList_length hS]; have := card_pos hS; omega
  have hlt : ∀ k, k < nd * n → k / n < nd := fun k hk => by
    rw [Nat.div_lt_iff_lt_mul hn0]; exact hk
  unfold sitePos at h
  set a := i / n
  set b := j / n
  set x := (memberList S).getD (i % n) 0 with hx
  set y := (memberList S).getD (j % n) 0 with hy
  have e : d.getD a 0 + T.mulVec (castV x) - (d.getD b 0 + T.mulVec (castV y)) =
      (d.getD a 0 - d.getD b 0) + T.mulVec (castV (x - y)) := by
    rw [castV_sub, Matrix.mulVec_sub]; abel
  rw [e] at h
  have hab : a = b := by
    apply hd _ _ (hlt i hi) (hlt j hj)
    have := colLat_sub (slat_sub_colLat h) (⟨x - y, rfl⟩ : T.mulVec (castV (x - y)) ∈ ColLattice T)
    rwa [add_sub_cancel_right] at this
  rw [hab, sub_self, zero_add, slat_mem_iff hT] at h
  have him : i % n < n := Nat.mod_lt _ hn0
  have hjm : j % n < n := Nat.mod_lt _ hn0
  have hx' : (memberList S)[i % n]? = some x := by
    rw [hx, List.getD_eq_getElem?_getD, List.getElem?_eq_getElem him]; rfl
  have hy' : (memberList S)[j % n]? = some y := by
    rw [hy, List.getD_eq_getElem?_getD, List.getElem?_eq_getElem hjm]; rfl
  have hxy := valid_eq ((mem_memberList hS).mp (List.mem_of_getElem? hx'))
    ((mem_memberList hS).mp (List.mem_of_getElem? hy')) h
  have hmod : i % n = j % n := by
    rw [← hxy, ← hx'] at hy'
    exact ((List.getElem?_inj hjm (memberList_nodup hS)).mp hy').symm
  rw [← Nat.div_add_mod i n, ← Nat.div_add_mod j n, hmod]
  change n * a + _ = n * b + _
  rw [hab]

end

section
variable {K : Type} [Field K] [LinearOrder K] [IsStrictOrderedRing K] [FloorRing K]

theorem npRound_int (z : ℤ) : npRound (z : K) = z := by
  have h : Int.fract (z : K) ≠ 1 / 2 := by rw [Int.fract_intCast]; norm_num
  rw [npRound, if_neg h, round_intCast]

variable {T tinv : M3 K} (hinv : tinv * T = 1) {S : GVec} (hS : ∀ i, 0 < S i) {eps : K} (heps : 0 ≤ eps)
include hinv

theorem det_ne_of_inv : T.det ≠ 0 := by
  intro h
  have := congrArg Matrix.det hinv
  rw [Matrix.det_mul, h, mul_zero, Matrix.det_one] at this
  exact zero_ne_one this

include hS heps in
/-- the image of the member list -/
theorem rotGp_ok {R : M3 K} (hR : Keeps (ColLattice T) R) (hR' : Keeps (SLat T S) R) {v : Fin 3 → K}
    (hv : v ∈ ColLattice T) :
    ∃ gp, rotGp eps tinv R T v S (memberList S) = .ok gp ∧ gp.length = (memberList S).length ∧ gp.Nodup ∧
      (∀ x ∈ memberList S, x ∈ gp) ∧
      ∀ (j : ℕ) x y, (memberList S)[j]? = some x → gp[j]? = some y →
        -v + R.mulVec (T.mulVec (castV x)) - T.mulVec (castV y) ∈ SLat T S := by
  have hdet := det_ne_of_inv hinv
  have hz : ∀ x : GVec, ∃ z : GVec, T.mulVec (castV z) = -v + R.mulVec (T.mulVec (castV x)) := by
    intro x
    have := colLat_add (colLat_neg hv) (hR.fwd _ (⟨x, rfl⟩ : T.mulVec (castV x) ∈ ColLattice T))
    obtain ⟨z, e⟩ := this
    exact ⟨z, e⟩
  choose z hz using hz
  have hinj : ∀ x ∈ memberList S, ∀ y ∈ memberList S, red S (z x) = red S (z y) → x = y := by
    intro x hx y hy e
    apply valid_eq ((mem_memberList hS).mp hx) ((mem_memberList hS).mp hy)
    refine (slat_mem_iff (T := T) hdet (x - y)).mp ?_
    apply hR'.bwd
    have h1 : R.mulVec (T.mulVec (castV (x - y))) = T.mulVec (castV (z x - z y)) := by
      rw [castV_sub, castV_sub, Matrix.mulVec_sub, Matrix.mulVec_sub, Matrix.mulVec_sub, hz, hz]; abel
    rw [h1, slat_mem_iff hdet]
    intro i
    have a := red_dvd S (z x) i
    have b := red_dvd S (z y) i
    rw [e] at a
    have := dvd_sub a b
    simpa using this
  have hgp : rotGp eps tinv R T v S (memberList S) = .ok ((memberList S).map (fun x => red S (z x))) := by
    apply mapM_ok_eq
    intro x _
    have hr : tinv.mulVec (-v + (R * T).mulVec (fun i => (x i : K))) = castV (z x) := by
      have : (R * T).mulVec (fun i => (x i : K)) = R.mulVec (T.mulVec (castV x)) := by
        rw [Matrix.mulVec_mulVec]; rfl
      rw [this, ← hz, Matrix.mulVec_mulVec, hinv, Matrix.one_mulVec]
    simp only [hr]
    have hc : ∀ i, npRound ((castV (z x) : Fin 3 → K) i) = z x i := fun i => npRound_int _
    simp only [hc]
    rw [if_pos]
    · rfl
    · intro i; simp [castV, heps]
  have hnd : ((memberList S).map (fun x => red S (z x))).Nodup :=
    (memberList_nodup hS).map_on hinj
  refine ⟨_, hgp, by simp, hnd, ?_, ?_⟩
  · have hsub : ((memberList S).map (fun x => red S (z x))).Subperm (memberList S) := by
      apply List.subperm_of_subset hnd
      intro y hy
      obtain ⟨x, -, rfl⟩ := List.mem_map.mp hy
      exact (mem_memberList hS).mpr (red_valid hS _)
    have hp := hsub.perm_of_length_le (by simp)
    intro x hx
    exact hp.mem_iff.mpr hx
  · intro j x y hx hy
    rw [List.getElem?_map, hx] at hy
    simp only [Option.map_some, Option.some.injEq] at hy
    rw [← hy, ← hz, ← Matrix.mulVec_sub, ← castV_sub, slat_mem_iff hdet]
    exact fun i => red_dvd S (z x) i

variable {d : List (Fin 3 → K)} {nd : ℕ}

/-- the data of an operation: it permutes the basis atoms up to the lattice vectors `v` -/
structure OpData (T : M3 K) (d : List (Fin 3 → K)) (nd : ℕ) (op : CellOp K) : Prop where
  row : ∀ i, i < nd → op.dperm.getD i 0 < nd
  lat : ∀ i, i < nd → op.v.getD i 0 ∈ ColLattice T
  img : ∀ i, i < nd → op.rot.mulVec (d.getD i 0) + op.shift + op.v.getD i 0 = d.getD (op.dperm.getD i 0) 0

include hS heps in
theorem fillRows_spec {op : CellOp K} (hR : Keeps (ColLattice T) op.rot) (hR' : Keeps (SLat T S) op.rot)
    (hop : OpData T d nd op) (iDs : List ℕ) (hlt : ∀ i ∈ iDs, i < nd)
    (hinj : ∀ i ∈ iDs, ∀ j ∈ iDs, op.dperm.getD i 0 = op.dperm.getD j 0 → i = j) (hnd : iDs.Nodup) (tab : List ℕ)
    (htab : tab.length = nd * (memberList S).length) :
    ∃ tab', fillRows eps tinv T S (memberList S) (memberList S).length op iDs tab = .ok tab' ∧
      tab'.length = tab.length ∧
      (∀ iD ∈ iDs, ∀ im x, (memberList S)[im]? = some x → ∃ jm y, (memberList S)[jm]? = some y ∧
        tab'[op.dperm.getD iD 0 * (memberList S).length + im]? = some (jm + iD * (memberList S).length) ∧
        -(op.v.getD iD 0) + op.rot.mulVec (T.mulVec (castV y)) - T.mulVec (castV x) ∈ SLat T S) ∧
      (∀ a im, im < (memberList S).length → (∀ iD ∈ iDs, op.dperm.getD iD 0 ≠ a) →
        tab'[a * (memberList S).length + im]? = tab[a * (memberList S).length + im]?) := by
  set n := (memberList S).length with hn
  induction iDs generalizing tab with
  | nil => exact ⟨tab, rfl, rfl, by simp, by simp⟩
  | cons iD rest ih =>
    rw [List.nodup_cons] at hnd
    have hiD := hlt iD (by simp)
    obtain ⟨gp, e, hlen, hgnd, hin, hgp⟩ := rotGp_ok hinv hS heps hR hR' (hop.lat iD hiD)
    rw [← hn] at hlen
    set row := op.dperm.getD iD 0 with hrow
    have hrowlt : row < nd := hop.row iD hiD
    have hbound : row * n + 0 + (memberList S).length ≤ tab.length := by
      rw [htab, ← hn, add_zero, ← Nat.succ_mul]
      exact Nat.mul_le_mul_right n hrowlt
    obtain ⟨f1, f2, f3⟩ := fillTable_spec hgnd n iD row (memberList S) (memberList_nodup hS) hin 0
      (List.replicate n false) (fun x _ => skip_replicate _ _) tab hbound
    set tab1 := fillTable n gp iD row (memberList S) 0 (List.replicate n false) tab
    obtain ⟨tab', e', g1, g2, g3⟩ := ih (fun i hi => hlt i (by simp [hi]))
      (fun i hi j hj => hinj i (by simp [hi]) j (by simp [hj])) hnd.2 tab1 (by rw [f1, htab])
    refine ⟨tab', ?_, by rw [g1, f1], ?_, ?_⟩
    · rw [fillRows, e]; exact e'
    · intro iD' hiD' im x hx
      rcases List.mem_cons.mp hiD' with rfl | hmem
      · have him : im < n := (List.getElem?_eq_some_iff.mp hx).1
        have hxg := List.mem_of_getElem? hx
        have hidx : gp.idxOf x < n := by rw [← hlen]; exact List.idxOf_lt_length_iff.mpr (hin x hxg)
        refine ⟨gp.idxOf x, (memberList S)[gp.idxOf x], List.getElem?_eq_getElem hidx, ?_, ?_⟩
        · rw [← hrow, g3 row im him, ← f2 im x hx, add_zero]
          intro i hi h
          have := hinj i (by simp [hi]) iD' (by simp) (h.trans hrow)
          exact hnd.1 (this ▸ hi)
        · refine hgp (gp.idxOf x) _ x (List.getElem?_eq_getElem hidx) ?_
          rw [List.getElem?_eq_getElem (List.idxOf_lt_length_iff.mpr (hin x hxg))]; simp
      · exact g2 iD' hmem im x hx
    · intro a im him ha
      rw [g3 a im him (fun i hi => ha i (by simp [hi]))]
      apply f3
      have hne : row ≠ a := ha iD (by simp)
      rw [← hn, add_zero]
      rcases Nat.lt_or_gt_of_ne hne with h | h
      · right
        have := Nat.mul_le_mul_right n (Nat.succ_le_of_lt h)
        rw [Nat.succ_mul] at this; omega
      · left
        have := Nat.mul_le_mul_right n (Nat.succ_le_of_lt h)
        rw [Nat.succ_mul] at this; omega

include hS heps in
/-- the table computed for an operation is the induced permutation -/
theorem fillRows_induces {op : CellOp K} (hR : Keeps (ColLattice T) op.rot) (hR' : Keeps (SLat T S) op.rot)
    (hop : OpData T d nd op)
    (hd : ∀ i j, i < nd → j < nd → d.getD i 0 - d.getD j 0 ∈ ColLattice T → i = j) :
    ∃ tab, fillRows eps tinv T S (memberList S) (memberList S).length op (List.range nd)
        (List.replicate (nd * (memberList S).length) 0) = .ok tab ∧
      Induces (SLat T S) (nd * (memberList S).length) (sitePos T S d (memberList S).length) op.rot op.shift tab := by
  have hdet := det_ne_of_inv hinv
  have hsub := slat_isSub T S
  have hinj : ∀ i ∈ List.range nd, ∀ j ∈ List.range nd, op.dperm.getD i 0 = op.dperm.getD j 0 → i = j := by
    intro i hi j hj h
    rw [List.mem_range] at hi hj
    apply hd i j hi hj
    apply hR.bwd
    have a := hop.img i hi
    have b := hop.img j hj
    rw [h, ← b] at a
    have c := colLat_sub (hop.lat j hj) (hop.lat i hi)
    rw [Matrix.mulVec_sub]
    convert c using 1
    have := congrArg (fun w => w - op.rot.mulVec (d.getD j 0) - op.shift - op.v.getD i 0) a
    rw [show op.rot.mulVec (d.getD i 0) + op.shift + op.v.getD i 0 - op.rot.mulVec (d.getD j 0) - op.shift - op.v.getD i 0
      = op.rot.mulVec (d.getD i 0) - op.rot.mulVec (d.getD j 0) by abel] at this
    rw [this]; abel
  obtain ⟨tab, e, hlen, hent, -⟩ := fillRows_spec hinv hS heps hR hR' hop (List.range nd)
    (fun i hi => List.mem_range.mp hi) hinj List.nodup_range (List.replicate (nd * (memberList S).length) 0)
    (List.length_replicate)
  rw [List.length_replicate] at hlen
  refine ⟨tab, e, hlen, ?_⟩
  set n := (memberList S).length with hn
  have hn0 : 0 < n := by rw [hn, memberList_length hS]; have := card_pos hS; omega
  have hap := sites_apart hdet hS hd
  rw [← hn] at hap
  have hsurj : ∀ a, a < nd → ∃ i, i < nd ∧ op.dperm.getD i 0 = a := by
    let f : Fin nd → Fin nd := fun i => ⟨op.dperm.getD i 0, hop.row i i.2⟩
    have hf : Function.Injective f := by
      intro i j h
      apply Fin.ext
      exact hinj i (by simp) j (by simp) (congrArg Fin.val h)
    have hs := Finite.injective_iff_surjective.mp hf
    intro a ha
    obtain ⟨i, hi⟩ := hs ⟨a, ha⟩
    exact ⟨i, i.2, congrArg Fin.val hi⟩
  intro i j hi
  have ha : i / n < nd := by rw [Nat.div_lt_iff_lt_mul hn0]; exact hi
  obtain ⟨iD, hiD, hrow⟩ := hsurj _ ha
  have him : i % n < n := Nat.mod_lt _ hn0
  obtain ⟨jm, y, hy, ht, hmem⟩ := hent iD (List.mem_range.mpr hiD) (i % n) _ (List.getElem?_eq_getElem him)
  have hjm : jm < n := (List.getElem?_eq_some_iff.mp hy).1
  rw [hrow, mul_comm (i / n) n, Nat.div_add_mod] at ht
  rw [ht, Option.some.injEq]
  have hj0 : jm + iD * n < nd * n := by
    have := Nat.mul_le_mul_right n (Nat.succ_le_of_lt hiD)
    rw [Nat.succ_mul] at this; omega
  have hpos : op.rot.mulVec (sitePos T S d n (jm + iD * n)) + op.shift - sitePos T S d n i ∈ SLat T S := by
    have h1 : (jm + iD * n) / n = iD := by
      rw [Nat.add_mul_div_right _ _ hn0, Nat.div_eq_of_lt hjm, zero_add]
    have h2 : (jm + iD * n) % n = jm := by
      rw [Nat.add_mul_mod_self_right, Nat.mod_eq_of_lt hjm]
    have h3 : (memberList S).getD jm 0 = y := by rw [List.getD_eq_getElem?_getD, hy]; rfl
    have h4 : (memberList S).getD (i % n) 0 = (memberList S)[i % n] := by
      rw [List.getD_eq_getElem?_getD, List.getElem?_eq_getElem him]; rfl
    unfold sitePos
    rw [h1, h2, h3, h4, ← hrow, ← hop.img iD hiD, Matrix.mulVec_add]
    convert hmem using 1
    abel
  constructor
  · rintro rfl; exact ⟨hj0, hpos⟩
  · rintro ⟨hj, h⟩
    symm
    apply hap j _ hj hj0
    apply hR'.bwd
    have := hsub.add _ h _ (hsub.neg _ hpos)
    rw [Matrix.mulVec_sub]
    convert this using 1
    abel

end

end Phenum
