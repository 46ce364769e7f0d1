import Verif.Proof.OpPerm
/-
The permutations generated for a supercell: arrows, translations, compositions, sorting.
-/
namespace Phenum
open Spec

/-! arrows -/

theorem arrowDirs_get (k : ℕ) (a : GVec) : arrowDirs[k]? = some a ↔ IsArrowDir k a := by
  unfold IsArrowDir
  by_cases h : k < 6
  · have : k = 0 ∨ k = 1 ∨ k = 2 ∨ k = 3 ∨ k = 4 ∨ k = 5 := by omega
    rcases this with rfl | rfl | rfl | rfl | rfl | rfl <;> simp [arrowDirs, eq_comm]
  · rw [List.getElem?_eq_none (by simp [arrowDirs]; omega)]
    constructor
    · intro h; simp at h
    · intro h; omega

theorem arrowDirs_nodup : arrowDirs.Nodup := by decide +kernel

section
variable {K : Type} [Field K] [LinearOrder K] [IsStrictOrderedRing K] [FloorRing K]

/-- `R` maps arrow directions to arrow directions -/
def KeepsArrows (R : M3 K) : Prop :=
  ∀ k a, IsArrowDir k a → ∃ m b, IsArrowDir m b ∧ R.mulVec (fun i => (a i : K)) = fun i => (b i : K)

/-- rounding the images of the arrow directions under the inverse gives all arrow directions -/
def RoundsArrows (R : M3 K) : Prop :=
  ∀ k a, IsArrowDir k a → ∃ m b, IsArrowDir m b ∧ ∀ i, npRound (R.transpose.mulVec (fun i => (b i : K)) i) = a i

theorem KeepsArrows.rounds {R : M3 K} (hR : KeepsArrows R) (ho : R.transpose * R = 1) : RoundsArrows R := by
  intro k a ha
  obtain ⟨m, b, hb, e⟩ := hR k a ha
  refine ⟨m, b, hb, fun i => ?_⟩
  rw [← e, Matrix.mulVec_mulVec, ho, Matrix.one_mulVec]
  exact npRound_int _

/-- the six images -/
def arrowImages (R : M3 K) : List GVec :=
  arrowDirs.map (fun a => (fun i => npRound (R.transpose.mulVec (fun k => (a k : K)) i) : GVec))

theorem arrowPerm_rounds {R : M3 K} (hR : RoundsArrows R) :
    ∃ dap, arrowPerm R = .ok dap ∧ dap.Perm (List.range 6) ∧ (arrowImages R).Nodup ∧
      ∀ k a, IsArrowDir k a → a ∈ arrowImages R ∧ dap[k]? = some ((arrowImages R).idxOf a) := by
  set ag := arrowImages R with hagdef
  have hlen : ag.length = 6 := by simp [hagdef, arrowImages, arrowDirs]
  have hin : ∀ a ∈ arrowDirs, a ∈ ag := by
    intro a ha
    obtain ⟨k, hk⟩ := List.mem_iff_getElem?.mp ha
    rw [arrowDirs_get] at hk
    obtain ⟨m, b, hb, e⟩ := hR k a hk
    refine List.mem_map.mpr ⟨b, ?_, funext e⟩
    exact List.mem_iff_getElem?.mpr ⟨m, (arrowDirs_get m b).mpr hb⟩
  have hperm : arrowDirs.Perm ag := by
    refine (List.subperm_of_subset arrowDirs_nodup hin).perm_of_length_le ?_
    rw [hlen]; simp [arrowDirs]
  have hnd : ag.Nodup := hperm.nodup_iff.mp arrowDirs_nodup
  obtain ⟨f1, f2, -⟩ := fillTable_spec hnd 6 0 0 arrowDirs arrowDirs_nodup hin 0 (List.replicate 6 false)
    (fun x _ => skip_replicate _ _) (List.replicate 6 0) (by simp [arrowDirs])
  set dap := fillTable 6 ag 0 0 arrowDirs 0 (List.replicate 6 false) (List.replicate 6 0) with hdap
  have hent : ∀ k a, IsArrowDir k a → a ∈ ag ∧ dap[k]? = some (ag.idxOf a) := by
    intro k a ha
    have e := f2 k a ((arrowDirs_get k a).mpr ha)
    simp only [Nat.zero_mul, Nat.zero_add, Nat.add_zero] at e
    exact ⟨hin a (List.mem_iff_getElem?.mpr ⟨k, (arrowDirs_get k a).mpr ha⟩), e⟩
  have hdl : dap.length = 6 := by rw [f1]; simp
  have hdp : dap.Perm (List.range 6) := by
    have hdn : dap.Nodup := by
      rw [List.nodup_iff_injective_getElem]
      intro i j hij
      simp only at hij
      obtain ⟨a, ha⟩ := arrowDir_exists (k := i) (by have := i.2; omega)
      obtain ⟨b, hb⟩ := arrowDir_exists (k := j) (by have := j.2; omega)
      have h1 := (hent i a ha).2
      have h2 := (hent j b hb).2
      rw [List.getElem?_eq_getElem i.2, Option.some.injEq] at h1
      rw [List.getElem?_eq_getElem j.2, Option.some.injEq] at h2
      rw [h1, h2] at hij
      have hab : a = b := (List.idxOf_inj (hent i a ha).1).mp hij
      subst hab
      exact Fin.ext (arrowDir_inj ha hb)
    refine List.Subperm.perm_of_length_le (List.subperm_of_subset hdn ?_) (by simp [hdl])
    intro m hm
    obtain ⟨i, hi, rfl⟩ := List.getElem_of_mem hm
    obtain ⟨a, ha⟩ := arrowDir_exists (k := i) (by omega)
    obtain ⟨h0, h1⟩ := hent i a ha
    rw [List.getElem?_eq_getElem hi, Option.some.injEq] at h1
    rw [h1, List.mem_range, ← hlen]
    exact List.idxOf_lt_length_iff.mpr h0
  refine ⟨dap, ?_, hdp, hnd, hent⟩
  have hcount : dap.count 0 = 1 := by
    rw [hdp.count_eq]; decide
  unfold arrowPerm
  change (if dap.count 0 > 1 then _ else _) = _
  rw [if_neg (by omega)]
  rfl

theorem arrowPerm_ok {R : M3 K} (hR : KeepsArrows R) (ho : R.transpose * R = 1) :
    ∃ dap, arrowPerm R = .ok dap ∧ TurnsArrows R dap := by
  obtain ⟨dap, e1, hp, hnd, hent⟩ := arrowPerm_rounds (hR.rounds ho)
  refine ⟨dap, e1, by rw [hp.length_eq]; simp, ?_⟩
  intro k m hk
  obtain ⟨a, ha⟩ := arrowDir_exists hk
  obtain ⟨hin, e⟩ := hent k a ha
  rw [e, Option.some.injEq]
  obtain ⟨m', b, hb, e'⟩ := hR k a ha
  have hget : (arrowImages R)[m']? = some a := by
    unfold arrowImages
    rw [List.getElem?_map, (arrowDirs_get m' b).mpr hb, Option.map_some, Option.some.injEq]
    rw [← e', Matrix.mulVec_mulVec, ho, Matrix.one_mulVec]
    funext i
    exact npRound_int _
  have hidx : (arrowImages R).idxOf a = m' := by
    have hlt : (arrowImages R).idxOf a < (arrowImages R).length := List.idxOf_lt_length_iff.mpr hin
    have : (arrowImages R)[(arrowImages R).idxOf a]? = some a := by rw [List.getElem?_eq_getElem hlt]; simp
    rw [← hget] at this
    exact (List.getElem?_inj hlt hnd).mp this
  rw [hidx]
  constructor
  · rintro rfl; exact ⟨a, b, ha, hb, e'⟩
  · rintro ⟨a', b', ha', hb', e''⟩
    rw [arrowDir_fun ha' ha, e'] at e''
    rw [castVec_inj e''] at hb
    exact arrowDir_inj hb hb'

theorem npRound_of {x : K} {z : ℤ} (h : RoundsTo x z) : npRound x = z := by
  have hf : ⌊x⌋ = z ∨ ⌊x⌋ = z - 1 := by
    have : |x - z| ≤ 1 / 2 := by rcases h with h | h; exacts [h.le, h.1.le]
    rw [abs_le] at this
    by_cases hx : (z : K) ≤ x
    · left; rw [Int.floor_eq_iff]; constructor <;> linarith
    · right; rw [Int.floor_eq_iff]; push_cast; push Not at hx; constructor <;> linarith
  have hfr := Int.self_sub_floor x
  unfold npRound
  rcases h with h | ⟨h, he⟩
  · rw [if_neg]
    · rw [round_eq, Int.floor_eq_iff]
      rw [abs_lt] at h
      constructor <;> linarith
    · intro hc
      rw [abs_lt] at h
      rcases hf with hf | hf
      · rw [hf, hc] at hfr; linarith
      · rw [hf, hc] at hfr; push_cast at hfr; linarith
  · rcases hf with hf | hf
    · have : x - z = 1 / 2 := by
        rw [hf] at hfr
        have := Int.fract_nonneg x
        rw [← hfr] at this
        rwa [abs_of_nonneg this] at h
      rw [if_pos (by rw [← hfr, hf, this]), if_pos (by rw [hf]; exact Int.even_iff.mp he), hf]
    · have : x - z = -(1 / 2) := by
        rw [hf] at hfr
        have := Int.fract_lt_one x
        rw [← hfr] at this
        push_cast at this
        rw [abs_of_neg (by linarith)] at h
        linarith
      rw [if_pos (by rw [← hfr, hf]; push_cast; linarith), if_neg, hf, sub_add_cancel]
      rw [hf]
      have := Int.even_iff.mp he
      omega

/-! translations -/

theorem flatMap_range_get {α : Type} (f : ℕ → List α) (n : ℕ) (hf : ∀ a, (f a).length = n) (nd a b : ℕ) (ha : a < nd)
    (hb : b < n) : ((List.range nd).flatMap f)[a * n + b]? = (f a)[b]? := by
  induction nd with
  | zero => omega
  | succ nd ih =>
    have hlen : ((List.range nd).flatMap f).length = nd * n := by
      rw [List.length_flatMap]
      simp [hf]
    rw [List.range_succ, List.flatMap_append]
    by_cases h : a < nd
    · rw [List.getElem?_append_left, ih h]
      rw [hlen]
      have := Nat.mul_le_mul_right n (Nat.succ_le_of_lt h)
      rw [Nat.succ_mul] at this; omega
    · have : a = nd := by omega
      subst this
      rw [List.getElem?_append_right (by rw [hlen]; omega), hlen, Nat.add_sub_cancel_left]
      simp

/-- the permutation computed for the translation by member `t` -/
def transPerm (S : GVec) (g : List GVec) (n nd : ℕ) (t : GVec) : List ℕ :=
  (List.range nd).flatMap (fun il =>
    (findPerm g (g.map (fun x => (fun i => (x i + t i) % S i : GVec)))).map (fun i => il * n + i))

theorem transPerms_eq (S : GVec) (g : List GVec) (n nd : ℕ) :
    transPerms S g n nd = g.map (transPerm S g n nd) := rfl

theorem transPerm_induces {T : M3 K} (hT : T.det ≠ 0) {S : GVec} (hS : ∀ i, 0 < S i) {d : List (Fin 3 → K)} {nd : ℕ}
    (hd : ∀ i j, i < nd → j < nd → d.getD i 0 - d.getD j 0 ∈ ColLattice T → i = j) (t : GVec) :
    Induces (SLat T S) (nd * (memberList S).length) (sitePos T S d (memberList S).length) 1 (T.mulVec (castV t))
      (transPerm S (memberList S) (memberList S).length nd t) := by
  set g := memberList S with hg
  set n := g.length with hn
  have hn0 : 0 < n := by rw [hn, hg, memberList_length hS]; have := card_pos hS; omega
  have hsub := slat_isSub T S
  set gp := g.map (fun x => red S (x + t)) with hgp
  have hinj : ∀ x ∈ g, ∀ y ∈ g, red S (x + t) = red S (y + t) → x = y := by
    intro x hx y hy e
    apply valid_eq ((mem_memberList hS).mp hx) ((mem_memberList hS).mp hy)
    intro i
    have a := red_dvd S (x + t) i
    have b := red_dvd S (y + t) i
    rw [e] at a
    have := dvd_sub a b
    simpa using this
  have hnd : gp.Nodup := (memberList_nodup hS).map_on hinj
  have hlen : gp.length = n := by simp [hgp, hn]
  have hin : ∀ x ∈ g, x ∈ gp := by
    have hsp : gp.Subperm g := by
      apply List.subperm_of_subset hnd
      intro y hy
      obtain ⟨x, -, rfl⟩ := List.mem_map.mp hy
      exact (mem_memberList hS).mpr (red_valid hS _)
    have hp := hsp.perm_of_length_le (by rw [hlen])
    intro x hx
    exact hp.mem_iff.mpr hx
  have hfp : findPerm g (g.map (fun x => (fun i => (x i + t i) % S i : GVec))) = g.map (fun x => gp.idxOf x) :=
    findPerm_eq (memberList_nodup hS) hnd hin
  have hap := sites_apart hT hS hd
  have hlen' : (transPerm S g n nd t).length = nd * n := by
    unfold transPerm
    rw [List.length_flatMap, hfp]
    simp [hn]
  refine ⟨hlen', ?_⟩
  intro i j hi
  have ha : i / n < nd := by rw [Nat.div_lt_iff_lt_mul hn0]; exact hi
  have hb : i % n < n := Nat.mod_lt _ hn0
  have hx : g[i % n]? = some (g[i % n]) := List.getElem?_eq_getElem hb
  set x := g[i % n]
  have hxg : x ∈ g := List.mem_of_getElem? hx
  set jm := gp.idxOf x with hjm
  have hjmlt : jm < n := by rw [← hlen]; exact List.idxOf_lt_length_iff.mpr (hin x hxg)
  have hent : (transPerm S g n nd t)[i]? = some (i / n * n + jm) := by
    have hi' : i = i / n * n + i % n := by rw [mul_comm, Nat.div_add_mod]
    conv_lhs => rw [hi']
    unfold transPerm
    rw [flatMap_range_get _ n _ nd _ _ ha hb, hfp, List.map_map, List.getElem?_map, hx]
    · rfl
    · intro a; rw [hfp]; simp [hn]
  rw [hent, Option.some.injEq]
  have hj0 : i / n * n + jm < nd * n := by
    have := Nat.mul_le_mul_right n (Nat.succ_le_of_lt ha)
    rw [Nat.succ_mul] at this; omega
  have hpos : (1 : M3 K).mulVec (sitePos T S d n (i / n * n + jm)) + T.mulVec (castV t) - sitePos T S d n i
      ∈ SLat T S := by
    have h1 : (i / n * n + jm) / n = i / n := by
      rw [add_comm, Nat.add_mul_div_right _ _ hn0, Nat.div_eq_of_lt hjmlt, zero_add]
    have h2 : (i / n * n + jm) % n = jm := by
      rw [add_comm, Nat.add_mul_mod_self_right, Nat.mod_eq_of_lt hjmlt]
    have hyget : g[jm]? = some (g[jm]) := List.getElem?_eq_getElem hjmlt
    have h3 : g.getD jm 0 = g[jm] := by rw [List.getD_eq_getElem?_getD, hyget]; rfl
    have h4 : g.getD (i % n) 0 = x := by rw [List.getD_eq_getElem?_getD, hx]; rfl
    have h5 : red S (g[jm] + t) = x := by
      have a : gp[jm]? = some x := by
        rw [List.getElem?_eq_getElem (List.idxOf_lt_length_iff.mpr (hin x hxg))]; simp
      rw [hgp, List.getElem?_map, hyget] at a
      simpa using a
    unfold sitePos
    rw [← hg, h1, h2, h3, h4, Matrix.one_mulVec]
    have : d.getD (i / n) 0 + T.mulVec (castV g[jm]) + T.mulVec (castV t) - (d.getD (i / n) 0 + T.mulVec (castV x)) =
        T.mulVec (castV (g[jm] + t - x)) := by
      rw [castV_sub, castV_add, Matrix.mulVec_sub, Matrix.mulVec_add]; abel
    rw [this, slat_mem_iff hT]
    intro k
    have := red_dvd S (g[jm] + t) k
    rwa [h5] at this
  constructor
  · rintro rfl; exact ⟨hj0, hpos⟩
  · rintro ⟨hj, h⟩
    symm
    apply hap j _ hj hj0
    have := hsub.add _ h _ (hsub.neg _ hpos)
    rw [Matrix.one_mulVec, Matrix.one_mulVec] at this
    convert this using 1
    abel

end

/-! removal of duplicates and sorting -/

theorem mem_dropRepeats {α : Type} [DecidableEq α] (l : List α) (x : α) : x ∈ dropRepeats l ↔ x ∈ l := by
  fun_induction dropRepeats l with
  | case1 => simp
  | case2 => simp
  | case3 a l ih => rw [ih]; simp
  | case4 a b l h ih => rw [List.mem_cons, ih]; simp

theorem dropRepeats_head {α : Type} [DecidableEq α] (l : List α) : (dropRepeats l).head? = l.head? := by
  fun_induction dropRepeats l with
  | case1 => rfl
  | case2 => rfl
  | case3 a l ih => rw [ih]; rfl
  | case4 a b l h ih => rfl

theorem mem_lexSort (l : List (List ℕ)) (x : List ℕ) : x ∈ lexSort l ↔ x ∈ l := List.mem_mergeSort

theorem lexSort_pairwise (l : List (List ℕ)) : (lexSort l).Pairwise (fun a b => a ≤ b) := by
  have := List.pairwise_mergeSort (le := fun a b : List ℕ => decide (a ≤ b))
    (fun a b c h1 h2 => by simp only [decide_eq_true_eq] at *; exact le_trans h1 h2)
    (fun a b => by simp only [Bool.or_eq_true, decide_eq_true_eq]; exact le_total a b) l
  refine this.imp ?_
  intro a b h
  simpa using h

theorem lexSort_head {l : List (List ℕ)} {x : List ℕ} (hx : x ∈ l) (hmin : ∀ y ∈ l, x ≤ y) :
    (lexSort l).head? = some x := by
  have hp := lexSort_pairwise l
  have hx' := (mem_lexSort l x).mpr hx
  cases h : lexSort l with
  | nil => rw [h] at hx'; simp at hx'
  | cons a t =>
    rw [h] at hp hx'
    rw [List.head?_cons, Option.some.injEq]
    have ha : a ∈ l := (mem_lexSort l a).mp (by rw [h]; simp)
    rcases List.mem_cons.mp hx' with e | hmem
    · exact e.symm
    · exact le_antisymm ((List.pairwise_cons.mp hp).1 x hmem) (hmin a ha)

theorem range_le_perm (N s : ℕ) (σ : List ℕ) (h : σ.Perm (List.range' s N)) (w u : List ℕ) (hw : w ≤ u) :
    List.range' s N ++ w ≤ σ ++ u := by
  induction N generalizing s σ with
  | zero => simp at h; subst h; simpa using hw
  | succ N ih =>
    cases σ with
    | nil => have := h.length_eq; simp at this
    | cons x σ =>
      have hx : x ∈ List.range' s (N + 1) := h.mem_iff.mp (by simp)
      rw [List.mem_range'_1] at hx
      rw [List.range'_succ, List.cons_append, List.cons_append]
      by_cases e : s = x
      · subst e
        apply List.cons_le_cons
        apply ih (s + 1) σ
        rw [List.range'_succ] at h
        exact (List.perm_cons s).mp h
      · apply le_of_lt
        exact List.Lex.rel (by omega)

theorem mem_cleanPerms {N : ℕ} {perms : List (List ℕ × List ℕ)} (h1 : ∀ p ∈ perms, p.1.length = N)
    (h2 : ∀ p ∈ perms, p.2.length = 6) (arrows : Bool) (q : List ℕ × List ℕ) :
    q ∈ cleanPerms arrows perms ↔
      ∃ p ∈ perms, q = if arrows then p else (p.1, List.range 6) := by
  cases arrows with
  | false =>
    simp only [cleanPerms, Bool.false_eq_true, if_false, List.mem_map]
    have : ∀ x, x ∈ (if perms.length > 1 then dropRepeats (lexSort (perms.map (fun p => p.1))) else perms.map (fun p => p.1))
        ↔ x ∈ perms.map (fun p => p.1) := by
      intro x
      split
      · rw [mem_dropRepeats, mem_lexSort]
      · rfl
    constructor
    · rintro ⟨x, hx, rfl⟩
      obtain ⟨p, hp, rfl⟩ := List.mem_map.mp ((this x).mp hx)
      exact ⟨p, hp, rfl⟩
    · rintro ⟨p, hp, rfl⟩
      exact ⟨p.1, (this _).mpr (List.mem_map_of_mem hp), rfl⟩
  | true =>
    simp only [cleanPerms, if_true]
    split
    · rename_i hlen
      have hnr : ((perms.map (fun p => p.1.length)).headD 0) = N := by
        cases perms with
        | nil => simp at hlen
        | cons p _ => simpa using h1 p (by simp)
      rw [hnr]
      have key : ∀ p ∈ perms, ((p.1 ++ p.2).take N, (p.1 ++ p.2).drop ((p.1 ++ p.2).length - 6)) = p := by
        intro p hp
        have a := h1 p hp
        have b := h2 p hp
        rw [List.length_append, a, b, Nat.add_sub_cancel]
        rw [← a, List.take_left, List.drop_left]
      simp only [List.mem_map]
      constructor
      · rintro ⟨x, hx, rfl⟩
        rw [mem_lexSort, mem_dropRepeats] at hx
        obtain ⟨p, hp, rfl⟩ := List.mem_map.mp hx
        exact ⟨p, hp, key p hp⟩
      · rintro ⟨p, hp, rfl⟩
        refine ⟨q.1 ++ q.2, ?_, key q hp⟩
        rw [mem_lexSort, mem_dropRepeats]
        exact List.mem_map.mpr ⟨q, hp, rfl⟩
    · simp

theorem cleanPerms_head {N : ℕ} {perms : List (List ℕ × List ℕ)} (h1 : ∀ p ∈ perms, p.1.Perm (List.range N))
    (h2 : ∀ p ∈ perms, p.2.Perm (List.range 6)) (hid : (List.range N, List.range 6) ∈ perms) (arrows : Bool) :
    (cleanPerms arrows perms).head? = some (List.range N, List.range 6) := by
  have l1 : ∀ p ∈ perms, p.1.length = N := fun p hp => perm_range_length (h1 p hp)
  have l2 : ∀ p ∈ perms, p.2.length = 6 := fun p hp => perm_range_length (h2 p hp)
  by_cases hlen : perms.length > 1
  · cases arrows with
    | false =>
      simp only [cleanPerms, Bool.false_eq_true, if_false, if_pos hlen]
      rw [List.head?_map, dropRepeats_head, lexSort_head (x := List.range N)]
      · rfl
      · exact List.mem_map.mpr ⟨_, hid, rfl⟩
      · intro y hy
        obtain ⟨p, hp, rfl⟩ := List.mem_map.mp hy
        have := range_le_perm N 0 p.1 (by rw [← List.range_eq_range']; exact h1 p hp) [] [] (by simp)
        rw [List.append_nil, List.append_nil, ← List.range_eq_range'] at this
        exact this
    | true =>
      simp only [cleanPerms, if_true, if_pos hlen]
      have hnr : ((perms.map (fun p => p.1.length)).headD 0) = N := by
        cases perms with
        | nil => simp at hlen
        | cons p _ => simpa using l1 p (by simp)
      rw [hnr, List.head?_map, lexSort_head (x := List.range N ++ List.range 6)]
      · simp
      · rw [mem_dropRepeats]; exact List.mem_map.mpr ⟨_, hid, rfl⟩
      · intro y hy
        rw [mem_dropRepeats] at hy
        obtain ⟨p, hp, rfl⟩ := List.mem_map.mp hy
        rw [List.range_eq_range']
        apply range_le_perm N 0 p.1 (by rw [← List.range_eq_range']; exact h1 p hp)
        have := range_le_perm 6 0 p.2 (by rw [← List.range_eq_range']; exact h2 p hp) [] [] (by simp)
        rw [List.append_nil, List.append_nil, ← List.range_eq_range'] at this
        exact this
  · have : perms = [(List.range N, List.range 6)] := by
      match perms, hid, hlen with
      | [p], hid, _ => simp at hid; rw [hid]
      | p :: q :: l, _, hlen => simp at hlen
    subst this
    cases arrows <;> simp [cleanPerms]

theorem composePerms_ok {N : ℕ} (tperms : List (List ℕ)) (ht : ∀ t ∈ tperms, t.length = N)
    (rperms : List (List ℕ × List ℕ)) (hr : ∀ r ∈ rperms, ∀ j ∈ r.1, j < N) :
    composePerms tperms rperms = .ok (rperms.flatMap (fun r => tperms.map (fun t => (permute r.1 t, r.2)))) := by
  unfold composePerms
  rw [mapM_ok_eq _ (fun rt => (permute rt.1.1 rt.2, rt.1.2))]
  · congr 1
    rw [List.map_flatMap]
    simp [List.map_map, Function.comp_def]
  · rintro ⟨r, t⟩ h
    simp only [List.mem_flatMap, List.mem_map, Prod.mk.injEq] at h
    obtain ⟨r', hr', t', ht', rfl, rfl⟩ := h
    simp only
    rw [pyGather_eq _ _ (by rw [ht _ ht']; exact hr _ hr')]
    rfl

end Phenum
