import Verif.Proof.Distribute
/-
C33, C34: how many structures of each type are enumerated.
-/
namespace Phenum
open Spec

theorem available_pos {ft : Ftype} {E : List (ℕ × HNF6 × Conc × ℕ)} {k : DKey} (h : 0 < available ft E k) :
    ∃ e ∈ E, typeOf ft e = k ∧ 0 < e.2.2.2 := by
  by_contra hc
  have : available ft E k = 0 := by
    unfold available
    rw [List.sum_eq_zero_iff]
    intro x hx
    obtain ⟨e, he, rfl⟩ := List.mem_map.mp hx
    split
    · next ht =>
      rcases Nat.eq_zero_or_pos e.2.2.2 with h0 | h0
      · exact h0
      · exact absurd ⟨e, he, ht, h0⟩ hc
    · rfl
  omega

/-- C33: distributing all structures of consistent tables of different sizes gives a dictionary that contains exactly
the types that have structures, each with exactly the number of structures available, and the numbers add up to the
grand total. (The combination of restricted concentrations with a distribution over shapes is excluded: there the
statement is false, see `C33_restricted_concs_by_shape`.) -/
theorem C33_full_distribution (tables : List PolyaTable) (res : Restrict) (ft : Ftype) (draws : ℕ → ℚ) (hok : ∀ t ∈ tables, TableOk t)
    (hsz : (tables.map (·.size)).Nodup) (hres : ft = .shape → ∀ l, res ≠ .concs l) :
    ((distribute tables res ft none draws).map (·.1)).Nodup ∧
    (∀ k v, (k, v) ∈ distribute tables res ft none draws ↔ v = available ft (entries res tables) k ∧ 0 < v) ∧
    ((distribute tables res ft none draws).map (·.2)).sum = grandTotal (entries res tables) := by
  obtain ⟨h1, h2, h3, h4⟩ := relOk_tables tables res ft hok hsz hres
  have hsum : ((relKeys (distSummary tables res).1 ft).map (·.2)).sum = (distSummary tables res).2 := by
    rw [h4, ← sum_available ft h1 (entries res tables) h3, List.map_map]
    congr 1
    exact List.map_congr_left h2
  have hd : distribute tables res ft none draws = (relKeys (distSummary tables res).1 ft).filter (fun p => decide (0 < p.2)) := by
    unfold distribute
    simp only [if_true]
    rw [assignAll_eq _ [] 0 (by simpa using h1) (by rw [hsum]; omega) (by simp)]
    rfl
  rw [hd]
  refine ⟨h1.sublist (List.Sublist.map _ List.filter_sublist), ?_, ?_⟩
  · intro k v
    rw [List.mem_filter, decide_eq_true_eq]
    constructor
    · rintro ⟨h, hv⟩
      exact ⟨h2 _ h, hv⟩
    · rintro ⟨rfl, hv⟩
      refine ⟨?_, hv⟩
      obtain ⟨e, he, hk, -⟩ := available_pos hv
      obtain ⟨p, hp, hpk⟩ := List.mem_map.mp (h3 e he)
      have := h2 p hp
      rw [show (k, available ft (entries res tables) k) = p by rw [← hk, ← hpk, ← this]]
      exact hp
  · rw [← h4, ← hsum]
    generalize relKeys (distSummary tables res).1 ft = L
    induction L with
    | nil => rfl
    | cons p L ih =>
      by_cases h : 0 < p.2
      · rw [List.filter_cons_of_pos (by simpa using h)]; simp [ih]
      · rw [List.filter_cons_of_neg (by simpa using h), ih]; simp; omega

/-- C33: the table written by the program for different shapes and concentrations is consistent, whatever the counts. -/
theorem C33_written_table (size : ℕ) (hnfs : List HNF6) (concs : List Conc) (count : HNF6 → Conc → ℕ) (hh : hnfs.Nodup) (hc : concs.Nodup) :
    TableOk (polyaTable size hnfs concs count) ∧
    ∀ h c v, (size, h, c, v) ∈ tableEntries .none (polyaTable size hnfs concs count) ↔ h ∈ hnfs ∧ c ∈ concs ∧ v = count h c := by
  constructor
  · refine ⟨hc, ?_, ?_, ?_, ?_⟩
    · simp only [polyaTable, List.map_map]
      show (hnfs.map id).Nodup
      rw [List.map_id]; exact hh
    · intro r hr
      obtain ⟨h, -, rfl⟩ := List.mem_map.mp hr
      simp [polyaTable]
    · intro r hr
      obtain ⟨h, -, rfl⟩ := List.mem_map.mp hr
      simp only [List.sum_eq_foldl]
    · simp only [polyaTable, List.map_map]
      have key : ∀ (l : List HNF6) (acc : List ℕ), acc.length = concs.length →
          l.foldl (fun tot h => List.zipWith (· + ·) tot (concs.map (count h))) acc =
          (List.range concs.length).map (fun j => acc.getD j 0 + (l.map ((fun r : HNF6 × List ℕ × ℕ => r.2.1.getD j 0) ∘
            fun h => (h, concs.map (count h), (concs.map (count h)).foldl (· + ·) 0))).sum) := by
        intro l
        induction l with
        | nil =>
          intro acc ha
          apply List.ext_getElem (by simp [ha])
          intro i h1 h2
          simp at h2
          rw [List.foldl_nil] at h1
          simp [List.getD_eq_getElem?_getD, h1]
        | cons h l ih =>
          intro acc ha
          rw [List.foldl_cons, ih _ (by simp [ha])]
          apply List.map_congr_left
          intro j hj
          rw [List.mem_range] at hj
          rw [List.map_cons, List.sum_cons]
          have : (List.zipWith (· + ·) acc (concs.map (count h))).getD j 0 = acc.getD j 0 + (concs.map (count h)).getD j 0 := by
            simp [List.getD_eq_getElem?_getD, List.getElem?_eq_getElem, ha, hj]
          rw [this]
          simp only [Function.comp]
          omega
      rw [key _ _ (by simp)]
      apply List.map_congr_left
      intro j hj
      rw [List.mem_range] at hj
      simp [List.getD_eq_getElem?_getD, hj]
  · intro h c v
    unfold tableEntries polyaTable passes
    simp only [List.mem_flatMap, List.mem_map]
    constructor
    · rintro ⟨r, ⟨h', hh', rfl⟩, p, hp, he⟩
      obtain ⟨-, rfl, rfl, rfl⟩ : size = size ∧ h' = h ∧ p.1 = c ∧ p.2 = v := by
        rw [Prod.mk.injEq, Prod.mk.injEq, Prod.mk.injEq] at he; exact he
      have hp := (List.mem_filter.mp hp).1
      simp only at hp
      rw [List.zip_map_right, List.mem_map] at hp
      obtain ⟨q, hq, rfl⟩ := hp
      have := List.of_mem_zip hq
      have he : q.1 = q.2 := by
        obtain ⟨i, hi, rfl⟩ := List.getElem_of_mem hq
        rw [List.getElem_zip]
      exact ⟨hh', this.1, by simp [he]⟩
    · rintro ⟨h1, h2, rfl⟩
      refine ⟨_, ⟨h, h1, rfl⟩, (c, count h c), ?_, rfl⟩
      rw [List.mem_filter]
      refine ⟨?_, rfl⟩
      simp only
      rw [List.zip_map_right, List.mem_map]
      refine ⟨(c, c), ?_, rfl⟩
      obtain ⟨i, hi, rfl⟩ := List.getElem_of_mem h2
      rw [List.mem_iff_getElem]
      exact ⟨i, by simpa using hi, by rw [List.getElem_zip]⟩

/-- A table of size 2 with two shapes and two concentrations. -/
def exampleTable : PolyaTable := polyaTable 2 [[1, 0, 1, 0, 0, 2], [1, 0, 2, 0, 0, 1]] [[1, 1], [2, 0]] (fun h c => if h = [1, 0, 1, 0, 0, 2] then 3 else if c = [1, 1] then 2 else 0)

example : TableOk exampleTable ∧ grandTotal (entries .none [exampleTable]) = 8 ∧
    available .shape (entries .none [exampleTable]) (2, some [1, 0, 2, 0, 0, 1], none) = 2 ∧
    distribute [exampleTable] .none .conc none (fun _ => 0) = [((2, none, some [1, 1]), 5), ((2, none, some [2, 0]), 3)] := by
  refine ⟨(C33_written_table _ _ _ _ (by decide) (by decide)).1, ?_, ?_, ?_⟩ <;> decide

/-- C33 fails for a distribution over the shapes when the concentrations are restricted: the totals of the shapes still
count the other concentrations, while the grand total does not, so that the first shape takes more than there is and the
others get nothing. -/
theorem C33_restricted_concs_by_shape : ∃ (t : PolyaTable) (l : List Conc), TableOk t ∧
    grandTotal (entries (.concs l) [t]) = 5 ∧
    available .shape (entries (.concs l) [t]) (2, some [1, 0, 1, 0, 0, 2], none) = 3 ∧
    available .shape (entries (.concs l) [t]) (2, some [1, 0, 2, 0, 0, 1], none) = 2 ∧
    ∀ draws, distribute [t] (.concs l) .shape none draws = [((2, some [1, 0, 1, 0, 0, 2], none), 6)] :=
  ⟨exampleTable, [[1, 1]], (C33_written_table _ _ _ _ (by decide) (by decide)).1, by decide, by decide, by decide, fun draws => by
    unfold distribute
    simp only [if_true]
    decide⟩

/-- C34: a request for at least as many structures as there are gives all of them. -/
theorem C34_ample (tables : List PolyaTable) (res : Restrict) (ft : Ftype) (draws : ℕ → ℚ) (hok : ∀ t ∈ tables, TableOk t)
    (hsz : (tables.map (·.size)).Nodup) (hres : ft = .shape → ∀ l, res ≠ .concs l) (n : ℕ) (hn : grandTotal (entries res tables) ≤ n) :
    distribute tables res ft (some n) draws = distribute tables res ft none draws := by
  obtain ⟨-, -, -, h4⟩ := relOk_tables tables res ft hok hsz hres
  unfold distribute
  simp only
  by_cases h : n > (distSummary tables res).2
  · simp [h]
  · have hn' : n = (distSummary tables res).2 := by omega
    simp [hn']

/-- C34, what holds for every request and all random numbers: the types in the result are types that have structures,
listed once with positive numbers; the total misses the number requested (or available, if that is less) by less than
the number of types that have structures, and exceeds it by less than the largest share rounded up; each type receives at
most four times its share rounded up. The full claim, that the total is exactly the number requested and no type gets
more than is available, is false: `C34_overshoots`, `C34_falls_short`, `C34_exceeds_available`. -/
theorem C34_bounds (tables : List PolyaTable) (res : Restrict) (ft : Ftype) (draws : ℕ → ℚ) (hok : ∀ t ∈ tables, TableOk t)
    (hsz : (tables.map (·.size)).Nodup) (hres : ft = .shape → ∀ l, res ≠ .concs l) (hd : ∀ i, 0 ≤ draws i) (n : ℕ)
    (hn : n < grandTotal (entries res tables)) (K : List DKey) (hK : ∀ k, 0 < available ft (entries res tables) k → k ∈ K)
    (M : ℕ) (hM : ∀ k, available ft (entries res tables) k ≤ M) :
    ((distribute tables res ft (some n) draws).map (·.1)).Nodup ∧
    (∀ p ∈ distribute tables res ft (some n) draws, 0 < p.2 ∧ 0 < available ft (entries res tables) p.1 ∧
      p.2 ≤ 4 * ⌈(n : ℚ) * available ft (entries res tables) p.1 / grandTotal (entries res tables)⌉₊) ∧
    n ≤ ((distribute tables res ft (some n) draws).map (·.2)).sum + (K.length - 1) ∧
    ((distribute tables res ft (some n) draws).map (·.2)).sum ≤ (n - 1) + ⌈(n : ℚ) * M / grandTotal (entries res tables)⌉₊ := by
  obtain ⟨h1, h2, h3, h4⟩ := relOk_tables tables res ft hok hsz hres
  have hsum : ((relKeys (distSummary tables res).1 ft).map (·.2)).sum = (distSummary tables res).2 := by
    rw [h4, ← sum_available ft h1 (entries res tables) h3, List.map_map]
    congr 1
    exact List.map_congr_left h2
  have hdist : distribute tables res ft (some n) draws = (recountLoop n (distSummary tables res).2 (sortShares n (distSummary tables res).2 (relKeys (distSummary tables res).1 ft)) 4 draws (0, [])).2 := by
    unfold distribute
    simp only
    rw [if_neg (show ¬ n > (distSummary tables res).2 by omega), if_neg (by omega)]
  rw [hdist]
  have hp := sortShares_perm n (distSummary tables res).2 (relKeys (distSummary tables res).1 ft)
  set G := grandTotal (entries res tables) with hG
  set rel0 := relKeys (distSummary tables res).1 ft with hrel0
  set A := available ft (entries res tables) with hA
  rw [h4] at hp hsum ⊢
  generalize hrel : sortShares n G rel0 = rel at hp
  have hshare : ∀ l, share n G l = (n : ℚ) * l / G := by intro l; unfold share; ring
  have h2' : ∀ p ∈ rel, p.2 = A p.1 := fun p h => h2 p (hp.mem_iff.mp h)
  have h1' : (rel.map (·.1)).Nodup := (hp.map _).nodup_iff.mpr h1
  have hsum' : (rel.map (·.2)).sum = G := by rw [(hp.map _).sum_eq, hsum]
  have hB : ∀ p ∈ rel, ⌈share n G p.2⌉₊ ≤ ⌈(n : ℚ) * M / G⌉₊ := by
    intro p hpm
    rw [← hshare]
    exact Nat.ceil_le_ceil (share_mono le_rfl (by rw [h2' p hpm]; exact hM _))
  have hI := recountLoop_inv (n := n) (g := G) (rel := rel) (B := ⌈(n : ℚ) * M / G⌉₊) A h2' hB 4 0 draws (0, []) hd h1'
    ⟨rfl, by simp, by simp, by simp⟩
  refine ⟨hI.nodup, ?_, ?_, ?_⟩
  · intro p hpm
    obtain ⟨g1, g2, g3⟩ := hI.good p hpm
    rw [hshare, Nat.zero_add] at g3
    refine ⟨g1, ?_, g3⟩
    rcases Nat.eq_zero_or_pos (A p.1) with h0 | h0
    · rw [h0] at g3
      simp at g3
      omega
    · exact h0
  · rw [← hI.total]
    have hkl : (rel.filter (fun p => decide (0 < p.2))).length ≤ K.length := by
      have hnd : ((rel.filter (fun p => decide (0 < p.2))).map (·.1)).Nodup := h1'.sublist (List.Sublist.map _ List.filter_sublist)
      have hsub : ((rel.filter (fun p => decide (0 < p.2))).map (·.1)) ⊆ K := by
        intro k hk
        obtain ⟨p, hpm, rfl⟩ := List.mem_map.mp hk
        rw [List.mem_filter, decide_eq_true_eq] at hpm
        exact hK _ (by rw [← h2' p hpm.1]; exact hpm.2)
      have := (List.subperm_of_subset hnd hsub).length_le
      simpa using this
    have hfl := sum_floor_share (n := n) (g := G) rel hsum' (by omega)
    rw [show (4 : ℕ) = 3 + 1 from rfl, recountLoop]
    by_cases hn0 : n = 0
    · rw [hn0]; exact Nat.zero_le _
    rw [if_pos (by simp only; omega)]
    simp only
    have hpl := passLoop_lower (m := n - 0) (n := n) (g := G) rel draws (0, []) hd
    have hrl := recountLoop_lower (n := n) (g := G) (rel := rel) 3 (fun i => draws (i + (passLoop (n - 0) n G rel draws (0, [])).2))
      (passLoop (n - 0) n G rel draws (0, [])).1 (fun i => hd _)
    rw [Nat.sub_zero] at hpl hrl ⊢
    simp only [Nat.zero_add] at hpl
    omega
  · rw [← hI.total]
    exact hI.bound

/-- C34 when the shares are whole numbers: for all random numbers every type gets exactly its share, which is at most what
is available, and the total is exactly the number requested. -/
theorem C34_whole_shares (tables : List PolyaTable) (res : Restrict) (ft : Ftype) (draws : ℕ → ℚ) (hok : ∀ t ∈ tables, TableOk t)
    (hsz : (tables.map (·.size)).Nodup) (hres : ft = .shape → ∀ l, res ≠ .concs l) (hd : ∀ i, 0 ≤ draws i) (n : ℕ) (hn0 : 0 < n)
    (hn : n ≤ grandTotal (entries res tables))
    (hw : ∀ k, grandTotal (entries res tables) ∣ n * available ft (entries res tables) k) :
    (∀ k v, (k, v) ∈ distribute tables res ft (some n) draws ↔
      v * grandTotal (entries res tables) = n * available ft (entries res tables) k ∧ 0 < v) ∧
    (∀ p ∈ distribute tables res ft (some n) draws, p.2 ≤ available ft (entries res tables) p.1) ∧
    ((distribute tables res ft (some n) draws).map (·.1)).Nodup ∧
    ((distribute tables res ft (some n) draws).map (·.2)).sum = n := by
  rcases Nat.lt_or_ge n (grandTotal (entries res tables)) with hlt | hge
  swap
  · have hC := C33_full_distribution tables res ft draws hok hsz hres
    rw [C34_ample tables res ft draws hok hsz hres n hge]
    obtain rfl : n = grandTotal (entries res tables) := by omega
    refine ⟨?_, fun p hp => le_of_eq ((hC.2.1 p.1 p.2).mp hp).1, hC.1, hC.2.2⟩
    intro k v
    rw [hC.2.1 k v]
    constructor
    · rintro ⟨rfl, h⟩; exact ⟨Nat.mul_comm _ _, h⟩
    · rintro ⟨h, hv⟩
      refine ⟨?_, hv⟩
      exact Nat.eq_of_mul_eq_mul_left hn0 (by rw [Nat.mul_comm]; exact h)
  obtain ⟨h1, h2, h3, h4⟩ := relOk_tables tables res ft hok hsz hres
  have hsum : ((relKeys (distSummary tables res).1 ft).map (·.2)).sum = (distSummary tables res).2 := by
    rw [h4, ← sum_available ft h1 (entries res tables) h3, List.map_map]
    congr 1
    exact List.map_congr_left h2
  have hdist : distribute tables res ft (some n) draws = (recountLoop n (distSummary tables res).2 (sortShares n (distSummary tables res).2 (relKeys (distSummary tables res).1 ft)) 4 draws (0, [])).2 := by
    unfold distribute
    simp only
    rw [if_neg (show ¬ n > (distSummary tables res).2 by omega), if_neg (by omega)]
  rw [hdist]
  have hp := sortShares_perm n (distSummary tables res).2 (relKeys (distSummary tables res).1 ft)
  set G := grandTotal (entries res tables) with hG
  set rel0 := relKeys (distSummary tables res).1 ft with hrel0
  set A := available ft (entries res tables) with hA
  rw [h4] at hp hsum ⊢
  generalize hrel : sortShares n G rel0 = rel at hp
  have hG0 : 0 < G := by omega
  have h2' : ∀ p ∈ rel, p.2 = A p.1 := fun p h => h2 p (hp.mem_iff.mp h)
  have h1' : (rel.map (·.1)).Nodup := (hp.map _).nodup_iff.mpr h1
  have hsum' : (rel.map (·.2)).sum = G := by rw [(hp.map _).sum_eq, hsum]
  have hc : ∀ p ∈ rel, share n G p.2 = ((n * A p.1 / G : ℕ) : ℚ) := by
    intro p hpm
    have hq : ((n * A p.1 / G : ℕ) : ℚ) * G = n * A p.1 := by exact_mod_cast Nat.div_mul_cancel (hw p.1)
    have hG' : (G : ℚ) ≠ 0 := by positivity
    rw [h2' p hpm, ← mul_left_inj' hG', hq]
    unfold share
    field_simp
  have hcs : (rel.map (fun p => n * A p.1 / G)).sum = n := by
    have : ∀ L : List (DKey × ℕ), (∀ p ∈ L, p.2 = A p.1) → (L.map (fun p => n * A p.1 / G)).sum * G = n * (L.map (·.2)).sum := by
      intro L hL
      induction L with
      | nil => simp
      | cons p L ih =>
        rw [List.map_cons, List.sum_cons, Nat.add_mul, ih (fun q hq => hL q (by simp [hq])), Nat.div_mul_cancel (hw p.1), List.map_cons, List.sum_cons,
          Nat.mul_add, hL p (by simp)]
    have := this rel h2'
    rw [hsum'] at this
    exact Nat.eq_of_mul_eq_mul_right hG0 this
  have hE : recountLoop n G rel 4 draws (0, []) = (n, (rel.map (fun p => (p.1, n * A p.1 / G))).filter (fun p => decide (0 < p.2))) := by
    rw [show (4 : ℕ) = 3 + 1 from rfl, recountLoop]
    by_cases hn0 : n = 0
    · rw [if_neg (by simp only; omega)]
      have : (rel.map (fun p => (p.1, n * A p.1 / G))).filter (fun p => decide (0 < p.2)) = [] := by
        rw [List.filter_eq_nil_iff]
        intro q hq
        obtain ⟨p, -, rfl⟩ := List.mem_map.mp hq
        simp [hn0]
      rw [this, hn0]
    · rw [if_pos (by simp only; omega)]
      simp only [Nat.sub_zero]
      have := passLoop_exact (n := n) (g := G) (fun p => n * A p.1 / G) rel draws [] 0 hd hc (by simpa using h1') (by rw [hcs]; omega)
      rw [List.nil_append] at this
      rw [recountLoop_done (by rw [this]), this]
  rw [hE]
  simp only
  have hmem : ∀ k v, (k, v) ∈ (rel.map (fun p => (p.1, n * A p.1 / G))).filter (fun p => decide (0 < p.2)) ↔ v * G = n * A k ∧ 0 < v := by
    intro k v
    rw [List.mem_filter, decide_eq_true_eq]
    constructor
    · rintro ⟨h, hv⟩
      obtain ⟨p, hpm, he⟩ := List.mem_map.mp h
      obtain ⟨rfl, rfl⟩ := Prod.mk.inj he
      exact ⟨Nat.div_mul_cancel (hw _), hv⟩
    · rintro ⟨h, hv⟩
      refine ⟨?_, hv⟩
      have hA0 : 0 < A k := by
        rcases Nat.eq_zero_or_pos (A k) with h0 | h0
        · rw [h0, Nat.mul_zero] at h
          have := Nat.mul_pos hv hG0
          omega
        · exact h0
      obtain ⟨e, he, hk, -⟩ := available_pos hA0
      obtain ⟨p, hpm, hpk⟩ := List.mem_map.mp (h3 e he)
      refine List.mem_map.mpr ⟨p, hp.mem_iff.mpr hpm, ?_⟩
      have : p.1 = k := by rw [hpk, hk]
      rw [this, ← h, Nat.mul_div_cancel _ hG0]
  refine ⟨hmem, ?_, ?_, ?_⟩
  · intro p hpm
    have := (hmem p.1 p.2).mp hpm
    have h5 : p.2 * G ≤ A p.1 * G := by
      rw [this.1, Nat.mul_comm (A p.1)]
      exact Nat.mul_le_mul_right _ (by omega)
    exact Nat.le_of_mul_le_mul_right h5 hG0
  · have : ((rel.map (fun p => (p.1, n * A p.1 / G))).map (·.1)).Nodup := by rw [List.map_map]; exact h1'
    exact this.sublist (List.Sublist.map _ List.filter_sublist)
  · have : ∀ L : List (DKey × ℕ), ((L.filter (fun p => decide (0 < p.2))).map (·.2)).sum = (L.map (·.2)).sum := by
      intro L
      induction L with
      | nil => rfl
      | cons p L ih =>
        by_cases h : 0 < p.2
        · rw [List.filter_cons_of_pos (by simpa using h)]; simp [ih]
        · rw [List.filter_cons_of_neg (by simpa using h), ih]; simp; omega
    rw [this, List.map_map]
    exact hcs

example : TableOk exampleTable ∧ (∀ k, grandTotal (entries .none [exampleTable]) ∣ 4 * available .shape (entries .none [exampleTable]) k) ∧
    ∀ draws : ℕ → ℚ, (∀ i, 0 ≤ draws i) → ((distribute [exampleTable] .none .shape (some 4) draws).map (·.2)).sum = 4 := by
  have hok : ∀ t ∈ [exampleTable], TableOk t := by
    intro t ht; rw [List.mem_singleton] at ht; subst ht
    exact (C33_written_table _ _ _ _ (by decide) (by decide)).1
  have hw : ∀ k, grandTotal (entries .none [exampleTable]) ∣ 4 * available .shape (entries .none [exampleTable]) k := by
    intro k
    by_cases h : 0 < available .shape (entries .none [exampleTable]) k
    · obtain ⟨e, he, hk, -⟩ := available_pos h
      have : ∀ e ∈ entries .none [exampleTable], grandTotal (entries .none [exampleTable]) ∣ 4 * available .shape (entries .none [exampleTable]) (typeOf .shape e) := by decide
      rw [← hk]; exact this e he
    · rw [show available .shape (entries .none [exampleTable]) k = 0 by omega]; simp
  exact ⟨hok _ (by simp), hw, fun draws hd => (C34_whole_shares [exampleTable] .none .shape draws hok (by decide) (by simp) hd 4 (by decide) (by decide) hw).2.2.2⟩

/-- A table with one shape and the given counts for the concentrations (k, 0), (k-1, 1), …. -/
def rowTable (counts : List ℕ) : PolyaTable :=
  polyaTable 1 [[1, 0, 1, 0, 0, 1]] ((List.range counts.length).map (fun i => [i])) (fun _ c => counts.getD (c.getD 0 0) 0)

/-- C34 is false: three structures are requested of two types with three structures each, and four are returned when the
random numbers are small. -/
theorem C34_overshoots : TableOk (rowTable [3, 3]) ∧ grandTotal (entries .none [rowTable [3, 3]]) = 6 ∧
    ((distribute [rowTable [3, 3]] .none .conc (some 3) (fun _ => 0)).map (·.2)).sum = 4 :=
  ⟨(C33_written_table _ _ _ _ (by decide) (by decide)).1, by decide +kernel, by decide +kernel⟩

/-- C34 is false: nothing at all is returned when the random numbers are large. -/
theorem C34_falls_short : TableOk (rowTable [3, 3, 3]) ∧ grandTotal (entries .none [rowTable [3, 3, 3]]) = 9 ∧
    distribute [rowTable [3, 3, 3]] .none .conc (some 1) (fun _ => 99/100) = [] :=
  ⟨(C33_written_table _ _ _ _ (by decide) (by decide)).1, by decide +kernel, by decide +kernel⟩

/-- C34 is false: a type that has a single structure is asked for two. -/
theorem C34_exceeds_available : ∃ draws : ℕ → ℚ, (∀ i, 0 ≤ draws i ∧ draws i < 1) ∧ TableOk (rowTable [8, 1, 1, 1]) ∧
    available .conc (entries .none [rowTable [8, 1, 1, 1]]) (1, none, some [1]) = 1 ∧
    ((1, none, some [1]), 2) ∈ distribute [rowTable [8, 1, 1, 1]] .none .conc (some 9) draws :=
  ⟨fun i => if i = 1 ∨ i = 5 then 0 else 99/100, fun i => by show 0 ≤ (if i = 1 ∨ i = 5 then (0 : ℚ) else 99/100) ∧ (if i = 1 ∨ i = 5 then (0 : ℚ) else 99/100) < 1; split <;> norm_num,
    (C33_written_table _ _ _ _ (by decide) (by decide)).1, by decide +kernel, by decide +kernel⟩

end Phenum
