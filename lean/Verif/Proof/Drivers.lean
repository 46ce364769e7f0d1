import Verif.Model.Drivers
import Verif.Props.PolyaOut
import Verif.Props.EnumIn
import Verif.Props.Distribution
import Verif.Proof.MakeStr
import Verif.Proof.HNF
/-
Lemmas about the command line program: the files written by one step are read by the next.
-/
namespace Phenum
open Spec

/-! ## directories -/

theorem dictGet_set {α β : Type} [DecidableEq α] (d : List (α × β)) (k k' : α) (v : β) :
    dictGet (dictSet d k v) k' = if k' = k then some v else dictGet d k' := by
  induction d with
  | nil =>
    by_cases h : k' = k
    · subst h; simp [dictSet, dictGet]
    · have : ¬ k = k' := fun e => h e.symm
      simp [dictSet, dictGet, h, this]
  | cons p d ih =>
    obtain ⟨k0, v0⟩ := p
    unfold dictSet
    by_cases h0 : k0 = k
    · rw [if_pos h0]
      subst h0
      by_cases h : k' = k0
      · subst h; simp [dictGet]
      · have : ¬ k0 = k' := fun e => h e.symm
        simp [dictGet, h, this]
    · rw [if_neg h0]
      by_cases h1 : k0 = k'
      · subst h1
        simp [dictGet, h0]
      · have e1 : dictGet ((k0, v0) :: dictSet d k v) k' = dictGet (dictSet d k v) k' := by simp [dictGet, h1]
        have e2 : dictGet ((k0, v0) :: d) k' = dictGet d k' := by simp [dictGet, h1]
        rw [e1, e2, ih]

theorem dictGet_none {α β : Type} [DecidableEq α] {d : List (α × β)} {k : α} : dictGet d k = none ↔ k ∉ d.map (·.1) := by
  unfold dictGet
  rw [Option.map_eq_none_iff, List.find?_eq_none]
  constructor
  · intro h hm
    obtain ⟨p, hp, rfl⟩ := List.mem_map.mp hm
    exact h p hp (by simp)
  · intro h p hp hk
    exact h (List.mem_map.mpr ⟨p, hp, by simpa using hk⟩)

theorem natStr_no_dot (n : ℕ) : '.' ∉ natStr n := by
  intro h
  have := natStr_digits n _ h
  revert this; decide

/-- the name of the file for a size -/
def polyaName (s : ℤ) : Str := "polya.out".toList ++ '.' :: intStr s

theorem polyaName_inj {a b : ℤ} (h : polyaName a = polyaName b) : a = b := by
  unfold polyaName at h
  have := List.append_cancel_left h
  exact intStr_inj (List.cons.inj this).2

theorem intStr_no_dot (s : ℤ) : '.' ∉ intStr s := by
  intro h
  rcases intStr_chars s _ h with h | h
  · revert h; decide
  · revert h; decide

theorem polyaName_parse (s : ℤ) : parseInt (strip ((splitOn '.' (polyaName s)).getLastD [])) = .ok s := by
  have h1 : splitOn '.' (polyaName s) = ["polya".toList, "out".toList, intStr s] := by
    show splitOn '.' ("polya".toList ++ '.' :: ("out".toList ++ '.' :: intStr s)) = _
    rw [splitOn_line _ _ (by decide), splitOn_line _ _ (by decide), splitOn_single _ _ (intStr_no_dot s)]
  rw [h1]
  show parseInt (strip (intStr s)) = _
  rw [strip_word (intStr_word s), parseInt_intStr]

/-- the test of `make_enum_in` on the name of a file -/
def PolyaLike (f : Str) : Prop := "polya.out".toList <:+: f ∧ f.head? = some 'p'

theorem polyaName_like (s : ℤ) : PolyaLike (polyaName s) := by
  refine ⟨⟨[], '.' :: intStr s, ?_⟩, ?_⟩
  · rw [List.nil_append]; rfl
  · unfold polyaName
    rw [show "polya.out".toList = 'p' :: "olya.out".toList from by decide]
    rfl

theorem sizesFound_eq {names : List Str} {l : List ℤ} (h : names.Perm (l.map polyaName ++ names.filter (fun f => ! decide (f ∈ l.map polyaName))))
    (hother : ∀ f ∈ names, f ∉ l.map polyaName → ¬ PolyaLike f) :
    ∃ l', l'.Perm l ∧ sizesFound "polya.out".toList names = .ok l' := by
  classical
  set p : Str → Bool := fun f => containsStr "polya.out".toList f && decide (f.head? = "polya.out".toList.head?) with hp
  have hpiff : ∀ f, p f = true ↔ PolyaLike f := by
    intro f
    rw [hp]
    simp only [Bool.and_eq_true, decide_eq_true_eq, containsStr, PolyaLike]
    rfl
  have hfil : (names.filter p).Perm (l.map polyaName) := by
    have := h.filter p
    rw [List.filter_append] at this
    have e1 : (l.map polyaName).filter p = l.map polyaName := by
      rw [List.filter_eq_self]
      intro f hf
      obtain ⟨s, -, rfl⟩ := List.mem_map.mp hf
      exact (hpiff _).mpr (polyaName_like s)
    have e2 : (names.filter (fun f => ! decide (f ∈ l.map polyaName))).filter p = [] := by
      rw [List.filter_eq_nil_iff]
      intro f hf
      obtain ⟨hf1, hf2⟩ := List.mem_filter.mp hf
      rw [hpiff]
      exact hother f hf1 (by simpa using hf2)
    rwa [e1, e2, List.append_nil] at this
  let g : Str → ℤ := fun f => match parseInt (strip ((splitOn '.' f).getLastD [])) with | .ok z => z | .error _ => 0
  have hg : ∀ s, g (polyaName s) = s := by
    intro s
    show (match parseInt (strip ((splitOn '.' (polyaName s)).getLastD [])) with | .ok z => z | .error _ => 0) = s
    rw [polyaName_parse]
  refine ⟨(names.filter p).map g, ?_, ?_⟩
  · have := hfil.map g
    rw [List.map_map] at this
    have e : g ∘ polyaName = id := by funext s; exact hg s
    rwa [e, List.map_id] at this
  · show (names.filter p).mapM _ = _
    have key : ∀ L : List Str, (∀ f ∈ L, ∃ s, f = polyaName s) →
        L.mapM (fun f => parseInt (strip ((splitOn '.' f).getLastD []))) = .ok (L.map g) := by
      intro L
      induction L with
      | nil => intro _; rfl
      | cons f L ih =>
        intro hL
        obtain ⟨s, rfl⟩ := hL f List.mem_cons_self
        rw [List.mapM_cons, polyaName_parse, ih (fun f hf => hL f (List.mem_cons_of_mem _ hf)), List.map_cons, hg]
        rfl
    apply key
    intro f hf
    obtain ⟨s, -, rfl⟩ := List.mem_map.mp (hfil.mem_iff.mp hf)
    exact ⟨s, rfl⟩

/-! ## polya.out -/

theorem hnf_numbers_full {n : ℕ} (hn : 1 ≤ n) {u : Matrix (Fin 3) (Fin 3) ℤ} (hu : u ∈ findAllHNFs n) :
    getFullHNF (hnfNumbers u) = u ∧ (hnfNumbers u).length = 6 := by
  obtain ⟨a, b, c, d, e, f, -, -, -, -, rfl⟩ := (mem_findAllHNFs hn u).mp hu
  refine ⟨?_, rfl⟩
  unfold getFullHNF hnfNumbers
  ext i j
  fin_cases i <;> fin_cases j <;> simp [hnfMat]

theorem runPy_ok {α : Type} (v : α) : runPy (.ok v) = (pure v : Run α) := rfl
theorem runO_ok {α : Type} (v : α) : runO (some (.ok v)) = (pure v : Run α) := rfl

/-- What is found for the size `s`: the supercells `U`, the concentrations `C`, the groups `G` and the counts `cnt`. -/
structure Counted (tol : Tol) (lat : LatticeIn) (P0 : Matrix (Fin 3) (Fin 3) ℚ) (b0 : List (Fin 3 → ℚ)) (s : ℕ)
    (U : List (Matrix (Fin 3) (Fin 3) ℤ)) (C : List Conc) (G : Matrix (Fin 3) (Fin 3) ℤ → List Op) (cnt : Matrix (Fin 3) (Fin 3) ℤ → Conc → ℕ) : Prop where
  hnfs : getHNFs s (realMat P0) (realVecs b0) 3 tol.hnf = (pure U : Run _)
  hnfNodup : U.Nodup
  hnfMem : ∀ u ∈ U, u ∈ findAllHNFs s
  concs : sizeConcs tol.conc lat s = (pure C : Run _)
  concNodup : C.Nodup
  groups : ∀ u ∈ U, getSymGroup (realMat P0) (realVecs b0) u 3 tol.sym true = (pure (G u) : Run _)
  counts : ∀ u ∈ U, ∀ c ∈ C, polyaCount (G u) lat.arrowFractions c = (pure (cnt u c) : Run _)

/-- the table of the size -/
def countTable (s : ℕ) (U : List (Matrix (Fin 3) (Fin 3) ℤ)) (C : List Conc) (cnt : Matrix (Fin 3) (Fin 3) ℤ → Conc → ℕ) : PolyaTable :=
  polyaTable s (U.map hnfNumbers) C (fun h c => cnt (getFullHNF h) c)

theorem polyaSize_ok {tol : Tol} {lat : LatticeIn} {P0 : Matrix (Fin 3) (Fin 3) ℚ} {b0 : List (Fin 3 → ℚ)} {s : ℕ} (hs : 1 ≤ s)
    {U : List (Matrix (Fin 3) (Fin 3) ℤ)} {C : List Conc} {G : Matrix (Fin 3) (Fin 3) ℤ → List Op} {cnt : Matrix (Fin 3) (Fin 3) ℤ → Conc → ℕ}
    (hgeo : lat.geometry = .ok (P0, b0)) (h : Counted tol lat P0 b0 s U C G cnt) :
    polyaSize tol lat s = (pure (countTable s U C cnt) : Run _) := by
  have hrow : ∀ u ∈ U, polyaRow tol (realMat P0) (realVecs b0) lat.arrowFractions C u =
      (pure (hnfNumbers u, C.map (cnt u)) : Run _) := by
    intro u hu
    unfold polyaRow
    rw [h.groups u hu, pure_bind, run_mapM_ok _ (cnt u) C (h.counts u hu), pure_bind]
  have hc : ∀ u ∈ U, C.map (cnt (getFullHNF (hnfNumbers u))) = C.map (cnt u) := by
    intro u hu
    rw [(hnf_numbers_full hs (h.hnfMem u hu)).1]
  unfold polyaSize
  rw [hgeo]
  simp only [runPy_ok, pure_bind]
  rw [h.hnfs, pure_bind, h.concs, pure_bind, run_mapM_ok _ _ U hrow, pure_bind]
  congr 1
  unfold countTable polyaTable
  congr 1
  · rw [List.map_map, List.map_map]
    apply List.map_congr_left
    intro u hu
    simp only [Function.comp_apply, hc u hu]
  · have key : ∀ (L : List (Matrix (Fin 3) (Fin 3) ℤ)) (acc : List ℕ), (∀ u ∈ L, u ∈ U) →
        (L.map (fun u => (hnfNumbers u, C.map (cnt u)))).foldl (fun tot r => List.zipWith (· + ·) tot r.2) acc =
        (L.map hnfNumbers).foldl (fun tot h => List.zipWith (· + ·) tot (C.map (cnt (getFullHNF h)))) acc := by
      intro L
      induction L with
      | nil => intro acc _; rfl
      | cons u L ih =>
        intro acc hL
        simp only [List.map_cons, List.foldl_cons]
        rw [hc u (hL u List.mem_cons_self), ih _ (fun v hv => hL v (List.mem_cons_of_mem _ hv))]
    exact key U _ (fun _ h => h)

/-- the loop over the sizes: one file for each size is added, the other files stay -/
theorem polyaLoop_ok {tol : Tol} {lat : LatticeIn} (t : ℕ → PolyaTable) (l : List ℤ)
    (h : ∀ s ∈ l, polyaSize tol lat s.toNat = (pure (t s.toNat) : Run _)) (hnd : l.Nodup) :
    ∀ d : Dir, (∀ s ∈ l, polyaName s ∉ d.map (·.1)) →
    ∃ d', polyaLoop tol lat "polya.out".toList l d = (pure d' : Run Dir) ∧ d'.map (·.1) = d.map (·.1) ++ l.map polyaName ∧
      (∀ s ∈ l, dictGet d' (polyaName s) = some (writePolya (t s.toNat))) ∧
      ∀ f, f ∉ l.map polyaName → dictGet d' f = dictGet d f := by
  induction l with
  | nil =>
    intro d _
    exact ⟨d, rfl, by simp, by simp, fun _ _ => rfl⟩
  | cons s l ih =>
    intro d hd
    have hs := hd s List.mem_cons_self
    obtain ⟨hsl, hl⟩ := List.nodup_cons.mp hnd
    have hkeys : (dictSet d (polyaName s) (writePolya (t s.toNat))).map (·.1) = d.map (·.1) ++ [polyaName s] := by
      rw [dictSet_new hs, List.map_append]; rfl
    obtain ⟨d', h1, h2, h3, h4⟩ := ih (fun z hz => h z (List.mem_cons_of_mem _ hz)) hl (dictSet d (polyaName s) (writePolya (t s.toNat))) (by
      intro z hz hm
      rw [hkeys, List.mem_append, List.mem_singleton] at hm
      rcases hm with hm | hm
      · exact hd z (List.mem_cons_of_mem _ hz) hm
      · exact hsl (polyaName_inj hm ▸ hz))
    refine ⟨d', ?_, ?_, ?_, ?_⟩
    · unfold polyaLoop
      rw [h s List.mem_cons_self, pure_bind]
      exact h1
    · rw [h2, hkeys, List.map_cons, List.append_assoc]; rfl
    · intro z hz
      rcases List.mem_cons.mp hz with rfl | hz
      · rw [h4 _ (by
          intro hm
          obtain ⟨y, hy, e⟩ := List.mem_map.mp hm
          exact hsl (polyaName_inj e ▸ hy)), dictGet_set, if_pos rfl]
      · exact h3 z hz
    · intro f hf
      rw [List.map_cons, List.mem_cons, not_or] at hf
      rw [h4 f hf.2, dictGet_set, if_neg hf.1]

theorem readTables_ok (d : Dir) (t : ℕ → PolyaTable) (l : List ℤ) (hsz : ∀ s ∈ l, (t s.toNat).size = s.toNat) (hfit : ∀ s ∈ l, (t s.toNat).Fits)
    (hd : ∀ s ∈ l, dictGet d (polyaName s) = some (writePolya (t s.toNat))) :
    readTables d "polya.out".toList l = .ok (l.map (fun s => t s.toNat)) := by
  induction l with
  | nil => rfl
  | cons s l ih =>
    unfold readTables
    have e := hd s List.mem_cons_self
    rw [show "polya.out".toList ++ '.' :: intStr s = polyaName s from rfl, e]
    simp only
    have hr := C49_polya_out_round_trip (hfit s List.mem_cons_self)
    rw [hsz s List.mem_cons_self] at hr
    rw [hr, ih (fun z hz => hsz z (List.mem_cons_of_mem _ hz)) (fun z hz => hfit z (List.mem_cons_of_mem _ hz)) (fun z hz => hd z (List.mem_cons_of_mem _ hz))]
    rfl

/-! ## enum.in -/

theorem available_types {L : List (ℕ × HNF6 × Conc × ℕ)} (hn : (L.map (typeOf .all)).Nodup) {e0 : ℕ × HNF6 × Conc × ℕ} (hm : e0 ∈ L) :
    available .all L (typeOf .all e0) = e0.2.2.2 := by
  have h0 : L.Nodup := hn.of_map
  have hinj : ∀ x ∈ L, typeOf .all x = typeOf .all e0 → x = e0 := fun x hx h => List.inj_on_of_nodup_map hn hx hm h
  unfold available
  have : L.map (fun e => if typeOf .all e = typeOf .all e0 then e.2.2.2 else 0) = L.map (fun e => if e0 = e then e.2.2.2 else 0) := by
    apply List.map_congr_left
    intro x hx
    by_cases h : e0 = x
    · subst h; simp
    · rw [if_neg h, if_neg (fun e => h (hinj x hx e).symm)]
  rw [this, sum_single h0 hm (fun e => e.2.2.2)]

/-- the systems of enum.in for a full distribution: each supercell and concentration that has structures, once -/
theorem systems_ok (l : List ℤ) (hl : l.Nodup) (hpos : ∀ s ∈ l, 1 ≤ s) (U : ℕ → List (Matrix (Fin 3) (Fin 3) ℤ)) (C : ℕ → List Conc)
    (cnt : ℕ → Matrix (Fin 3) (Fin 3) ℤ → Conc → ℕ) (hU : ∀ s ∈ l, (U s.toNat).Nodup ∧ ∀ u ∈ U s.toNat, u ∈ findAllHNFs s.toNat)
    (k : ℕ) (hC : ∀ s ∈ l, (C s.toNat).Nodup ∧ ∀ c ∈ C s.toNat, c.length = k) (draws : ℕ → ℚ) :
    ∃ K : List (ℕ × Matrix (Fin 3) (Fin 3) ℤ × Conc), K.Nodup ∧
      (∀ n u c, (n, u, c) ∈ K ↔ (n : ℤ) ∈ l ∧ u ∈ U n ∧ c ∈ C n ∧ 0 < cnt n u c) ∧
      readEnum (printDist .all (distribute (l.map (fun s => countTable s.toNat (U s.toNat) (C s.toNat) (cnt s.toNat))) .none .all none draws)) =
        .ok (K.map (fun x => (hnfNumbers x.2.1, x.2.2.map (fun c : ℕ => (c : ℤ)), (cnt x.1 x.2.1 x.2.2 : ℤ)))) := by
  set T : ℕ → PolyaTable := fun s => countTable s (U s) (C s) (cnt s) with hT
  set tables := l.map (fun s => T s.toNat) with htables
  have hs1 : ∀ s ∈ l, 1 ≤ s.toNat := fun s hs => by have := hpos s hs; omega
  have hcast : ∀ s ∈ l, ((s.toNat : ℕ) : ℤ) = s := fun s hs => by have := hpos s hs; omega
  have hnumInj : ∀ s ∈ l, ∀ u ∈ U s.toNat, ∀ v ∈ U s.toNat, hnfNumbers u = hnfNumbers v → u = v := by
    intro s hs u hu v hv h
    rw [← (hnf_numbers_full (hs1 s hs) ((hU s hs).2 u hu)).1, h, (hnf_numbers_full (hs1 s hs) ((hU s hs).2 v hv)).1]
  have hwt : ∀ s ∈ l, TableOk (T s.toNat) ∧ ∀ h c v, (s.toNat, h, c, v) ∈ tableEntries .none (T s.toNat) ↔
      h ∈ (U s.toNat).map hnfNumbers ∧ c ∈ C s.toNat ∧ v = cnt s.toNat (getFullHNF h) c := by
    intro s hs
    exact C33_written_table s.toNat ((U s.toNat).map hnfNumbers) (C s.toNat) _
      ((hU s hs).1.map_on (fun u hu v hv => hnumInj s hs u hu v hv)) (hC s hs).1
  have hok : ∀ t ∈ tables, TableOk t := by
    intro t ht
    obtain ⟨s, hs, rfl⟩ := List.mem_map.mp ht
    exact (hwt s hs).1
  have hsize : ∀ n, (T n).size = n := fun n => rfl
  have hnatnd : (l.map Int.toNat).Nodup := hl.map_on (fun a ha b hb h => by rw [← hcast a ha, ← hcast b hb, h])
  have hsz : (tables.map (·.size)).Nodup := by
    rw [htables, List.map_map]
    exact hnatnd
  -- the entries
  have hent : ∀ e, e ∈ entries .none tables ↔ (e.1 : ℤ) ∈ l ∧ e.2.1 ∈ (U e.1).map hnfNumbers ∧ e.2.2.1 ∈ C e.1 ∧
      e.2.2.2 = cnt e.1 (getFullHNF e.2.1) e.2.2.1 := by
    rintro ⟨n, h, c, v⟩
    unfold entries
    rw [List.mem_flatMap]
    constructor
    · rintro ⟨t, ht, he⟩
      obtain ⟨s, hs, rfl⟩ := List.mem_map.mp ht
      have hn : n = s.toNat := entries_size (hwt s hs).1 _ he
      subst hn
      have := ((hwt s hs).2 h c v).mp he
      exact ⟨by simp only; rw [hcast s hs]; exact hs, this⟩
    · rintro ⟨h1, h2⟩
      simp only at h1 h2
      refine ⟨T n, List.mem_map.mpr ⟨(n : ℤ), h1, by simp⟩, ?_⟩
      have := (hwt _ h1).2 h c v
      simp only [Int.toNat_natCast] at this
      exact this.mpr h2
  have htypes : ((entries .none tables).map (typeOf .all)).Nodup := by
    unfold entries
    rw [List.map_flatMap, List.nodup_flatMap]
    refine ⟨fun t ht => tableEntries_types (hok t ht) _, ?_⟩
    rw [List.Nodup, List.pairwise_map] at hsz
    refine List.Pairwise.imp_of_mem ?_ hsz
    intro a b ha hb hab
    rw [Function.onFun, List.disjoint_left]
    intro x hx hy
    obtain ⟨e, he, rfl⟩ := List.mem_map.mp hx
    obtain ⟨e', he', h⟩ := List.mem_map.mp hy
    have h1 := entries_size (hok a ha) _ he
    have h2 := entries_size (hok b hb) _ he'
    have h3 : (typeOf .all e').1 = (typeOf .all e).1 := by rw [h]
    change e'.1 = e.1 at h3
    exact hab (by rw [← h1, ← h2, h3])
  obtain ⟨d1, d2, -⟩ := C33_full_distribution tables .none .all draws hok hsz (by intro h; cases h)
  set D := distribute tables .none .all none draws with hD
  have hkey : ∀ p ∈ D, ∃ n u c, p = ((n, some (hnfNumbers u), some c), cnt n u c) ∧ (n : ℤ) ∈ l ∧ u ∈ U n ∧ c ∈ C n ∧ 0 < cnt n u c := by
    rintro ⟨key, v⟩ hp
    obtain ⟨hv, h0⟩ := (d2 key v).mp hp
    obtain ⟨e, he, hk, -⟩ := available_pos (hv ▸ h0)
    obtain ⟨h1, h2, h3, h4⟩ := (hent e).mp he
    obtain ⟨u, hu, hu'⟩ := List.mem_map.mp h2
    have hval : v = e.2.2.2 := by rw [hv, ← hk, available_types htypes he]
    have hfull : getFullHNF e.2.1 = u := by
      rw [← hu']
      have := hs1 _ h1
      have h := (hU _ h1).2
      simp only [Int.toNat_natCast] at this h
      exact (hnf_numbers_full this (h u hu)).1
    rw [hfull] at h4
    refine ⟨e.1, u, e.2.2.1, ?_, h1, hu, h3, ?_⟩
    · rw [← hk, hval, h4, hu']; rfl
    · rw [← h4, ← hval]; exact h0
  have hfull : ∀ n : ℕ, (n : ℤ) ∈ l → ∀ u ∈ U n, getFullHNF (hnfNumbers u) = u ∧ (hnfNumbers u).length = 6 := by
    intro n hn u hu
    have := hs1 _ hn
    have h := (hU _ hn).2
    simp only [Int.toNat_natCast] at this h
    exact hnf_numbers_full this (h u hu)
  refine ⟨D.map (fun p => (p.1.1, getFullHNF (p.1.2.1.getD []), p.1.2.2.getD [])), ?_, ?_, ?_⟩
  · have hDn : D.Nodup := d1.of_map
    apply hDn.map_on
    intro p hp q hq h
    obtain ⟨n, u, c, rfl, hn, hu, -, -⟩ := hkey p hp
    obtain ⟨n', u', c', rfl, hn', hu', -, -⟩ := hkey q hq
    simp only [Option.getD_some, Prod.mk.injEq] at h
    rw [(hfull n hn u hu).1, (hfull n' hn' u' hu').1] at h
    obtain ⟨rfl, rfl, rfl⟩ := h
    rfl
  · intro n u c
    rw [List.mem_map]
    constructor
    · rintro ⟨p, hp, h⟩
      obtain ⟨n', u', c', rfl, hn, hu, hc, h0⟩ := hkey p hp
      simp only [Option.getD_some, Prod.mk.injEq] at h
      rw [(hfull n' hn u' hu).1] at h
      obtain ⟨rfl, rfl, rfl⟩ := h
      exact ⟨hn, hu, hc, h0⟩
    · rintro ⟨hn, hu, hc, h0⟩
      refine ⟨((n, some (hnfNumbers u), some c), cnt n u c), (d2 _ _).mpr ⟨?_, h0⟩, ?_⟩
      · have he : (n, hnfNumbers u, c, cnt n u c) ∈ entries .none tables := by
          refine (hent _).mpr ⟨hn, List.mem_map_of_mem hu, hc, ?_⟩
          simp only
          rw [(hfull n hn u hu).1]
        exact (available_types htypes he).symm
      · simp only [Option.getD_some]
        rw [(hfull n hn u hu).1]
  · show readEnum (printAll (D.map (fun p => ((p.1.1, p.1.2.1.getD [], p.1.2.2.getD []), p.2)))) = _
    rw [C30_enum_in_round_trip _ k]
    · rw [List.map_map, List.map_map]
      congr 1
      apply List.map_congr_left
      intro p hp
      obtain ⟨n, u, c, rfl, hn, hu, -, -⟩ := hkey p hp
      simp only [Function.comp_apply, Option.getD_some]
      rw [(hfull n hn u hu).1]
    · intro q hq
      obtain ⟨p, hp, rfl⟩ := List.mem_map.mp hq
      obtain ⟨n, u, c, rfl, hn, hu, -, -⟩ := hkey p hp
      exact (hfull n hn u hu).2
    · intro q hq
      obtain ⟨p, hp, rfl⟩ := List.mem_map.mp hq
      obtain ⟨n, u, c, rfl, hn, hu, hc, -⟩ := hkey p hp
      have := (hC _ hn).2
      simp only [Int.toNat_natCast] at this
      exact this c hc

/-! ## enum.out -/

/-- the loop over the systems: the results one after the other -/
theorem enumLoop_ok {w : World} {tol : Tol} {lat : LatticeIn} {supers accept : Bool} {α : Type} (sysOf : α → List ℤ × List ℤ × ℤ)
    (Q : α → List EnumEntry → Prop) (K : List α)
    (h : ∀ x ∈ K, ∀ i, ∃ E, enumSystem tol lat supers accept (w.rnd i) (sysOf x) = (pure E : Run _) ∧ Q x E) (i : ℕ) :
    ∃ Es, enumLoop w tol lat supers accept i (K.map sysOf) = (pure Es.flatten : Run _) ∧ List.Forall₂ Q K Es := by
  induction K generalizing i with
  | nil => exact ⟨[], rfl, List.Forall₂.nil⟩
  | cons x K ih =>
    obtain ⟨E, hE, hQ⟩ := h x List.mem_cons_self i
    obtain ⟨Es, hEs, hF⟩ := ih (fun y hy => h y (List.mem_cons_of_mem _ hy)) (i + 1)
    refine ⟨E :: Es, ?_, List.Forall₂.cons hQ hF⟩
    rw [List.map_cons]
    unfold enumLoop
    rw [hE, pure_bind, hEs, pure_bind]
    rfl

/-! ## the program -/

/-- A working directory in which nothing has been computed: the file `lattice` has the contents `text`, there is no
enum.in, and no name begins with `p` and contains `polya.out`. -/
structure FreshDir (lattice text : Str) (d : Dir) : Prop where
  text : dictGet d lattice = some text
  noPolya : ∀ f ∈ d.map (·.1), ¬ PolyaLike f
  noEnumIn : dictGet d "enum.in".toList = none

/-- `enumeration.py -enum -lattice lattice`, with or without `-super`. -/
structure PlainCall (a : Args) (lattice : Str) (supers : Bool) : Prop where
  polya : a.polya = false
  enum : a.enum = true
  lattice : a.lattice = lattice
  input : a.input = none
  outfile : a.outfile = none
  distribution : a.distribution = none
  sizes : a.sizes = none
  super : a.super = supers
  accept : a.accept = none
  filter : a.filter = none

theorem pyRange_sizes (lo hi : ℕ) : pyRange lo ((hi : ℤ) + 1) = (List.range' lo (hi + 1 - lo)).map (fun n : ℕ => (n : ℤ)) := by
  unfold pyRange
  have e : ((hi : ℤ) + 1 - lo).toNat = hi + 1 - lo := by omega
  rw [e]
  apply List.ext_getElem
  · simp
  · intro i h1 h2
    simp

theorem like_of_numbered {d : Dir} (h : ∀ f ∈ d.map (·.1), ¬ PolyaLike f) : anyNumbered d "polya.out".toList = false := by
  unfold anyNumbered
  rw [List.any_eq_false]
  intro p hp hd
  rw [decide_eq_true_eq] at hd
  apply h p.1 (List.mem_map_of_mem hp)
  obtain ⟨r, hr⟩ := hd
  refine ⟨⟨[], '.' :: r, ?_⟩, ?_⟩
  · rw [List.nil_append, ← hr, List.append_assoc]; rfl
  · rw [← hr, show "polya.out".toList = 'p' :: "olya.out".toList from by decide]
    rfl

theorem enumIn_not_like : ¬ PolyaLike "enum.in".toList := by
  rintro ⟨-, h⟩
  revert h; decide

theorem enumOut_not_like : ¬ PolyaLike "enum.out".toList := by
  rintro ⟨-, h⟩
  revert h; decide

/-- the systems written to enum.in -/
def sysOfKey (cnt : ℕ → Matrix (Fin 3) (Fin 3) ℤ → Conc → ℕ) (x : ℕ × Matrix (Fin 3) (Fin 3) ℤ × Conc) : List ℤ × List ℤ × ℤ :=
  (hnfNumbers x.2.1, x.2.2.map (fun c : ℕ => (c : ℤ)), (cnt x.1 x.2.1 x.2.2 : ℤ))

/-- the tables written to the directory and found there again -/
theorem program_tables {w : World} (hw : ∀ l, (w.listdir l).Perm l) {tol : Tol} {lattice text : Str}
    {d : Dir} (hd : FreshDir lattice text d) {lat : LatticeIn} (hlat : readLattice text = .ok lat) {P0 : Matrix (Fin 3) (Fin 3) ℚ} {b0 : List (Fin 3 → ℚ)}
    (hgeo : lat.geometry = .ok (P0, b0)) {lo hi : ℕ} (hlo : 1 ≤ lo) (hhi : lo ≤ hi) {rest : List ℤ} (hsizes : lat.sizes = (lo : ℤ) :: (hi : ℤ) :: rest)
    (U : ℕ → List (Matrix (Fin 3) (Fin 3) ℤ)) (C : ℕ → List Conc) (G : ℕ → Matrix (Fin 3) (Fin 3) ℤ → List Op) (cnt : ℕ → Matrix (Fin 3) (Fin 3) ℤ → Conc → ℕ)
    (hc : ∀ n, lo ≤ n → n ≤ hi → Counted tol lat P0 b0 n (U n) (C n) (G n) (cnt n))
    (hne : ∀ n u c, lo ≤ n → n ≤ hi → u ∈ U n → c ∈ C n → ∃ n u c, lo ≤ n ∧ n ≤ hi ∧ u ∈ U n ∧ c ∈ C n ∧ 0 < cnt n u c)
    (hfit : ∀ n, lo ≤ n → n ≤ hi → (countTable n (U n) (C n) (cnt n)).Fits) :
    ∃ (l' : List ℤ) (d1 : Dir), l'.Nodup ∧ (∀ s, s ∈ l' ↔ ∃ n : ℕ, s = n ∧ lo ≤ n ∧ n ≤ hi) ∧
      polyaOut tol lattice "polya.out".toList d = (pure d1 : Run _) ∧ anyNumbered d1 "polya.out".toList = true ∧
      (∀ number save, makeEnumIn w "polya.out".toList "all".toList "enum.in".toList number none save none d1 = .ok (dictSet d1 "enum.in".toList
        (printDist .all (distribute (l'.map (fun s => countTable s.toNat (U s.toNat) (C s.toNat) (cnt s.toNat))) .none .all (number.map Int.toNat) w.draws)))) ∧
      (sizesUsed w d1 "polya.out".toList none = .ok l' ∧
        readTables d1 "polya.out".toList l' = .ok (l'.map (fun s => countTable s.toNat (U s.toNat) (C s.toNat) (cnt s.toNat))) ∧
        ((distSummary (l'.map (fun s => countTable s.toNat (U s.toNat) (C s.toNat) (cnt s.toNat))) .none).2 = 0 →
          relKeys (distSummary (l'.map (fun s => countTable s.toNat (U s.toNat) (C s.toNat) (cnt s.toNat))) .none).1 .all = [])) ∧
      (∀ n, lo ≤ n → n ≤ hi → dictGet d1 (polyaName n) = some (writePolya (countTable n (U n) (C n) (cnt n)))) ∧
      ∀ f, (∀ n, lo ≤ n → n ≤ hi → f ≠ polyaName n) → dictGet d1 f = dictGet d f := by
  classical
  set T : ℕ → PolyaTable := fun n => countTable n (U n) (C n) (cnt n) with hT
  set l : List ℤ := pyRange lo ((hi : ℤ) + 1) with hl
  have hmem : ∀ s, s ∈ l ↔ ∃ n : ℕ, s = n ∧ lo ≤ n ∧ n ≤ hi := by
    intro s
    rw [hl, pyRange_sizes, List.mem_map]
    constructor
    · rintro ⟨n, hn, rfl⟩
      rw [List.mem_range'_1] at hn
      exact ⟨n, rfl, by omega, by omega⟩
    · rintro ⟨n, rfl, h1, h2⟩
      exact ⟨n, by rw [List.mem_range'_1]; omega, rfl⟩
  have hlnd : l.Nodup := by
    rw [hl, pyRange_sizes]
    exact List.Nodup.map Nat.cast_injective List.nodup_range'
  have hloop := polyaLoop_ok (tol := tol) (lat := lat) T l (by
    intro s hs
    obtain ⟨n, rfl, h1, h2⟩ := (hmem s).mp hs
    rw [Int.toNat_natCast]
    exact polyaSize_ok (by omega) hgeo (hc n h1 h2)) hlnd d (by
    intro s _ hm
    exact hd.noPolya _ hm (polyaName_like s))
  obtain ⟨d1, hd1, hd1k, hd1t, hd1o⟩ := hloop
  have hpolya : polyaOut tol lattice "polya.out".toList d = (pure d1 : Run _) := by
    unfold polyaOut readFile
    rw [hd.text]
    have e1 : (do let s ← (Except.ok text : Py Str); readLattice s) = .ok lat := hlat
    rw [e1, runPy_ok, pure_bind, hsizes, show pyGet ((lo : ℤ) :: (hi : ℤ) :: rest) 0 = .ok (lo : ℤ) from rfl,
      show pyGet ((lo : ℤ) :: (hi : ℤ) :: rest) 1 = .ok (hi : ℤ) from rfl]
    simp only [runPy_ok, pure_bind]
    exact hd1
  have hlattice : ∀ f, ¬ PolyaLike f → dictGet d1 f = dictGet d f := by
    intro f hf
    apply hd1o
    intro hm
    obtain ⟨s, -, rfl⟩ := List.mem_map.mp hm
    exact hf (polyaName_like s)
  -- enum.in
  obtain ⟨l', hl', hfound⟩ := sizesFound_eq (names := w.listdir (d1.map (·.1))) (l := l) (by
      have hp : (w.listdir (d1.map (·.1))).Perm (d.map (·.1) ++ l.map polyaName) := by rw [← hd1k]; exact hw _
      have hp2 := hp.filter (fun f => ! decide (f ∈ l.map polyaName))
      rw [List.filter_append] at hp2
      have e1 : (l.map polyaName).filter (fun f => ! decide (f ∈ l.map polyaName)) = [] := by
        rw [List.filter_eq_nil_iff]
        intro f hf
        simp [hf]
      have e2 : (d.map (·.1)).filter (fun f => ! decide (f ∈ l.map polyaName)) = d.map (·.1) := by
        rw [List.filter_eq_self]
        intro f hf
        have : f ∉ l.map polyaName := by
          intro hm
          obtain ⟨s, -, rfl⟩ := List.mem_map.mp hm
          exact hd.noPolya _ hf (polyaName_like s)
        simp [this]
      rw [e1, e2, List.append_nil] at hp2
      exact (hp.trans List.perm_append_comm).trans ((List.Perm.refl _).append hp2.symm)) (by
      intro f hf hn
      have := (hw _).mem_iff.mp hf
      rw [hd1k, List.mem_append] at this
      rcases this with h | h
      · exact hd.noPolya f h
      · exact absurd h hn)
  have hl'ne : l' ≠ [] := by
    rintro rfl
    have : (lo : ℤ) ∈ ([] : List ℤ) := hl'.mem_iff.mpr ((hmem lo).mpr ⟨lo, rfl, le_refl _, hhi⟩)
    simp at this
  have hmem' : ∀ s, s ∈ l' ↔ ∃ n : ℕ, s = n ∧ lo ≤ n ∧ n ≤ hi := fun s => (hl'.mem_iff).trans (hmem s)
  have htab : readTables d1 "polya.out".toList l' = .ok (l'.map (fun s => T s.toNat)) := by
    apply readTables_ok
    · intro s _; rfl
    · intro s hs
      obtain ⟨n, rfl, h1, h2⟩ := (hmem' s).mp hs
      exact hfit n h1 h2
    · intro s hs
      exact hd1t s (hl'.mem_iff.mp hs)
  have hwt : ∀ s ∈ l', TableOk (T s.toNat) ∧ ∀ h c v, (s.toNat, h, c, v) ∈ tableEntries .none (T s.toNat) ↔
      h ∈ (U s.toNat).map hnfNumbers ∧ c ∈ C s.toNat ∧ v = cnt s.toNat (getFullHNF h) c := by
    intro s hs
    obtain ⟨n, rfl, h1, h2⟩ := (hmem' s).mp hs
    rw [Int.toNat_natCast]
    exact C33_written_table n ((U n).map hnfNumbers) (C n) _
      ((hc n h1 h2).hnfNodup.map_on (fun u hu v hv h => by
        rw [← (hnf_numbers_full (by omega) ((hc n h1 h2).hnfMem u hu)).1, h, (hnf_numbers_full (by omega) ((hc n h1 h2).hnfMem v hv)).1]))
      (hc n h1 h2).concNodup
  have hpy : ∀ k, distributePy (l'.map (fun s => T s.toNat)) .none .all k w.draws = .ok (distribute (l'.map (fun s => T s.toNat)) .none .all k w.draws) := by
    intro k
    have hin : ∀ n u c, lo ≤ n → n ≤ hi → u ∈ U n → c ∈ C n → (n, hnfNumbers u, c, cnt n u c) ∈ entries .none (l'.map (fun s => T s.toNat)) := by
      intro n u c h1 h2 hu hcc
      have hs := (hmem' n).mpr ⟨n, rfl, h1, h2⟩
      unfold entries
      refine List.mem_flatMap.mpr ⟨T n, List.mem_map.mpr ⟨(n : ℤ), hs, by simp⟩, ?_⟩
      have := (hwt _ hs).2 (hnfNumbers u) c (cnt n u c)
      simp only [Int.toNat_natCast] at this
      exact this.mpr ⟨List.mem_map_of_mem hu, hcc, by rw [(hnf_numbers_full (by omega) ((hc n h1 h2).hnfMem u hu)).1]⟩
    refine distributePy_ok _ .none ?_ ?_ ?_ k w.draws
    · intro t ht
      obtain ⟨s, hs, rfl⟩ := List.mem_map.mp ht
      exact (hwt s hs).1
    · rw [List.map_map]
      refine (hl'.nodup_iff.mpr hlnd).map_on ?_
      intro a ha b hb h
      obtain ⟨x, rfl, -⟩ := (hmem' a).mp ha
      obtain ⟨y, rfl, -⟩ := (hmem' b).mp hb
      have h' : ((x : ℕ) : ℤ).toNat = ((y : ℕ) : ℤ).toNat := h
      simp only [Int.toNat_natCast] at h'
      rw [h']
    · rintro ⟨n0, g, c, v⟩ he
      unfold entries at he
      obtain ⟨t, ht, he⟩ := List.mem_flatMap.mp he
      obtain ⟨s, hs, rfl⟩ := List.mem_map.mp ht
      obtain rfl : n0 = s.toNat := entries_size (hwt s hs).1 _ he
      obtain ⟨hg, hcc, -⟩ := ((hwt s hs).2 g c v).mp he
      obtain ⟨u, hu, -⟩ := List.mem_map.mp hg
      obtain ⟨x, rfl, h1, h2⟩ := (hmem' s).mp hs
      simp only [Int.toNat_natCast] at hu hcc
      obtain ⟨n, u, c, b1, b2, b3, b4, b5⟩ := hne x u c h1 h2 hu hcc
      exact ⟨_, hin n u c b1 b2 b3 b4, b5⟩
  have hmake : ∀ number save, makeEnumIn w "polya.out".toList "all".toList "enum.in".toList number none save none d1 =
      .ok (dictSet d1 "enum.in".toList (printDist .all (distribute (l'.map (fun s => T s.toNat)) .none .all (number.map Int.toNat) w.draws))) := by
    intro number save
    unfold makeEnumIn sizesUsed
    simp only [hfound, bind, Except.bind, if_neg hl'ne, htab]
    rw [show ftypeOf "all".toList = .ok .all from rfl, show readRestrict d1 none = .ok .none from rfl]
    simp only [hpy, true_or, if_true]
  have hany : anyNumbered d1 "polya.out".toList = true := by
    unfold anyNumbered
    rw [List.any_eq_true]
    have : polyaName lo ∈ d1.map (·.1) := by
      rw [hd1k, List.mem_append]
      exact Or.inr (List.mem_map_of_mem ((hmem lo).mpr ⟨lo, rfl, le_refl _, hhi⟩))
    obtain ⟨p, hp, hpn⟩ := List.mem_map.mp this
    refine ⟨p, hp, ?_⟩
    rw [decide_eq_true_eq, hpn]
    exact ⟨intStr lo, by unfold polyaName; rw [List.append_assoc]; rfl⟩
  refine ⟨l', d1, hl'.nodup_iff.mpr hlnd, hmem', hpolya, hany, hmake, ⟨?_, htab, ?_⟩, ?_, ?_⟩
  · unfold sizesUsed
    simp only [hfound, bind, Except.bind, if_neg hl'ne]
  · intro h0
    by_contra hne0
    have := hpy none
    unfold distributePy at this
    rw [if_pos ⟨h0, hne0⟩] at this
    cases this
  · intro n h1 h2
    rw [hd1t n ((hmem n).mpr ⟨n, rfl, h1, h2⟩), Int.toNat_natCast]
  · intro f h3
    apply hd1o
    intro hm
    obtain ⟨s, hs, rfl⟩ := List.mem_map.mp hm
    obtain ⟨n, rfl, h4, h5⟩ := (hmem s).mp hs
    exact h3 n h4 h5 rfl

/-- the run up to the reading of enum.in -/
theorem program_in {w : World} (hw : ∀ l, (w.listdir l).Perm l) {tol : Tol} {a : Args} {lattice text : Str} {supers : Bool} (ha : PlainCall a lattice supers)
    {d : Dir} (hd : FreshDir lattice text d) {lat : LatticeIn} (hlat : readLattice text = .ok lat) {P0 : Matrix (Fin 3) (Fin 3) ℚ} {b0 : List (Fin 3 → ℚ)}
    (hgeo : lat.geometry = .ok (P0, b0)) {lo hi : ℕ} (hlo : 1 ≤ lo) (hhi : lo ≤ hi) {rest : List ℤ} (hsizes : lat.sizes = (lo : ℤ) :: (hi : ℤ) :: rest)
    (U : ℕ → List (Matrix (Fin 3) (Fin 3) ℤ)) (C : ℕ → List Conc) (G : ℕ → Matrix (Fin 3) (Fin 3) ℤ → List Op) (cnt : ℕ → Matrix (Fin 3) (Fin 3) ℤ → Conc → ℕ)
    (hc : ∀ n, lo ≤ n → n ≤ hi → Counted tol lat P0 b0 n (U n) (C n) (G n) (cnt n))
    (hne : ∀ n u c, lo ≤ n → n ≤ hi → u ∈ U n → c ∈ C n → ∃ n u c, lo ≤ n ∧ n ≤ hi ∧ u ∈ U n ∧ c ∈ C n ∧ 0 < cnt n u c)
    (hfit : ∀ n, lo ≤ n → n ≤ hi → (countTable n (U n) (C n) (cnt n)).Fits)
    (k : ℕ) (hk : ∀ n, lo ≤ n → n ≤ hi → ∀ c ∈ C n, c.length = k)
    :
    ∃ (K : List (ℕ × Matrix (Fin 3) (Fin 3) ℤ × Conc)) (d1 : Dir) (s : Str),
      polyaOut tol lattice "polya.out".toList d = (pure d1 : Run _) ∧ anyNumbered d1 "polya.out".toList = true ∧
      enumIn w tol a "polya.out".toList "enum.in".toList ["all".toList, "all".toList] d1 = (pure (dictSet d1 "enum.in".toList s) : Run _) ∧
      readEnum s = .ok (K.map (sysOfKey cnt)) ∧
      K.Nodup ∧ (∀ n u c, (n, u, c) ∈ K ↔ lo ≤ n ∧ n ≤ hi ∧ u ∈ U n ∧ c ∈ C n ∧ 0 < cnt n u c) ∧
      (∀ n, lo ≤ n → n ≤ hi → dictGet d1 (polyaName n) = some (writePolya (countTable n (U n) (C n) (cnt n)))) ∧
      ∀ f, (∀ n, lo ≤ n → n ≤ hi → f ≠ polyaName n) → dictGet d1 f = dictGet d f := by
  obtain ⟨l', d1, hnd', hmem', hpolya, hany, hmake, -, hd1t, hd1o⟩ := program_tables hw hd hlat hgeo hlo hhi hsizes U C G cnt hc hne hfit
  obtain ⟨K, hKnd, hKmem, hread⟩ := systems_ok l' hnd' (by
      intro s hs
      obtain ⟨n, rfl, h1, -⟩ := (hmem' s).mp hs
      omega) U C cnt (by
      intro s hs
      obtain ⟨n, rfl, h1, h2⟩ := (hmem' s).mp hs
      exact ⟨(hc n h1 h2).hnfNodup, (hc n h1 h2).hnfMem⟩) k (by
      intro s hs
      obtain ⟨n, rfl, h1, h2⟩ := (hmem' s).mp hs
      exact ⟨(hc n h1 h2).concNodup, hk n h1 h2⟩) w.draws
  have hKmem' : ∀ n u c, (n, u, c) ∈ K ↔ lo ≤ n ∧ n ≤ hi ∧ u ∈ U n ∧ c ∈ C n ∧ 0 < cnt n u c := by
    intro n u c
    rw [hKmem, hmem']
    constructor
    · rintro ⟨⟨m, e, h1, h2⟩, h⟩
      have : n = m := by exact_mod_cast e
      subst this
      exact ⟨h1, h2, h⟩
    · rintro ⟨h1, h2, h⟩
      exact ⟨⟨n, rfl, h1, h2⟩, h⟩
  have henumIn : enumIn w tol a "polya.out".toList "enum.in".toList ["all".toList, "all".toList] d1 = (pure (dictSet d1 "enum.in".toList
      (printDist .all (distribute (l'.map (fun s => countTable s.toNat (U s.toNat) (C s.toNat) (cnt s.toNat))) .none .all none w.draws))) : Run _) := by
    unfold enumIn
    rw [hany]
    simp only [if_true, pure_bind]
    rw [show pyGet ["all".toList, "all".toList] 0 = .ok "all".toList from rfl, show pyGet ["all".toList, "all".toList] 1 = .ok "all".toList from rfl]
    simp only [runPy_ok, pure_bind]
    rw [if_pos (show lowerStr "all".toList = "all".toList by decide), runPy_ok, pure_bind, ha.sizes, ha.filter, Option.map_none,
      show lowerStr "all".toList = "all".toList by decide, hmake, runPy_ok]
    rfl
  exact ⟨K, d1, _, hpolya, hany, henumIn, hread, hKnd, hKmem', hd1t, hd1o⟩

theorem plain_names {a : Args} {lattice : Str} {supers : Bool} (ha : PlainCall a lattice supers) :
    fileNames a = (some "enum.in".toList, some "enum.out".toList) := by
  unfold fileNames
  simp [ha.polya, ha.enum, ha.input, ha.outfile, ha.distribution]

theorem plain_check {a : Args} {lattice : Str} {supers : Bool} (ha : PlainCall a lattice supers) (d : Dir) : checkArgs a d = .ok () := by
  unfold checkArgs
  simp [ha.polya, ha.accept, ha.distribution]

/-- the files written by a run -/
theorem program_ok {w : World} (hw : ∀ l, (w.listdir l).Perm l) {tol : Tol} {a : Args} {lattice text : Str} {supers : Bool} (ha : PlainCall a lattice supers)
    {d : Dir} (hd : FreshDir lattice text d) {lat : LatticeIn} (hlat : readLattice text = .ok lat) {P0 : Matrix (Fin 3) (Fin 3) ℚ} {b0 : List (Fin 3 → ℚ)}
    (hgeo : lat.geometry = .ok (P0, b0)) {lo hi : ℕ} (hlo : 1 ≤ lo) (hhi : lo ≤ hi) {rest : List ℤ} (hsizes : lat.sizes = (lo : ℤ) :: (hi : ℤ) :: rest)
    (U : ℕ → List (Matrix (Fin 3) (Fin 3) ℤ)) (C : ℕ → List Conc) (G : ℕ → Matrix (Fin 3) (Fin 3) ℤ → List Op) (cnt : ℕ → Matrix (Fin 3) (Fin 3) ℤ → Conc → ℕ)
    (hc : ∀ n, lo ≤ n → n ≤ hi → Counted tol lat P0 b0 n (U n) (C n) (G n) (cnt n))
    (hfit : ∀ n, lo ≤ n → n ≤ hi → (countTable n (U n) (C n) (cnt n)).Fits)
    (k : ℕ) (hk : ∀ n, lo ≤ n → n ≤ hi → ∀ c ∈ C n, c.length = k)
    (hne : ∃ n u c, lo ≤ n ∧ n ≤ hi ∧ u ∈ U n ∧ c ∈ C n ∧ 0 < cnt n u c)
    (Q : ℕ × Matrix (Fin 3) (Fin 3) ℤ × Conc → List EnumEntry → Prop)
    (hQ : ∀ n u c, lo ≤ n → n ≤ hi → u ∈ U n → c ∈ C n → 0 < cnt n u c → ∀ i, ∃ E, enumSystem tol lat supers false (w.rnd i)
        (hnfNumbers u, c.map (fun c : ℕ => (c : ℤ)), (cnt n u c : ℤ)) = (pure E : Run _) ∧ Q (n, u, c) E) :
    ∃ (K : List (ℕ × Matrix (Fin 3) (Fin 3) ℤ × Conc)) (Es : List (List EnumEntry)) (d' : Dir),
      scriptEnum w tol a d = (pure d' : Run _) ∧
      K.Nodup ∧ (∀ n u c, (n, u, c) ∈ K ↔ lo ≤ n ∧ n ≤ hi ∧ u ∈ U n ∧ c ∈ C n ∧ 0 < cnt n u c) ∧ List.Forall₂ Q K Es ∧
      dictGet d' "enum.out".toList = some (enumOutFile (lat.enumParams (P0, b0)) w.now Es.flatten) ∧
      (∀ n, lo ≤ n → n ≤ hi → dictGet d' (polyaName n) = some (writePolya (countTable n (U n) (C n) (cnt n)))) ∧
      (∃ s, dictGet d' "enum.in".toList = some s ∧ readEnum s = .ok (K.map (fun x => (hnfNumbers x.2.1, x.2.2.map (fun c : ℕ => (c : ℤ)), (cnt x.1 x.2.1 x.2.2 : ℤ))))) ∧
      ∀ f, f ≠ "enum.out".toList → f ≠ "enum.in".toList → (∀ n, lo ≤ n → n ≤ hi → f ≠ polyaName n) → dictGet d' f = dictGet d f := by
  obtain ⟨K, d1, s, hpolya, -, henumIn, hread, hKnd, hKmem', hd1t, hd1o⟩ := program_in hw ha hd hlat hgeo hlo hhi hsizes U C G cnt hc (fun _ _ _ _ _ _ _ => hne) hfit k hk
  unfold sysOfKey at hread
  set d2 : Dir := dictSet d1 "enum.in".toList s with hd2
  obtain ⟨Es, hEs, hF⟩ := enumLoop_ok (w := w) (tol := tol) (lat := lat) (supers := supers) (accept := false)
    (fun x : ℕ × Matrix (Fin 3) (Fin 3) ℤ × Conc => (hnfNumbers x.2.1, x.2.2.map (fun c : ℕ => (c : ℤ)), (cnt x.1 x.2.1 x.2.2 : ℤ))) Q K (by
      rintro ⟨n, u, c⟩ hx i
      obtain ⟨h1, h2, h3, h4, h5⟩ := (hKmem' n u c).mp hx
      exact hQ n u c h1 h2 h3 h4 h5 i) 0
  have hKne : K ≠ [] := by
    obtain ⟨n, u, c, h⟩ := hne
    intro e
    have := (hKmem' n u c).mpr h
    rw [e] at this
    simp at this
  set d3 : Dir := dictSet d2 "enum.out".toList (enumOutFile (lat.enumParams (P0, b0)) w.now Es.flatten) with hd3
  have hwrite : enumWrite w tol lat supers false "enum.out".toList (K.map (fun x => (hnfNumbers x.2.1, x.2.2.map (fun c : ℕ => (c : ℤ)), (cnt x.1 x.2.1 x.2.2 : ℤ)))) d2 =
      (pure d3 : Run _) := by
    unfold enumWrite
    rw [hgeo, runPy_ok, pure_bind, hEs, pure_bind, if_neg (by simpa using hKne)]
  have hout : enumOut w tol a "enum.in".toList "enum.out".toList d = (pure d3 : Run _) := by
    unfold enumOut
    rw [ha.lattice]
    unfold readFile
    rw [hd.text]
    have e1 : (do let s ← (Except.ok text : Py Str); readLattice s) = .ok lat := hlat
    rw [e1, runPy_ok, pure_bind, hd.noEnumIn, like_of_numbered hd.noPolya]
    simp only [Option.isSome_none, Bool.false_eq_true, if_false]
    rw [hpolya, pure_bind, ha.distribution, Option.getD_none, henumIn, pure_bind]
    have e2 : dictGet d2 "enum.in".toList = some (s) := by rw [hd2, dictGet_set, if_pos rfl]
    rw [e2]
    have e3 : (do let s ← (Except.ok (s) : Py Str); readEnum s) =
        .ok (K.map (fun x => (hnfNumbers x.2.1, x.2.2.map (fun c : ℕ => (c : ℤ)), (cnt x.1 x.2.1 x.2.2 : ℤ)))) := hread
    simp only
    rw [e3, runPy_ok, pure_bind, ha.super, ha.accept]
    exact hwrite
  have hneq : ("enum.in".toList : Str) ≠ "enum.out".toList := by decide
  refine ⟨K, Es, d3, ?_, hKnd, hKmem', hF, ?_, ?_, ⟨s, ?_, hread⟩, ?_⟩
  · unfold scriptEnum
    rw [plain_names ha, plain_check ha]
    simp only [runPy_ok, pure_bind, ha.polya, ha.enum, ha.distribution, Option.getD_none, Option.getD_some, if_true, Bool.false_eq_true, if_false, hout]
    simp
  · rw [hd3, dictGet_set, if_pos rfl]
  · intro n h1 h2
    rw [hd3, dictGet_set, if_neg (show polyaName n ≠ "enum.out".toList from fun e => enumOut_not_like (e ▸ polyaName_like n)), hd2, dictGet_set,
      if_neg (show polyaName n ≠ "enum.in".toList from fun e => enumIn_not_like (e ▸ polyaName_like n)), hd1t n h1 h2]
  · rw [hd3, dictGet_set, if_neg hneq, hd2, dictGet_set, if_pos rfl]
  · intro f h1 h2 h3
    rw [hd3, dictGet_set, if_neg h1, hd2, dictGet_set, if_neg h2]
    exact hd1o f h3

end Phenum
