import Verif.Props.StepsFail
import Verif.Props.Tolerance
import Verif.Props.PoscarNames
/-
C98: lattice.in with basis vectors outside of the cell.
-/
namespace Phenum
open Spec

/-- The lattice.in `text` says the same as `text'`, but its basis vectors are moved by lattice vectors. -/
structure Spec.MovedInput (text text' : Str) (lat lat' : LatticeIn) (P0 : Matrix (Fin 3) (Fin 3) ℚ) (b0 b0' : List (Fin 3 → ℚ)) : Prop where
  read : readLattice text = .ok lat
  read' : readLattice text' = .ok lat'
  geometry : lat.geometry = .ok (P0, b0)
  geometry' : lat'.geometry = .ok (P0, b0')
  same : { lat with basisVecs := lat'.basisVecs } = lat'
  moved : List.Forall₂ (fun b c => b - c ∈ ColLattice (realMat P0).transpose) (realVecs b0) (realVecs b0')

/-! ## the same group and the same supercells -/

theorem map_canon_moved {P : M3 ℝ} (hP : P.det ≠ 0) {l l' : List V3} (h : List.Forall₂ (fun b c => b - c ∈ ColLattice P.transpose) l l') :
    l.map (canonV P) = l'.map (canonV P) := by
  induction h with
  | nil => rfl
  | cons h _ ih => rw [List.map_cons, List.map_cons, ih, (canonV_eq_iff hP).mpr h]

section
variable {P : M3 ℝ} {l l' : List V3} {K K' : ℝ} {g D : ℕ} {eps : ℝ}

theorem grid_moved (hD : 0 < D) (h : List.Forall₂ (fun b c => b - c ∈ ColLattice P.transpose) l l') (hl : ∀ d ∈ l', d ∈ Grid P D) : ∀ d ∈ l, d ∈ Grid P D := by
  induction h with
  | nil => simp
  | @cons b c l l' h _ ih =>
    intro d hd
    rcases List.mem_cons.mp hd with rfl | hd
    · have h1 := hl c List.mem_cons_self
      have h2 := grid_lattice hD h
      rw [grid_iff hD] at h1 h2 ⊢
      have := colLat_add h2 h1
      rwa [← smul_add, sub_add_cancel] at this
    · exact ih (fun d hd => hl d (List.mem_cons_of_mem _ hd)) d hd

theorem bringBasis_moved (hP : P.det ≠ 0) (h : List.Forall₂ (fun b c => b - c ∈ ColLattice P.transpose) l l') (hc : Coarse P l' K K' g D eps) :
    bringBasis P l eps = bringBasis P l' eps := by
  have hb := grid_bring hP hc.dpos hc.pos hc.coords hc.inverse hc.apart
  rw [bringBasis_ok (fun v hv => hb.1 v (grid_moved hc.dpos h hc.atoms v hv)), bringBasis_ok (fun v hv => hb.1 v (hc.atoms v hv)), map_canon_moved hP h]

theorem getSymGroup_moved (hP : P.det ≠ 0) (h : List.Forall₂ (fun b c => b - c ∈ ColLattice P.transpose) l l') (hc : Coarse P l' K K' g D eps)
    (H : M3 ℤ) (arrows : Bool) : getSymGroup P l H 3 eps arrows = getSymGroup P l' H 3 eps arrows := by
  unfold getSymGroup
  rw [bringBasis_moved hP h hc]

theorem getHNFs_moved (hP : P.det ≠ 0) (h : List.Forall₂ (fun b c => b - c ∈ ColLattice P.transpose) l l') (hc : Coarse P l' K K' g D eps)
    (n : ℕ) : getHNFs n P l 3 eps = getHNFs n P l' 3 eps := by
  unfold getHNFs
  rw [bringBasis_moved hP h hc]

end

section
variable {text text' : Str} {lat lat' : LatticeIn} {P0 : Matrix (Fin 3) (Fin 3) ℚ} {b0 b0' : List (Fin 3 → ℚ)} {K K' : ℝ} {g D : ℕ}

theorem Spec.MovedInput.fractions (h : MovedInput text text' lat lat' P0 b0 b0') : lat.arrowFractions = lat'.arrowFractions := by
  rw [← h.same]
  rfl

theorem Spec.MovedInput.length (h : MovedInput text text' lat lat' P0 b0 b0') : lat.basisVecs.length = lat'.basisVecs.length := by
  rw [geometry_basis h.geometry, geometry_basis h.geometry']
  have := h.moved.length_eq
  rwa [realVecs_length, realVecs_length] at this

theorem Spec.MovedInput.concs (h : MovedInput text text' lat lat' P0 b0 b0') (eps : ℚ) (s : ℕ) : sizeConcs eps lat s = sizeConcs eps lat' s := by
  have hl := h.length
  unfold sizeConcs
  rw [hl, ← h.same]

theorem polyaSize_moved (h : MovedInput text text' lat lat' P0 b0 b0') (hP : (realMat P0).det ≠ 0) {tol : Tol} (h1 : Coarse (realMat P0) (realVecs b0') K K' g D tol.hnf)
    (h2 : Coarse (realMat P0) (realVecs b0') K K' g D tol.sym) (s : ℕ) : polyaSize tol lat s = polyaSize tol lat' s := by
  unfold polyaSize polyaRow
  rw [h.geometry, h.geometry', runPy_ok, runPy_ok, pure_bind, pure_bind]
  simp only
  rw [getHNFs_moved hP h.moved h1, h.concs, h.fractions]
  simp only [getSymGroup_moved hP h.moved h2]

theorem polyaLoop_moved (h : MovedInput text text' lat lat' P0 b0 b0') (hP : (realMat P0).det ≠ 0) {tol : Tol} (h1 : Coarse (realMat P0) (realVecs b0') K K' g D tol.hnf)
    (h2 : Coarse (realMat P0) (realVecs b0') K K' g D tol.sym) (out : Str) (l : List ℤ) (d : Dir) : polyaLoop tol lat out l d = polyaLoop tol lat' out l d := by
  induction l generalizing d with
  | nil => rfl
  | cons s l ih =>
    unfold polyaLoop
    rw [polyaSize_moved h hP h1 h2]
    apply run_bind_congr
    intro t _
    exact ih _

theorem enumSystem_moved (h : MovedInput text text' lat lat' P0 b0 b0') (hP : (realMat P0).det ≠ 0) {tol : Tol}
    (h2 : Coarse (realMat P0) (realVecs b0') K K' g D tol.sym) (supers accept : Bool) (rnd : EnumRandom) (sys : List ℤ × List ℤ × ℤ) :
    enumSystem tol lat supers accept rnd sys = enumSystem tol lat' supers accept rnd sys := by
  unfold enumSystem
  rw [h.geometry, h.geometry', runPy_ok, runPy_ok, pure_bind, pure_bind]
  simp only
  rw [h.fractions]
  simp only [getSymGroup_moved hP h.moved h2, h.moved.length_eq]

theorem enumLoop_moved (h : MovedInput text text' lat lat' P0 b0 b0') (hP : (realMat P0).det ≠ 0) {tol : Tol}
    (h2 : Coarse (realMat P0) (realVecs b0') K K' g D tol.sym) (w : World) (supers accept : Bool) (i : ℕ) (l : List (List ℤ × List ℤ × ℤ)) :
    enumLoop w tol lat supers accept i l = enumLoop w tol lat' supers accept i l := by
  induction l generalizing i with
  | nil => rfl
  | cons s l ih =>
    unfold enumLoop
    rw [enumSystem_moved h hP h2, ih]

end

/-! ## the same run in a directory with another lattice.in -/

theorem dictSet_comm {d : Dir} {L f : Str} {t x : Str} (hL : L ∈ d.map (·.1)) (h : f ≠ L) : dictSet (dictSet d L t) f x = dictSet (dictSet d f x) L t := by
  induction d with
  | nil => cases hL
  | cons p d ih =>
    obtain ⟨k, v⟩ := p
    by_cases hk : k = L
    · subst hk
      simp [dictSet, h, Ne.symm h]
    · have hL' : L ∈ d.map (·.1) := by
        rcases List.mem_cons.mp hL with rfl | hL'
        · exact absurd rfl hk
        · exact hL'
      by_cases hf : k = f
      · subst hf
        simp [dictSet, hk]
      · simp [dictSet, hk, hf, ih hL']

theorem anyNumbered_keys {d d' : Dir} (h : d'.map (·.1) = d.map (·.1)) (name : Str) : anyNumbered d' name = anyNumbered d name := by
  rw [Bool.eq_iff_iff, anyNumbered_iff, anyNumbered_iff, h]

theorem mem_of_get {d : Dir} {L t : Str} (h : dictGet d L = some t) : L ∈ d.map (·.1) := by
  by_contra hc
  rw [← dictGet_none, h] at hc
  cases hc

section
variable {L t : Str}

theorem polyaLoop_other {tol : Tol} {lat : LatticeIn} {out : Str} (hout : ¬ (out ++ ['.'] <+: L)) (l : List ℤ) {d : Dir} (hL : L ∈ d.map (·.1)) :
    polyaLoop tol lat out l (dictSet d L t) = (polyaLoop tol lat out l d >>= fun e => (pure (dictSet e L t) : Run Dir)) := by
  induction l generalizing d with
  | nil => rfl
  | cons s l ih =>
    unfold polyaLoop
    rw [bind_assoc]
    apply run_bind_congr
    intro tab _
    have hne : out ++ '.' :: intStr s ≠ L := by
      rintro rfl
      exact hout (numbered_prefix out s)
    rw [dictSet_comm hL hne]
    exact ih ((dictSet_keys _ _ _ _).mpr (Or.inr hL))

theorem readTables_other {infile : Str} (hin : ¬ (infile ++ ['.'] <+: L)) (l : List ℤ) (d : Dir) : readTables (dictSet d L t) infile l = readTables d infile l := by
  induction l with
  | nil => rfl
  | cons s l ih =>
    unfold readTables
    have hne : infile ++ '.' :: intStr s ≠ L := by
      rintro rfl
      exact hin (numbered_prefix infile s)
    rw [dictGet_set, if_neg hne, ih]

theorem makeEnumIn_other {w : World} {infile distribution outfile : Str} {number : Option ℤ} {sizes : Option (List ℤ)} {save : Bool} {restrict : Option (Str × Str)} {d : Dir}
    (hL : L ∈ d.map (·.1)) (hin : ¬ (infile ++ ['.'] <+: L)) (hout : outfile ≠ L) (hr : ∀ p, restrict = some p → p.2 ≠ L) :
    makeEnumIn w infile distribution outfile number sizes save restrict (dictSet d L t) =
      (makeEnumIn w infile distribution outfile number sizes save restrict d).map (fun e => dictSet e L t) := by
  have h1 : sizesUsed w (dictSet d L t) infile sizes = sizesUsed w d infile sizes := by
    unfold sizesUsed
    rw [dictSet_map_keys t hL]
  have h2 : readRestrict (dictSet d L t) restrict = readRestrict d restrict := by
    unfold readRestrict
    cases restrict with
    | none => rfl
    | some p =>
      obtain ⟨kind, file⟩ := p
      have := hr _ rfl
      simp only
      unfold readFile
      rw [dictGet_set, if_neg this]
  unfold makeEnumIn
  rw [h1, h2]
  simp only [readTables_other hin]
  cases sizesUsed w d infile sizes with
  | error e => rfl
  | ok sz =>
    cases readRestrict d restrict with
    | error e => rfl
    | ok res =>
      simp only [bind, Except.bind]
      cases readTables d infile sz with
      | error e => rfl
      | ok tables =>
        simp only
        cases ftypeOf distribution with
        | error e => rfl
        | ok ft =>
          simp only
          cases distributePy tables res ft (number.map Int.toNat) w.draws with
          | error e => rfl
          | ok distr =>
            simp only
            by_cases hs : distribution = "all".toList ∨ save = true
            · rw [if_pos hs, if_pos hs, dictSet_comm hL hout]
              rfl
            · rw [if_neg hs, if_neg hs]
              rfl

end

section
variable {text text' : Str} {lat lat' : LatticeIn} {P0 : Matrix (Fin 3) (Fin 3) ℚ} {b0 b0' : List (Fin 3 → ℚ)} {K K' : ℝ} {g D : ℕ} {tol : Tol} {w : World} {a : Args} {d : Dir}

theorem polyaOut_other (h : MovedInput text text' lat lat' P0 b0 b0') (hP : (realMat P0).det ≠ 0) (h1 : Coarse (realMat P0) (realVecs b0') K K' g D tol.hnf)
    (h2 : Coarse (realMat P0) (realVecs b0') K K' g D tol.sym) {L out : Str} (hd : dictGet d L = some text') (hout : ¬ (out ++ ['.'] <+: L)) :
    polyaOut tol L out (dictSet d L text) = (polyaOut tol L out d >>= fun e => (pure (dictSet e L text) : Run Dir)) := by
  have e1 : (do let s ← readFile d L; readLattice s) = .ok lat' := by
    unfold readFile
    rw [hd]
    exact h.read'
  have e2 : (do let s ← readFile (dictSet d L text) L; readLattice s) = .ok lat := by
    unfold readFile
    rw [dictGet_set, if_pos rfl]
    exact h.read
  have hs : lat.sizes = lat'.sizes := by
    rw [← h.same]
  unfold polyaOut
  rw [e1, e2, runPy_ok, runPy_ok, pure_bind, pure_bind, hs, bind_assoc]
  apply run_bind_congr
  intro lo _
  rw [bind_assoc]
  apply run_bind_congr
  intro hi _
  rw [polyaLoop_moved h hP h1 h2, polyaLoop_other hout _ (mem_of_get hd)]

/-- The name `L` of lattice.in is not that of another file of the program. -/
structure Spec.OwnName (a : Args) : Prop where
  table : ¬ ("polya.out.".toList <+: a.lattice)
  requests : a.lattice ≠ "enum.in".toList
  result : a.lattice ≠ "enum.out".toList
  filter : ∀ p, a.filter = some p → p.2 ≠ a.lattice

theorem enumIn_other (h : MovedInput text text' lat lat' P0 b0 b0') (hP : (realMat P0).det ≠ 0) (h1 : Coarse (realMat P0) (realVecs b0') K K' g D tol.hnf)
    (h2 : Coarse (realMat P0) (realVecs b0') K K' g D tol.sym) (hd : dictGet d a.lattice = some text') (hn : OwnName a) (dist : List Str) :
    enumIn w tol a "polya.out".toList "enum.in".toList dist (dictSet d a.lattice text) =
      (enumIn w tol a "polya.out".toList "enum.in".toList dist d >>= fun e => (pure (dictSet e a.lattice text) : Run Dir)) := by
  have hnum : ¬ ("polya.out".toList ++ ['.'] <+: a.lattice) := hn.table
  rw [enumIn_eq, enumIn_eq, bind_assoc, anyNumbered_keys (dictSet_map_keys text (mem_of_get hd))]
  have key : ∀ e : Dir, a.lattice ∈ e.map (·.1) → enumInRest w a "polya.out".toList "enum.in".toList dist (dictSet e a.lattice text) =
      (enumInRest w a "polya.out".toList "enum.in".toList dist e >>= fun e => (pure (dictSet e a.lattice text) : Run Dir)) := by
    intro e he
    unfold enumInRest
    rw [bind_assoc]
    apply run_bind_congr
    intro d0 _
    rw [bind_assoc]
    apply run_bind_congr
    intro d1 _
    rw [bind_assoc]
    apply run_bind_congr
    intro number _
    rw [makeEnumIn_other he hnum (Ne.symm hn.requests) hn.filter]
    cases makeEnumIn w "polya.out".toList (lowerStr d0) "enum.in".toList number (a.sizes.map (fun s => pyRange s.1 s.2)) a.savedist a.filter e <;> rfl
  by_cases hany : anyNumbered d "polya.out".toList = true
  · rw [if_pos hany, if_pos hany, pure_bind, pure_bind]
    exact key d (mem_of_get hd)
  · rw [if_neg hany, if_neg hany, polyaOut_other h hP h1 h2 hd hnum, bind_assoc]
    apply run_bind_congr
    intro e he
    rw [pure_bind]
    refine key e (mem_of_get (t := text') ?_)
    rw [(polyaOut_inv he).2.2 _ hnum, hd]

theorem prepare_other (h : MovedInput text text' lat lat' P0 b0 b0') (hP : (realMat P0).det ≠ 0) (h1 : Coarse (realMat P0) (realVecs b0') K K' g D tol.hnf)
    (h2 : Coarse (realMat P0) (realVecs b0') K K' g D tol.sym) (hd : dictGet d a.lattice = some text') (hn : OwnName a) :
    prepare w tol a "enum.in".toList (dictSet d a.lattice text) = (prepare w tol a "enum.in".toList d >>= fun e => (pure (dictSet e a.lattice text) : Run Dir)) := by
  have hnum : ¬ ("polya.out".toList ++ ['.'] <+: a.lattice) := hn.table
  unfold prepare
  rw [bind_assoc, anyNumbered_keys (dictSet_map_keys text (mem_of_get hd))]
  by_cases hany : anyNumbered d "polya.out".toList = true
  · rw [if_pos hany, if_pos hany, pure_bind, pure_bind]
    exact enumIn_other h hP h1 h2 hd hn _
  · rw [if_neg hany, if_neg hany, polyaOut_other h hP h1 h2 hd hnum, bind_assoc]
    apply run_bind_congr
    intro e he
    rw [pure_bind]
    refine enumIn_other h hP h1 h2 ?_ hn _
    rw [(polyaOut_inv he).2.2 _ hnum, hd]

theorem prepare_lattice (hd : dictGet d a.lattice = some text') (hn : OwnName a) {e : Dir} (he : prepare w tol a "enum.in".toList d = (pure e : Run Dir)) :
    dictGet e a.lattice = some text' := by
  have hnum : ¬ ("polya.out".toList ++ ['.'] <+: a.lattice) := hn.table
  unfold prepare at he
  obtain ⟨e1, h1, he⟩ := run_bind_ok he
  rw [(enumIn_inv he).1 _ hn.requests hnum]
  by_cases hany : anyNumbered d "polya.out".toList = true
  · rw [if_pos hany] at h1
    rw [← run_pure_inj h1, hd]
  · rw [if_neg hany] at h1
    rw [(polyaOut_inv h1).2.2 _ hnum, hd]

/-- the rows and the directory before enum.out is written -/
noncomputable def rowsOf (w : World) (tol : Tol) (a : Args) (lat : LatticeIn) (d : Dir) : Run (List EnumEntry × Dir) :=
  (if (dictGet d "enum.in".toList).isSome then pure d else prepare w tol a "enum.in".toList d) >>= fun e => do
    let systems ← runPy (do let s ← readFile e "enum.in".toList; readEnum s)
    let rows ← enumLoop w tol lat a.super a.accept.isSome 0 systems
    if systems = [] then throw .nameError else pure (rows, e)

theorem finish_rows {w : World} {tol : Tol} {a : Args} {lat : LatticeIn} {geo : Matrix (Fin 3) (Fin 3) ℚ × List (Fin 3 → ℚ)} (hg : lat.geometry = .ok geo) (e : Dir) :
    finish w tol a "enum.in".toList "enum.out".toList lat e = (do
      let systems ← runPy (do let s ← readFile e "enum.in".toList; readEnum s)
      let rows ← enumLoop w tol lat a.super a.accept.isSome 0 systems
      let r ← (if systems = [] then throw .nameError else pure (rows, e) : Run (List EnumEntry × Dir))
      pure (dictSet r.2 "enum.out".toList (enumOutFile (lat.enumParams geo) w.now r.1))) := by
  unfold finish enumWrite
  rw [hg, runPy_ok]
  apply run_bind_congr
  intro systems _
  rw [pure_bind]
  apply run_bind_congr
  intro rows _
  by_cases hs : systems = []
  · rw [if_pos hs, if_pos hs]; rfl
  · rw [if_neg hs, if_neg hs]; rfl

theorem script_rows (ha : EnumCall a) {t : Str} {l : LatticeIn} {geo : Matrix (Fin 3) (Fin 3) ℚ × List (Fin 3 → ℚ)} (hd : dictGet d a.lattice = some t) (hr : readLattice t = .ok l)
    (hg : l.geometry = .ok geo) : scriptEnum w tol a d = (rowsOf w tol a l d >>= fun r => pure (dictSet r.2 "enum.out".toList (enumOutFile (l.enumParams geo) w.now r.1))) := by
  have e1 : readLat d a.lattice = .ok l := by
    unfold readLat readFile
    rw [hd]
    exact hr
  rw [scriptEnum_enum ha, enumOut_eq, e1, runPy_ok, pure_bind]
  unfold rowsOf
  rw [bind_assoc]
  apply run_bind_congr
  intro e _
  rw [finish_rows hg, bind_assoc]
  apply run_bind_congr
  intro systems _
  rw [bind_assoc]

theorem rowsOf_other (h : MovedInput text text' lat lat' P0 b0 b0') (hP : (realMat P0).det ≠ 0) (h1 : Coarse (realMat P0) (realVecs b0') K K' g D tol.hnf)
    (h2 : Coarse (realMat P0) (realVecs b0') K K' g D tol.sym) (hd : dictGet d a.lattice = some text') (hn : OwnName a) :
    rowsOf w tol a lat (dictSet d a.lattice text) = (rowsOf w tol a lat' d >>= fun r => (pure (r.1, dictSet r.2 a.lattice text) : Run (List EnumEntry × Dir))) := by
  unfold rowsOf
  rw [bind_assoc, dictGet_set, if_neg (Ne.symm hn.requests)]
  have key : ∀ e : Dir, (do
      let systems ← runPy (do let s ← readFile (dictSet e a.lattice text) "enum.in".toList; readEnum s)
      let rows ← enumLoop w tol lat a.super a.accept.isSome 0 systems
      if systems = [] then throw .nameError else pure (rows, dictSet e a.lattice text) : Run (List EnumEntry × Dir)) = ((do
      let systems ← runPy (do let s ← readFile e "enum.in".toList; readEnum s)
      let rows ← enumLoop w tol lat' a.super a.accept.isSome 0 systems
      if systems = [] then throw .nameError else pure (rows, e) : Run (List EnumEntry × Dir)) >>= fun r => (pure (r.1, dictSet r.2 a.lattice text) : Run (List EnumEntry × Dir))) := by
    intro e
    have : readFile (dictSet e a.lattice text) "enum.in".toList = readFile e "enum.in".toList := by
      unfold readFile
      rw [dictGet_set, if_neg (Ne.symm hn.requests)]
    rw [this, bind_assoc]
    apply run_bind_congr
    intro systems _
    rw [enumLoop_moved h hP h2, bind_assoc]
    apply run_bind_congr
    intro rows _
    by_cases hs : systems = []
    · rw [if_pos hs, if_pos hs]; rfl
    · rw [if_neg hs, if_neg hs]; rfl
  by_cases hi : (dictGet d "enum.in".toList).isSome = true
  · rw [if_pos hi, if_pos hi, pure_bind, pure_bind]
    exact key d
  · rw [if_neg hi, if_neg hi, prepare_other h hP h1 h2 hd hn, bind_assoc]
    apply run_bind_congr
    intro e _
    rw [pure_bind]
    exact key e

/-- C98. `enumeration.py -enum` with any options, in any directory, on two lattice.in files whose basis vectors differ by lattice vectors: both runs end in the same way and list the same rows;
the directories they leave differ only in lattice.in and in the first lines of enum.out, which have the basis vectors as they are in lattice.in. -/
theorem C98_same_rows (h : MovedInput text text' lat lat' P0 b0 b0') (hP : (realMat P0).det ≠ 0) (h1 : Coarse (realMat P0) (realVecs b0') K K' g D tol.hnf)
    (h2 : Coarse (realMat P0) (realVecs b0') K K' g D tol.sym) (ha : EnumCall a) (hn : OwnName a) (hd : dictGet d a.lattice = some text') :
    ∃ X : Run (List EnumEntry × Dir),
      scriptEnum w tol a d = (X >>= fun r => pure (dictSet r.2 "enum.out".toList (enumOutFile (lat'.enumParams (P0, b0')) w.now r.1))) ∧
      scriptEnum w tol a (dictSet d a.lattice text) =
        (X >>= fun r => pure (dictSet (dictSet r.2 a.lattice text) "enum.out".toList (enumOutFile (lat.enumParams (P0, b0)) w.now r.1))) := by
  refine ⟨rowsOf w tol a lat' d, script_rows ha hd h.read' h.geometry', ?_⟩
  rw [script_rows ha (by rw [dictGet_set, if_pos rfl]) h.read h.geometry, rowsOf_other h hP h1 h2 hd hn, bind_assoc]
  rfl

/-- C98. What the rows belong to: on a lattice.in whose basis vectors are those of another, usable one moved by lattice vectors, the default call lists for each crystal exactly one row - with respect to the
basis vectors of the other lattice.in, although enum.out begins with those of the first. -/
theorem C98_crystals {hi k : ℕ} (h : MovedInput text text' lat lat' P0 b0 b0') (hC : CrystalInput text' lat' P0 b0' 1 hi k) (hfree : lat'.restricted = false) (hk3 : k ≤ 3)
    (hsize : b0'.length * hi ≤ 20) (hc : Coarse (realMat P0) (realVecs b0') K K' g D (1 / 10 ^ 7)) :
    ∀ (w : World) (a : Args) (lattice : Str) (dir : Dir), (∀ l, (w.listdir l).Perm l) → (dir.map (·.1)).Nodup → lattice ≠ "enum.out".toList →
        PlainCall a lattice false → FreshDir lattice text dir →
      ∃ (rows : List EnumEntry) (dir' : Dir), scriptEnum w shippedTol a dir = (pure dir' : Run Dir) ∧
        dictGet dir' "enum.out".toList = some (enumOutFile (lat.enumParams (P0, b0)) w.now rows) ∧ rows.Nodup ∧
        (∀ row ∈ rows, ∃ ψ, RowDescribes (realMat P0) (realVecs b0') row ψ ∧ AllowedCrystal (realMat P0) (realVecs b0') hi k [] ψ) ∧
        ∀ χ, AllowedCrystal (realMat P0) (realVecs b0') hi k [] χ →
          ∃! row, row ∈ rows ∧ ∃ ψ, RowDescribes (realMat P0) (realVecs b0') row ψ ∧
            SameDecoration (ColLattice (realMat P0).transpose) (realVecs b0') χ ψ := by
  intro w a lattice dir hw hnd hout ha hdir
  have hcall : EnumCall a := ⟨ha.polya, ha.enum, ha.input, ha.outfile, by rw [ha.distribution]; simp, by rw [ha.accept]; simp⟩
  have hmem := mem_of_get hdir.text
  have hne : lattice ≠ "enum.in".toList := by
    rintro rfl
    have := hdir.text
    rw [hdir.noEnumIn] at this
    cases this
  have hown : OwnName a := by
    refine ⟨?_, by rw [ha.lattice]; exact hne, by rw [ha.lattice]; exact hout, by rw [ha.filter]; simp⟩
    rw [ha.lattice]
    intro hp
    refine hdir.noPolya _ hmem ⟨?_, ?_⟩
    · have : "polya.out".toList <+: "polya.out.".toList := by decide
      exact (this.trans hp).isInfix
    · obtain ⟨t, rfl⟩ := hp
      rfl
  have hdir' : FreshDir lattice text' (dictSet dir lattice text') :=
    ⟨by rw [dictGet_set, if_pos rfl], by rw [dictSet_map_keys _ hmem]; exact hdir.noPolya, by rw [dictGet_set, if_neg (Ne.symm hne)]; exact hdir.noEnumIn⟩
  obtain ⟨rows, dir', r1, r2, r3, r4, r5⟩ := C61_nothing_else hC hfree hk3 hsize hc w a lattice _ hw ha hdir'
  have hP := hC.cell.det
  have h10 : Coarse (realMat P0) (realVecs b0') K K' g D (1 / 10 ^ 10) := coarse_mono hc (by norm_num) (by norm_num)
  obtain ⟨X, x1, x2⟩ := C98_same_rows (w := w) (tol := shippedTol) (d := dictSet dir lattice text') h hP hc h10 hcall hown (by rw [ha.lattice]; exact hdir'.text)
  rw [r1] at x1
  obtain ⟨⟨rows', e⟩, hX, he⟩ := run_bind_ok x1.symm
  rw [hX, pure_bind, ha.lattice, dictSet_twice, dictSet_same _ _ _ hdir.text hnd] at x2
  have he' := run_pure_inj he
  rw [← he', dictGet_set, if_pos rfl] at r2
  have hbody : ∀ p, enumOutFile p w.now rows' = enumOutFile p w.now rows := by
    intro p
    have := Option.some.inj r2
    unfold enumOutFile at this ⊢
    rw [List.append_cancel_left this]
  exact ⟨rows, _, x2, by rw [dictGet_set, if_pos rfl, hbody], r3, r4, r5⟩

end

end Phenum
