import Verif.Model.Drivers
import Verif.Model.Noise
import Verif.Model.DecorateFloat
import Verif.Model.StructuresFloat
/-
Model of the command line program as it computes, with rounding errors: `_polya_out`, `_enum_in`, `_enum_out` and `_script_enum` of
phenum/enumeration.py and `enum_sys` of phenum/phonons.py. The functions follow those of Model/Drivers.lean and Model/EnumSys.lean line by
line, but call the routines in floating point: the counts of structures (Model/PolyaFloat.lean), the concentrations (Model/Concs.lean),
the numbers of displaced atoms (Model/DecorateFloat.lean) and the distribution of a number of structures (Model/StructuresFloat.lean) with every
operation rounded by `fl`, the searches for symmetries (Model/Noise.lean) with errors of up to `δ` in every number that is compared.

Simplifications: as in Model/Drivers.lean and in those files; the lattice and basis vectors printed in enum.out are those of lattice.in.
-/
namespace Phenum

/-- A part of the run in which nothing is rounded. A loop that does not end counts as every possible outcome, so that a run with only one possible outcome ends. -/
def sureO {α : Type} : Option (Py α) → Noisy α
  | some r => sure r
  | none => fun _ => True

/-- The fractions of displaced atoms as floats, phonons.py:351-371. -/
def arrowFractionsF (fl : ℚ → ℚ) (lat : LatticeIn) : List ℚ := lat.arrowFractions.map fl

/-- `get_concs_for_size` on the parameters read from lattice.in, enumeration.py:74-75. -/
def sizeConcsF (fl : ℚ → ℚ) (eps : ℚ) (lat : LatticeIn) (s : ℕ) : Noisy (List Conc) :=
  if lat.restricted then do
    let rows ← sure (lat.concs.mapM concRow)
    let l ← sureO (concsRestrictedF fl (fl eps) s lat.basisVecs.length rows)
    pure (l.map (fun a => a.map Int.toNat))
  else pure (concsFree s lat.nspecies.toNat lat.basisVecs.length)

/-! ## polya.out -/

/-- The number of arrangements for one HNF and one concentration, enumeration.py:97-111. -/
def polyaCountF (fl : ℚ → ℚ) (agroup : List Op) (aconcs : List ℚ) (conc : Conc) : Noisy ℕ := do
  let decor ← sure (arrowConcsF fl conc aconcs)
  let h := howManyArrows decor
  let n ← sureO (if h.2.1 ≠ 0 ∨ h.1 ≠ 0 then polyaF fl h.2.2 agroup (.num h.2.1) else polyaF fl conc agroup .none)
  pure n.toNat

/-- The counts of one HNF, enumeration.py:85-116. -/
noncomputable def polyaRowN (fl : ℚ → ℚ) (δ : ℝ) (tol : Tol) (P : Matrix (Fin 3) (Fin 3) ℝ) (bas : List V3) (aconcs : List ℚ) (concs : List Conc)
    (H : Matrix (Fin 3) (Fin 3) ℤ) : Noisy (HNF6 × List ℕ) := do
  let agroup ← getSymGroupN δ P bas H tol.sym true
  let counts ← mapN (polyaCountF fl agroup aconcs) concs
  pure (hnfNumbers H, counts)

/-- The table of one size, enumeration.py:69-121. -/
noncomputable def polyaSizeN (fl : ℚ → ℚ) (δ : ℝ) (tol : Tol) (lat : LatticeIn) (s : ℕ) : Noisy PolyaTable := do
  let geo ← sure lat.geometry
  let P := realMat geo.1
  let bas := realVecs geo.2
  let hnfs ← getHNFsN δ s P bas tol.hnf
  let concs ← sizeConcsF fl tol.conc lat s
  let rows ← mapN (polyaRowN fl δ tol P bas (arrowFractionsF fl lat) concs) hnfs
  pure { size := s, concs := concs,
         rows := rows.map (fun r => (r.1, r.2, r.2.foldl (· + ·) 0)),
         last := rows.foldl (fun tot r => List.zipWith (· + ·) tot r.2) (List.replicate concs.length 0) }

/-- The loop over the sizes, enumeration.py:67-124. -/
noncomputable def polyaLoopN (fl : ℚ → ℚ) (δ : ℝ) (tol : Tol) (lat : LatticeIn) (outfile : Str) : List ℤ → Dir → Noisy Dir
  | [], d => pure d
  | s :: ss, d => do
    let t ← polyaSizeN fl δ tol lat s.toNat
    polyaLoopN fl δ tol lat outfile ss (dictSet d (outfile ++ '.' :: intStr s) (writePolya t))

/-- `_polya_out`, enumeration.py:51-124. -/
noncomputable def polyaOutN (fl : ℚ → ℚ) (δ : ℝ) (tol : Tol) (lattice outfile : Str) (d : Dir) : Noisy Dir := do
  let lat ← sure (do let s ← readFile d lattice; readLattice s)
  let lo ← sure (pyGet lat.sizes 0)
  let hi ← sure (pyGet lat.sizes 1)
  polyaLoopN fl δ tol lat outfile (pyRange lo (hi + 1)) d

/-! ## enum.in -/

/-- `make_enum_in`, structures.py:395-466, as `makeEnumIn` with the distribution in floats. -/
def makeEnumInF (fl : ℚ → ℚ) (w : World) (infile distribution outfile : Str) (number : Option ℤ) (sizes : Option (List ℤ)) (save : Bool)
    (restrict : Option (Str × Str)) (d : Dir) : Py Dir := do
  let sizes ← sizesUsed w d infile sizes
  let res ← readRestrict d restrict
  let tables ← readTables d infile sizes
  let ft ← ftypeOf distribution
  let distr ← distributePyF fl tables res ft (number.map Int.toNat) w.draws
  if distribution = "all".toList ∨ save then .ok (dictSet d outfile (printDist ft distr)) else .ok d

/-- `_enum_in`, enumeration.py:19-49. -/
noncomputable def enumInN (fl : ℚ → ℚ) (δ : ℝ) (w : World) (tol : Tol) (a : Args) (input outfile : Str) (distribution : List Str) (d : Dir) : Noisy Dir := do
  let d ← if anyNumbered d input then pure d else polyaOutN fl δ tol a.lattice input d
  let d0 ← sure (pyGet distribution 0)
  let d1 ← sure (pyGet distribution 1)
  let number ← sure (if lowerStr d1 = "all".toList then .ok none else (parseInt (strip d1)).map some)
  sure (makeEnumInF fl w input (lowerStr d0) outfile number (a.sizes.map (fun s => pyRange s.1 s.2)) a.savedist a.filter d)

/-! ## enum.out -/

/-- phonons.py:463-485, with `float(num_wanted)/total < 0.001` in floating point. -/
def enumCoreF (fl : ℚ → ℚ) (agroup : List Op) (concs : List Nat) (decor : Config) (sortedConcs : List Nat) (cellsize : Nat) (large : Bool) (total : Int)
    (subset : Option Subset) (wanted : Nat) (supers accept : Bool) (rnd : EnumRandom) : Option (Py (List Config)) :=
  if concs.length = 1 then
    if total = 0 then some (.error .zeroDivision)
    else
      let configs : Option (Py (List Config)) :=
        if fl (fl wanted / fl total) < fl (1 / 1000) ∧ accept = false then
          addArrowsSmall decor agroup 6 (agroup.take cellsize) supers wanted rnd.smallDraw
        else some (addArrows decor agroup 6 (agroup.take cellsize) (if accept then some rnd.acceptArrows else none) (some wanted) supers)
      match configs with
      | none => none
      | some (.error e) => some (.error e)
      | some (.ok l) => some (filterSingle subset l)
  else if large && (wanted : Int) < total then
    guessAndCheck ⟨sortedConcs, agroup, decor, 6, supers, cellsize, wanted, rnd.draw, rnd.adraw⟩
  else
    match subset with
    | none => some (.error .nameError)
    | some s => brancher ⟨sortedConcs, agroup, decor, 6, supers, cellsize, s, accept, rnd.acceptDraw, rnd.acceptArrow⟩

/-- phonons.py:430-458: `total` and `subset`. -/
def enumTotalF (fl : ℚ → ℚ) (agroup : List Op) (concs sortedConcs : List Nat) (arrowTypes : Nat) (large : Bool) (wanted : Nat) (rnd : EnumRandom) :
    Option (Py (Int × Option Subset)) :=
  if large then some (.ok (10000000000, none))
  else
    match (if arrowTypes ≠ 0 then polyaF fl sortedConcs agroup (.num arrowTypes) else polyaF fl concs agroup .none) with
    | none => none
    | some (.error e) => some (.error e)
    | some (.ok total) => some (.ok (total, some (chooseSubset rnd.shuffle wanted total)))

/-- `enum_sys`, phonons.py:373-498. -/
def enumSysF (fl : ℚ → ℚ) (agroup : List Op) (concs : List Nat) (aconcs : List ℚ) (wanted nB : Nat) (supers accept : Bool) (rnd : EnumRandom) :
    Option (Py (List Config)) :=
  match arrowConcsF fl concs aconcs with
  | .error e => some (.error e)
  | .ok decor =>
    let h := howManyArrows decor
    match multinomial (concs.map (fun c : Nat => (c : Int))) with
    | .error e => some (.error e)
    | .ok multi =>
      let large := largeSystem multi h.2.1 concs.sum wanted
      match enumTotalF fl agroup concs h.2.2 h.2.1 large wanted rnd with
      | none => none
      | some (.error e) => some (.error e)
      | some (.ok (total, subset)) =>
        match enumCoreF fl agroup concs decor h.2.2 (concs.sum / nB) large total subset wanted supers accept rnd with
        | none => none
        | some (.error e) => some (.error e)
        | some (.ok configs) =>
          if configs.length ≠ wanted ∧ !builtinSuper then some (.error .valueError) else some (.ok configs)

/-- `sum` of a list of floats, from the left. -/
def sumF (fl : ℚ → ℚ) (l : List ℚ) : ℚ := l.foldl (fun s x => fl (s + x)) 0

/-- The body of the loop over the systems, enumeration.py:173-186, with the call of `get_sym_group` in `enum_sys`, phonons.py:405-416. -/
noncomputable def enumSystemN (fl : ℚ → ℚ) (δ : ℝ) (tol : Tol) (lat : LatticeIn) (supers accept : Bool) (rnd : EnumRandom) (sys : List ℤ × List ℤ × ℤ) :
    Noisy (List EnumEntry) := do
  let geo ← sure lat.geometry
  let P := realMat geo.1
  let bas := realVecs geo.2
  let H ← sure (if sys.1.length < 6 then .error .indexError else .ok (getFullHNF sys.1))
  let snf ← smithNormalFormN δ H
  let aconcs := arrowFractionsF fl lat
  let concs := sys.2.1.map Int.toNat
  let _ ← sure (arrowConcsF fl concs aconcs)
  let agroup ← getSymGroupN δ P bas H tol.sym (decide (sumF fl aconcs ≠ 0))
  let configs ← sureO (enumSysF fl agroup concs aconcs sys.2.2.toNat bas.length supers accept rnd)
  pure (configs.map (enumEntry sys.1 snf))

/-- The loop over the systems, enumeration.py:171-189. -/
noncomputable def enumLoopN (fl : ℚ → ℚ) (δ : ℝ) (w : World) (tol : Tol) (lat : LatticeIn) (supers accept : Bool) :
    ℕ → List (List ℤ × List ℤ × ℤ) → Noisy (List EnumEntry)
  | _, [] => pure []
  | i, sys :: rest => do
    let l ← enumSystemN fl δ tol lat supers accept (w.rnd i) sys
    let r ← enumLoopN fl δ w tol lat supers accept (i + 1) rest
    pure (l ++ r)

/-- `_enum_out` after the making of the input file, enumeration.py:155-209. -/
noncomputable def enumWriteN (fl : ℚ → ℚ) (δ : ℝ) (w : World) (tol : Tol) (lat : LatticeIn) (supers accept : Bool) (outfile : Str)
    (systems : List (List ℤ × List ℤ × ℤ)) (d : Dir) : Noisy Dir := do
  let geo ← sure lat.geometry
  let enumlist ← enumLoopN fl δ w tol lat supers accept 0 systems
  if systems = [] then sure (.error .nameError)
  else pure (dictSet d outfile (enumOutFile (lat.enumParams geo) w.now enumlist))

/-- `_enum_out`, enumeration.py:128-209. -/
noncomputable def enumOutN (fl : ℚ → ℚ) (δ : ℝ) (w : World) (tol : Tol) (a : Args) (input outfile : Str) (d : Dir) : Noisy Dir := do
  let lat ← sure (do let s ← readFile d a.lattice; readLattice s)
  let d ← if (dictGet d input).isSome then pure d else do
    let d ← if anyNumbered d "polya.out".toList then pure d else polyaOutN fl δ tol a.lattice "polya.out".toList d
    enumInN fl δ w tol a "polya.out".toList input (a.distribution.getD ["all".toList, "all".toList]) d
  let systems ← sure (do let s ← readFile d input; readEnum s)
  enumWriteN fl δ w tol lat a.super a.accept.isSome outfile systems d

/-! ## the program -/

/-- `_script_enum`, enumeration.py:317-368. -/
noncomputable def scriptEnumN (fl : ℚ → ℚ) (δ : ℝ) (w : World) (tol : Tol) (a : Args) (d : Dir) : Noisy Dir := do
  let names := fileNames a
  let _ ← sure (checkArgs a d)
  let d ← if a.polya then polyaOutN fl δ tol a.lattice (names.2.getD []) d else pure d
  let d ← if a.enum then enumOutN fl δ w tol a (names.1.getD []) (names.2.getD []) d else pure d
  if a.distribution.getD [] ≠ [] ∧ a.enum = false then
    enumInN fl δ w tol a (names.1.getD []) (names.2.getD []) (a.distribution.getD []) d
  else pure d

end Phenum
