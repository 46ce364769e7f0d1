import Verif.Model.Drivers
/-
Where a run of enumeration.py can be stopped (killed, out of memory, power switched off, or an uncaught exception), and what is then in the directory.

A file is opened with mode `w` (which empties it) and written piece by piece through a buffer, so that at any moment it holds some part of its text from the start. A file that has
been closed is complete. Simplification: files that are not being written are not harmed by the stop.
-/
namespace Phenum

/-- Stopped in the loop over the sizes, enumeration.py:67-124: before the file of a size is opened, while it is written, or later. If the computation for the size does not come
to an end (an exception, or no end at all) the part of the table that has been written is left open here: any text. -/
def polyaLoopStops (tol : Tol) (lat : LatticeIn) (outfile : Str) : List ℤ → Dir → Set Dir
  | [], d => {d}
  | s :: ss, d => {x | x = d ∨
      (∃ p, x = dictSet d (outfile ++ '.' :: intStr s) p ∧ ∀ t, polyaSize tol lat s.toNat = (pure t : Run PolyaTable) → p <+: writePolya t) ∨
      ∃ t, polyaSize tol lat s.toNat = (pure t : Run PolyaTable) ∧ x ∈ polyaLoopStops tol lat outfile ss (dictSet d (outfile ++ '.' :: intStr s) (writePolya t))}

/-- Stopped in `_polya_out`, enumeration.py:51-124: while lattice.in is read or in the loop. -/
def polyaOutStops (tol : Tol) (lattice outfile : Str) (d : Dir) : Set Dir :=
  {x | x = d ∨ ∃ lat lo hi, (do let s ← readFile d lattice; readLattice s) = .ok lat ∧ pyGet lat.sizes 0 = .ok lo ∧ pyGet lat.sizes 1 = .ok hi ∧
    x ∈ polyaLoopStops tol lat outfile (pyRange lo (hi + 1)) d}

/-- Stopped in `make_enum_in`, structures.py:395-466: before the file is opened, or while it is written by `_print_distribution`, structures.py:367-393. -/
def makeEnumInStops (w : World) (infile distribution outfile : Str) (number : Option ℤ) (sizes : Option (List ℤ)) (save : Bool)
    (restrict : Option (Str × Str)) (d : Dir) : Set Dir :=
  {x | x = d ∨ ((distribution = "all".toList ∨ save = true) ∧ ∃ d' text p, makeEnumIn w infile distribution outfile number sizes save restrict d = .ok d' ∧
    dictGet d' outfile = some text ∧ p <+: text ∧ x = dictSet d outfile p)}

/-- Stopped in `_enum_in`, enumeration.py:19-49. -/
def enumInStops (w : World) (tol : Tol) (a : Args) (input outfile : Str) (distribution : List Str) (d : Dir) : Set Dir :=
  {x | x = d ∨ (anyNumbered d input = false ∧ x ∈ polyaOutStops tol a.lattice input d) ∨
    ∃ d1 d0 e1 number, (if anyNumbered d input then pure d else polyaOut tol a.lattice input d) = (pure d1 : Run Dir) ∧
      pyGet distribution 0 = .ok d0 ∧ pyGet distribution 1 = .ok e1 ∧
      (if lowerStr e1 = "all".toList then .ok none else (parseInt (strip e1)).map some) = .ok number ∧
      x ∈ makeEnumInStops w input (lowerStr d0) outfile number (a.sizes.map (fun s => pyRange s.1 s.2)) a.savedist a.filter d1}

/-- Stopped in `_enum_out` after the requests have been read, enumeration.py:163-209: before enum.out is opened, while `write_enum` writes the first lines (io_utils.py:132-133), in
the enumeration (with the first lines in the file), or while the rows are appended. -/
def enumWriteStops (w : World) (tol : Tol) (lat : LatticeIn) (supers accept : Bool) (outfile : Str) (systems : List (List ℤ × List ℤ × ℤ)) (d : Dir) : Set Dir :=
  {x | x = d ∨
    (∃ geo p, lat.geometry = .ok geo ∧ p <+: (headerLines (lat.enumParams geo) w.now).flatMap (fun l => l ++ ['\n']) ∧ x = dictSet d outfile p) ∨
    ∃ d' text p, enumWrite w tol lat supers accept outfile systems d = (pure d' : Run Dir) ∧ dictGet d' outfile = some text ∧ p <+: text ∧ x = dictSet d outfile p}

/-- Stopped in `_enum_out`, enumeration.py:128-209. -/
def enumOutStops (w : World) (tol : Tol) (a : Args) (input outfile : Str) (d : Dir) : Set Dir :=
  {x | x = d ∨ ∃ lat, (do let s ← readFile d a.lattice; readLattice s) = .ok lat ∧
    (((dictGet d input).isSome = false ∧
      ((anyNumbered d "polya.out".toList = false ∧ x ∈ polyaOutStops tol a.lattice "polya.out".toList d) ∨
       ∃ d1, (if anyNumbered d "polya.out".toList then pure d else polyaOut tol a.lattice "polya.out".toList d) = (pure d1 : Run Dir) ∧
        x ∈ enumInStops w tol a "polya.out".toList input (a.distribution.getD ["all".toList, "all".toList]) d1)) ∨
     ∃ d2 systems, (if (dictGet d input).isSome then pure d else
          (if anyNumbered d "polya.out".toList then pure d else polyaOut tol a.lattice "polya.out".toList d) >>=
            enumIn w tol a "polya.out".toList input (a.distribution.getD ["all".toList, "all".toList])) = (pure d2 : Run Dir) ∧
        (do let s ← readFile d2 input; readEnum s) = .ok systems ∧
        x ∈ enumWriteStops w tol lat a.super a.accept.isSome outfile systems d2)}

/-- The directories in which `enumeration.py` may be stopped, enumeration.py:317-368. -/
def scriptStops (w : World) (tol : Tol) (a : Args) (d : Dir) : Set Dir :=
  {x | x = d ∨ (checkArgs a d = .ok () ∧
    ((a.polya = true ∧ x ∈ polyaOutStops tol a.lattice ((fileNames a).2.getD []) d) ∨
     ∃ d1, (if a.polya then polyaOut tol a.lattice ((fileNames a).2.getD []) d else pure d) = (pure d1 : Run Dir) ∧
      ((a.enum = true ∧ x ∈ enumOutStops w tol a ((fileNames a).1.getD []) ((fileNames a).2.getD []) d1) ∨
       ∃ d2, (if a.enum then enumOut w tol a ((fileNames a).1.getD []) ((fileNames a).2.getD []) d1 else pure d1) = (pure d2 : Run Dir) ∧
        (x = d2 ∨ (a.distribution.getD [] ≠ [] ∧ a.enum = false ∧
          x ∈ enumInStops w tol a ((fileNames a).1.getD []) ((fileNames a).2.getD []) (a.distribution.getD []) d2)))))}

end Phenum
