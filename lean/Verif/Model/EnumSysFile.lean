import Verif.Model.EnumSys
import Verif.Model.LatticeIn
/-
Model of `enum_sys` in phenum/phonons.py when the group is read from a file.
-/
namespace Phenum

/-- phonons.py:417-420: each permutation of the file, with the arrow permutation `[0]`. Simplification: an entry 0 of the file becomes -1, which
Python takes from the end of the list; the model is meant for files with entries from 1 on. -/
def fileOps (group : List (List ℤ)) : List Op := group.map (fun g => (g.map Int.toNat, [0]))

/-- `enum_sys` with a file name as its first argument, phonons.py:373-498; `text` is the contents of the file. The arrows
are distributed (line 401) before the file is read (line 417). -/
def enumSysFile (text : Str) (concs : List Nat) (aconcs : List ℚ) (wanted nB : Nat) (supers accept : Bool) (rnd : EnumRandom) :
    Option (Py (List Config)) :=
  match arrowConcs concs aconcs with
  | .error e => some (.error e)
  | .ok _ =>
    match readGroup text with
    | .error e => some (.error e)
    | .ok group => enumSys (fileOps group) concs aconcs wanted nB supers accept rnd

end Phenum
