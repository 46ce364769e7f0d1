import Verif.Model.Screen
import Verif.Model.EnumSys
import Verif.Model.SymGroup
/-
Model of the warnings (messages of level 0, phenum/msg.py): in `enum_sys` (phenum/phonons.py), `_distribute` (phenum/structures.py), `get_HNFs`
(phenum/HNFs.py), `get_sym_group` (phenum/grouptheory.py) and `_script_enum` (phenum/enumeration.py).
-/
namespace Phenum

/-- phonons.py:456-457. -/
def requestText : Str := "number of configurations requested exceeds the number of unique configurations available.".toList

/-- phonons.py:444-458: what is shown when the subset is chosen. -/
def requestWarning (st : MsgState) (wanted : Nat) (total : Int) : List Piece :=
  if (wanted : Int) < total then [] else if (wanted : Int) = total then [] else msgWarn st requestText

/-- `enum_sys`, phonons.py:373-498 (`enumSys`), with what it shows. For a small sample of a large system the subset is not chosen. Simplification: what has
been shown before an error is dropped. -/
def enumSysShown (st : MsgState) (agroup : List Op) (concs : List Nat) (aconcs : List ℚ) (wanted nB : Nat) (supers accept : Bool) (rnd : EnumRandom) :
    Option (Py (List Config × List Piece)) :=
  match arrowConcs concs aconcs with
  | .error e => some (.error e)
  | .ok decor =>
    let h := howManyArrows decor
    match multinomial (concs.map (fun c : Nat => (c : Int))) with
    | .error e => some (.error e)
    | .ok multi =>
      let large := largeSystem multi h.2.1 concs.sum wanted
      match enumTotal agroup concs h.2.2 h.2.1 large wanted rnd with
      | none => none
      | some (.error e) => some (.error e)
      | some (.ok (total, subset)) =>
        let shown := if large then [] else requestWarning st wanted total
        match enumCore agroup concs decor h.2.2 (concs.sum / nB) large total subset wanted supers accept rnd with
        | none => none
        | some (.error e) => some (.error e)
        | some (.ok configs) =>
          if configs.length ≠ wanted ∧ !builtinSuper then some (.error .valueError) else some (.ok (configs, shown))

/-- structures.py:67-69. -/
def manyText (n gtotal : ℕ) : Str :=
  "The number of unique structures you requested (".toList ++ natStr n ++ ") exceeds the total number of unique structures (".toList ++ natStr gtotal ++
    "). The code will return *all* structures for the distribution.".toList

/-- structures.py:128. -/
def limitText : Str := "Reached maximum recursion limit in random assignment.".toList

/-- structures.py:166. -/
def moreText : Str := "More structures were returned than asked for, should not be possible.".toList

/-- The loop `while rtotal[0] < n and recount < 4`, structures.py:109-124, with the value of `recount` after it; the first argument is `4 - recount`. -/
def recountCount (n gtotal : ℕ) (rel : List (DKey × ℕ)) : ℕ → ℕ → (ℕ → ℚ) → ℕ × List (DKey × ℕ) → (ℕ × List (DKey × ℕ)) × ℕ
  | 0, c, _, st => (st, c)
  | k + 1, c, draws, st =>
    if st.1 < n then
      let r := passLoop (n - st.1) n gtotal rel draws st
      recountCount n gtotal rel k (c + 1) (fun i => draws (i + r.2)) r.1
    else (st, c)

/-- `_distribute`, structures.py:37-168 (`distribute`), with what it shows. -/
def distributeShown (st : MsgState) (tables : List PolyaTable) (res : Restrict) (ft : Ftype) (n : Option ℕ) (draws : ℕ → ℚ) :
    List (DKey × ℕ) × List Piece :=
  let ds := distSummary tables res
  let gtotal := ds.2
  let (n, many) := match n with
    | none => (gtotal, [])
    | some k => if k > gtotal then (gtotal, msgWarn st (manyText k gtotal)) else (k, [])
  let rel := relKeys ds.1 ft
  let (result, limit) :=
    if n = gtotal then (assignAll n rel (0, []), [])
    else
      let r := recountCount n gtotal (sortShares n gtotal rel) 4 0 draws (0, [])
      (r.1, if r.2 = 3 ∧ r.1.1 < n then msgWarn st limitText else [])
  (result.2, many ++ limit ++ if result.1 > n then msgWarn st moreText else [])

open Classical in
/-- The loop bringing the basis vectors into the cell with its warning, HNFs.py:145-152 and grouptheory.py:736-746. `b_vecs` is the loop variable: after the
assignment `base_vecs[i] = ...` it is still the old vector if `base_vecs` is a list, and the new one (a view of the row) if it is a two-dimensional array
(`asArray`). `text` is the message with the two vectors (floats as text are left open). -/
noncomputable def bringBasisShown (st : MsgState) (asArray : Bool) (text : V3 → V3 → Str) (P : Matrix (Fin 3) (Fin 3) ℝ) (bas : List V3) (eps : ℝ) :
    Run (List V3 × List Piece) := do
  let l ← bas.mapM (fun b => do
    let c ← runO (bringIntoCell b (P⁻¹).transpose P.transpose eps)
    let bVecs := if asArray then c else b
    pure (c, if ∀ i, |bVecs i - b i| ≤ eps then ([] : List Piece) else msgWarn st (text b bVecs)))
  pure (l.map (·.1), l.flatMap (·.2))

/-- The message of enumeration.py:361-368, when the program starts. -/
def inputWarning (st : MsgState) (a : Args) (d : Dir) : List Piece :=
  if a.enum ∧ (dictGet d ((fileNames a).1.getD [])).isNone then
    msgWarn st ("The input file ".toList ++ ((fileNames a).1.getD []) ++ " does not exist. Assuming you want full enumeration.".toList)
  else []

end Phenum
