import Verif.Model.Polya
/-
Model of the rest of the class `Sequence` in phenum/polyaburnside.py: `kidcount` and `expand_noappend`.
-/
namespace Phenum

/-- The roots of `kids`, polyaburnside.py:57-61. -/
def seqKids (possibles : List Nat) (powersum t root used : Nat) : List Nat :=
  (possibles.filter (fun p =>
      decide (root ≤ p ∧ p - root ≤ t ∧ ((p : Int) - root).natAbs ≤ (powersum : Int) - used ∧
        ((p : Int) - used).natAbs % (possibles.getD 1 0) = 0))).map (fun p => p - root)

/-- `Sequence.kidcount`, polyaburnside.py:68-78. Simplification: the stored value `_kidcount` is not used by the code (line 75
checks it, but nothing is ever stored), so it is not modelled. The first list holds `targets[i:]`. -/
def seqKidcount (possibles : List Nat) (powersum : Nat) : List Nat → Nat → Nat → Nat
  | [], _, _ => 0
  | t :: ts, root, used =>
    let kids := seqKids possibles powersum t root used
    let count := (kids.map (fun k => seqKidcount possibles powersum ts k (used + k))).sum
    if count = 0 then kids.length else count

/-- `sequences[k][col] = val`. -/
def setCell (seqs : List (List Nat)) (k col val : Nat) : Py (List (List Nat)) :=
  match seqs[k]? with
  | none => .error .indexError
  | some row => if col < row.length then .ok (seqs.set k (row.set col val)) else .error .indexError

/-- `for k in range(start, start+n): sequences[k][col] = val`, polyaburnside.py:133-134. -/
def setCells (seqs : List (List Nat)) (col val : Nat) : Nat → Nat → Py (List (List Nat))
  | _, 0 => .ok seqs
  | start, n + 1 => do
    let seqs ← setCell seqs start col val
    setCells seqs col val (start + 1) n

/-- The loop over the kids and the end of `expand_noappend`, polyaburnside.py:124-140, for a list of sequences that is not empty; `varcount` is the number
of variables, `vi >= 1` the number of the variable (`varindex`). -/
def seqFill (possibles : List Nat) (powersum varcount : Nat) : List Nat → Nat → Nat → List (List Nat) → Nat → Nat → Py (List (List Nat))
  | [], root, _, seqs, start, vi => setCell seqs start (vi - 1) root
  | t :: ts, root, used, seqs, start, vi => do
    let r ← (seqKids possibles powersum t root used).foldlM (fun (st : List (List Nat) × Nat) k => do
      let seqs ← seqFill possibles powersum varcount ts k (used + k) st.1 st.2 (vi + 1)
      let n := seqKidcount possibles powersum ts k (used + k) + (if vi + 1 = varcount then 1 else 0)
      let seqs ← setCells seqs (vi - 1) root st.2 n
      pure (seqs, st.2 + n)) (seqs, start)
    if seqKidcount possibles powersum (t :: ts) root used = 0 then setCell r.1 r.2 (vi - 1) root else pure r.1

/-- `Sequence(root, possibles, 1, powersum, targets).expand_noappend(sequences, start, varindex)`, polyaburnside.py:106-140; `ts` is `targets[1:]`. -/
def seqNoappend (possibles : List Nat) (powersum : Nat) (ts : List Nat) (root : Nat) (seqs : List (List Nat)) (start vi : Nat) : Py (List (List Nat)) :=
  if seqs.length = 0 then
    if seqKidcount possibles powersum ts root root = 0 then .error .valueError
    else
      seqFill possibles powersum (ts.length + 1) ts root root
        (List.replicate (seqKidcount possibles powersum ts root root) (List.replicate (ts.length + 1) 0)) start vi
  else seqFill possibles powersum (ts.length + 1) ts root root seqs start vi

end Phenum
