import Verif.Model.Phonons
import Mathlib.Data.Rat.Floor
/-
Model of phenum/polyaburnside.py (the counting part).

Simplification: Python's true division `/` gives floats; the model uses exact rationals. All quotients formed
are proved to be integers, so the model agrees with the code as long as the numbers stay below 2^53.
-/
namespace Phenum

/-- `Multinomial`, polyaburnside.py:249-272 (`powersum` and `possible_powers` are derived). -/
structure Multinom where
  power : Nat
  coeff : Nat
  arrowings : List Bool
  exponent : Nat
  deriving DecidableEq

/-- polyaburnside.py:267. -/
def Multinom.powersum (m : Multinom) : Nat := m.power * m.exponent

/-- `list(range(0, power*exponent+1, power))`, polyaburnside.py:270. `range` with step 0 raises ValueError;
powers are cycle lengths, hence at least 1. -/
def Multinom.possible (m : Multinom) : List Nat := (List.range (m.exponent + 1)).map (fun j => m.power * j)

/-- The loops of `nchoosek`, polyaburnside.py:339-345: `t = t*i/(n-i+1)` for the listed `i`. -/
def nchoosekLoop (n : Int) : List Int → Rat → Rat
  | [], t => t
  | i :: rest, t => nchoosekLoop n rest (t * i / ((n - i + 1 : Int) : Rat))

/-- `Multinomial.nchoosek`, polyaburnside.py:322-347. -/
def nchoosek (n k : Int) : Rat :=
  if ¬ (-1 < k ∧ k < n + 1) then 0
  else if k = 0 ∧ n = 0 then 1
  else if k < n - k then nchoosekLoop n (pyRangeDown n (n - k)) 1
  else nchoosekLoop n (pyRangeDown n k) 1

/-- `Multinomial.nchoosekm`, polyaburnside.py:280-319. `normseq[iseq]` is out of range (IndexError) only if
there are more arrow flags than variables; such entries count as exponent 0 here. -/
def Multinom.nchoosekm (m : Multinom) (seq : List Nat) : Rat :=
  if seq.all (fun s => s % m.power = 0) then
    let norm := seq.map (fun s => s / m.power)
    let prod := (List.range norm.length).foldl
      (fun (acc : Rat) i => acc * nchoosek ((norm.take (i + 1)).sum : Nat) (norm.getD i 0 : Nat)) 1
    let pcoeff := (List.range m.arrowings.length).foldl
      (fun (acc : Nat) i => if m.arrowings.getD i false then acc * m.coeff ^ (norm.getD i 0) else acc) 1
    prod * pcoeff
  else 0

/-- `Sequence.__init__` followed by `Sequence.expand`, polyaburnside.py:39-65 and 80-104. The first list holds
the targets of the variables not yet treated (`targets[i:]`). -/
def seqExpand (possibles : List Nat) (powersum : Nat) : List Nat → Nat → Nat → List (List Nat)
  | [], root, _ => [[root]]
  | t :: ts, root, used =>
    let kids := (possibles.filter (fun p =>
      decide (root ≤ p ∧ p - root ≤ t ∧ ((p : Int) - root).natAbs ≤ (powersum : Int) - used ∧
        ((p : Int) - used).natAbs % (possibles.getD 1 0) = 0))).map (fun p => p - root)
    if kids.isEmpty then [root :: List.replicate (ts.length + 1) 0]
    else (kids.flatMap (fun k => seqExpand possibles powersum ts k (used + k))).map (fun s => root :: s)

/-- `itertools.product(*ls)`. -/
def pyProduct {α : Type} : List (List α) → List (List α)
  | [] => [[]]
  | l :: ls => l.flatMap (fun a => (pyProduct ls).map (fun r => a :: r))

/-- `[sum(zs) for zs in zip(*seq)]` for equally long sequences of length `k`, polyaburnside.py:219
(`zip` of nothing is empty). -/
def colSums (k : Nat) (seqs : List (List Nat)) : List Nat :=
  if seqs.isEmpty then [] else (List.range k).map (fun j => (seqs.map (fun s => s.getD j 0)).sum)

/-- `_sum_sequences`, polyaburnside.py:200-223. -/
def sumSequences (ms : List Multinom) (targets : List Nat) (mnseq : List (List (List Nat))) : Rat :=
  ((pyProduct mnseq).map (fun seq =>
    if colSums targets.length seq = targets then
      ((ms.zip seq).map (fun p => p.1.nchoosekm p.2)).prod
    else 0)).sum

/-- `Product.coeff`, polyaburnside.py:162-198. `self.targets[0]` raises IndexError for an empty target. -/
def productCoeff (coefficient : Nat) (targets : List Nat) (ms : List Multinom) : Py Rat :=
  match ms with
  | [m] =>
    if targets.all (fun t => decide ((m.power : Int) - t > 0)) then .ok 0
    else .ok (m.nchoosekm targets * coefficient)
  | _ =>
    match targets with
    | [] => .error .indexError
    | t0 :: ts =>
      let seq0 := (pyProduct (ms.map Multinom.possible)).filter (fun s => s.sum = t0)
      let coeffs := (seq0.map (fun seq =>
        sumSequences ms targets
          ((seq.zip ms).map (fun p => seqExpand p.2.possible p.2.powersum ts p.1 p.1)))).sum
      .ok (coeffs.floor * coefficient)

/-- One cycle: the inner loops of `_group_to_cyclic`, polyaburnside.py:443-450 and 457-469. Returns the visited
flags and the length of the cycle starting at `v`. -/
structure CycState where
  cursor : Nat
  visited : List Nat
  len : Nat

/-- The body of the inner loop. -/
def cycStep (op : List Nat) (s : CycState) : Py CycState := do
  let visited ← pySet s.visited s.cursor 1
  let cursor ← pyGet op s.cursor
  .ok { cursor, visited, len := s.len + 1 }

/-- The inner loop for the cycle of `v`. -/
def cycleFrom (op : List Nat) (v : Nat) (visited : List Nat) : Option (Py CycState) :=
  match pySet visited v 1, pyGet op v with
  | .ok visited, .ok c => pyWhile (fun s => decide (s.cursor ≠ v)) (cycStep op) { cursor := c, visited, len := 1 }
  | .error e, _ => some (.error e)
  | _, .error e => some (.error e)

/-- The outer loop: `while 0 in visited`, polyaburnside.py:440-451 and 453-469; the lengths of the cycles in the
order found. The recursion is on a bound for the number of unvisited entries (the first entry of each cycle is
unvisited and gets visited). `none` means non-termination. -/
def cycleLens (op : List Nat) : Nat → List Nat → Option (Py (List Nat))
  | 0, _ => some (.ok [])
  | fuel + 1, visited =>
    match pyIndex 0 visited with
    | .error _ => some (.ok [])
    | .ok v =>
      match cycleFrom op v visited with
      | none => none
      | some (.error e) => some (.error e)
      | some (.ok s) =>
        match cycleLens op fuel s.visited with
        | some (.ok r) => some (.ok (s.len :: r))
        | other => other

/-- All cycle lengths of an operation. -/
def opCycles (op : List Nat) : Option (Py (List Nat)) := cycleLens op op.length (List.replicate op.length 0)

/-- `polynomials[key] += 1` on an insertion-ordered dict, polyaburnside.py:480-484. -/
def bumpKey (key : Nat × Nat) : List ((Nat × Nat) × Nat) → List ((Nat × Nat) × Nat)
  | [] => [(key, 1)]
  | (k, v) :: rest => if k = key then (k, v + 1) :: rest else (k, v) :: bumpKey key rest

/-- The polynomial dict of one operation, polyaburnside.py:432-485. -/
def opPolynomials (op : Op) : Option (Py (List ((Nat × Nat) × Nat))) :=
  match opCycles op.2, opCycles op.1 with
  | some (.ok arrowLens), some (.ok siteLens) =>
    some (.ok (siteLens.foldl (fun d powers =>
      bumpKey (powers, (arrowLens.filter (fun l => powers % l = 0)).sum) d) []))
  | some (.error e), _ => some (.error e)
  | none, _ => none
  | _, some (.error e) => some (.error e)
  | _, none => none

/-- `_group_to_cyclic` with `limit=None`, polyaburnside.py:404-487. -/
def groupToCyclic (group : List Op) : Option (Py (List (List ((Nat × Nat) × Nat)))) :=
  match group with
  | [] => some (.error .indexError)
  | g0 :: _ =>
    let group := if 0 ∈ g0.1 then group
      else group.map (fun t => (t.1.map (· - 1), t.2.map (· - 1)))
    group.foldr (fun op acc =>
      match opPolynomials op, acc with
      | some (.ok p), some (.ok r) => some (.ok (p :: r))
      | some (.error e), _ => some (.error e)
      | none, _ => none
      | _, other => other) (some (.ok []))

/-- The text of a multinomial in the dictionary key, polyaburnside.py:274-278: the displayed coefficients, the
power and the exponent. Simplification: the key is the list of displayed numbers instead of the string (the
string shows exactly these numbers, separated by punctuation). -/
def Multinom.shown (m : Multinom) : List (Nat × Nat) × Nat :=
  (m.arrowings.map (fun a => (if a then m.coeff else 1, m.power)), m.exponent)

/-- insertion into a list sorted by decreasing `(exponent, power)`, after entries that compare equal -/
def insertMn (m : Multinom) : List Multinom → List Multinom
  | [] => [m]
  | x :: xs =>
    if m.exponent > x.exponent ∨ (m.exponent = x.exponent ∧ m.power > x.power) then m :: x :: xs
    else x :: insertMn m xs

/-- `sorted(multinoms, key=(exponent, power), reverse=True)`, polyaburnside.py:227 (stable). -/
def sortMns (ms : List Multinom) : List Multinom := ms.foldl (fun acc m => insertMn m acc) []

/-- `Product.__str__`, polyaburnside.py:225-228, for a fresh product (coefficient 1). -/
def productKey (ms : List Multinom) : List (List (Nat × Nat) × Nat) := (sortMns ms).map Multinom.shown

/-- the dict `polyndict`: key, product, multiplicity -/
abbrev PolyDict := List (List (List (Nat × Nat) × Nat) × List Multinom × Nat)

/-- polyaburnside.py:532-536. -/
def addProduct (ms : List Multinom) : PolyDict → PolyDict
  | [] => [(productKey ms, ms, 1)]
  | (k, p, c) :: rest => if k = productKey ms then (k, p, c + 1) :: rest else (k, p, c) :: addProduct ms rest

/-- The `arrowings` argument: absent, a number, or a list of flags (polyaburnside.py:509-512). -/
inductive Arrowings
  | none
  | num (m : Nat)
  | flags (l : List Bool)

/-- polyaburnside.py:509-512. -/
def Arrowings.toFlags (k : Nat) : Arrowings → List Bool
  | .none => List.replicate k false
  | .num m => List.replicate (k - m) false ++ List.replicate m true
  | .flags l => l

/-- polyaburnside.py:520-522: make one list zero-based. -/
def zeroBase (l : List Nat) : List Nat := if 0 ∈ l then l else l.map (· - 1)

/-- sum of the coefficients of the distinct products, polyaburnside.py:546 -/
def sumCoeffs (concs : List Nat) : PolyDict → Py Rat
  | [] => .ok 0
  | (_, ms, c) :: rest => do
    let v ← productCoeff c concs ms
    let r ← sumCoeffs concs rest
    .ok (v + r)

/-- `polya`, polyaburnside.py:489-547. -/
def polya (concs : List Nat) (group : List Op) (arrowings : Arrowings) : Option (Py Int) :=
  match group with
  | [] => some (.error .indexError)
  | g0 :: _ =>
    if concs.sum ≠ g0.1.length then some (.error .valueError)
    else
      let flags := arrowings.toFlags concs.length
      let group' := group.map (fun g => (zeroBase g.1, zeroBase g.2))
      match groupToCyclic group' with
      | none => none
      | some (.error e) => some (.error e)
      | some (.ok ps) =>
        let dict := ps.foldl (fun d poly =>
          addProduct (poly.map (fun kv => (⟨kv.1.1, kv.1.2, flags, kv.2⟩ : Multinom))) d) []
        match sumCoeffs concs dict with
        | .error e => some (.error e)
        | .ok rad => some (.ok (rad / (group.length : Rat)).floor)

end Phenum
