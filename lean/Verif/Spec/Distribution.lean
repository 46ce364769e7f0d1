import Verif.Model.Structures
/-
Specification vocabulary: what is available according to a list of polya tables.
-/
namespace Phenum.Spec

/-- The table is consistent: no concentration and no shape is listed twice, every row has one count per concentration
and its total, and the last row has the column totals. -/
structure TableOk (t : PolyaTable) : Prop where
  concs : t.concs.Nodup
  shapes : (t.rows.map (·.1)).Nodup
  width : ∀ r ∈ t.rows, r.2.1.length = t.concs.length
  rowTotal : ∀ r ∈ t.rows, r.2.2 = r.2.1.sum
  colTotal : t.last = (List.range t.concs.length).map (fun j => (t.rows.map (fun r => r.2.1.getD j 0)).sum)

/-- The restriction lets this shape and concentration pass. -/
def passes (res : Restrict) (h : HNF6) (c : Conc) : Bool :=
  match res with
  | .none => true
  | .shapes l => decide (h ∈ l)
  | .concs l => decide (c ∈ l)

/-- The counts of a table that pass the restriction, as (size, shape, concentration, count). -/
def tableEntries (res : Restrict) (t : PolyaTable) : List (ℕ × HNF6 × Conc × ℕ) :=
  t.rows.flatMap (fun r => ((t.concs.zip r.2.1).filter (fun p => passes res r.1 p.1)).map (fun p => (t.size, r.1, p.1, p.2)))

/-- All counts. -/
def entries (res : Restrict) (tables : List PolyaTable) : List (ℕ × HNF6 × Conc × ℕ) := tables.flatMap (tableEntries res)

/-- The type of structure to which a count belongs in a distribution over all parameters, shapes, concentrations or
sizes. -/
def typeOf (ft : Ftype) (e : ℕ × HNF6 × Conc × ℕ) : DKey :=
  match ft with
  | .all => (e.1, some e.2.1, some e.2.2.1)
  | .shape => (e.1, some e.2.1, none)
  | .conc => (e.1, none, some e.2.2.1)
  | .size => (e.1, none, none)

/-- The number of structures available of the given type. -/
def available (ft : Ftype) (E : List (ℕ × HNF6 × Conc × ℕ)) (k : DKey) : ℕ :=
  (E.map (fun e => if typeOf ft e = k then e.2.2.2 else 0)).sum

/-- The number of structures available altogether. -/
def grandTotal (E : List (ℕ × HNF6 × Conc × ℕ)) : ℕ := (E.map (fun e => e.2.2.2)).sum

end Phenum.Spec
