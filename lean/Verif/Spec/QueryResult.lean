import Verif.Model.QueryResult
import Verif.Spec.FlightPut
import Mathlib.Data.List.Perm.Basic
/-
What is expected of the result of a query at one or more nodes, for C69.
-/
namespace ModelarDB.Spec.QueryResult
open Model.FlightPut Model.QueryResult

/-- The rows of a batch, each as the values of the columns by name. -/
def rows (b : Batch) : List (String → Option (ColumnType × (Nat ⊕ List Nat))) := (List.range b.length).map (valueOf b)

/-- The batches a stream gives. -/
def batchesOf (s : Stream) : List Batch :=
  s.items.filterMap fun
    | .batch b => some b
    | .error => none

/-- A node computes the result of the query without an error. -/
def Works : Option Stream → Prop
  | none => False
  | some s => Item.error ∉ s.items

/-- The rows that the query has at a node. -/
def rowsAt : Option Stream → List (String → Option (ColumnType × (Nat ⊕ List Nat)))
  | none => []
  | some s => (batchesOf s).flatMap rows

/-- What the client has received is the union of the results. -/
def IsUnion (nodes : List (Option Stream)) (r : Received) : Prop :=
  r.failed = false ∧ (r.batches.flatMap rows).Perm (nodes.flatMap rowsAt)

/-- The client gets the union of the results if all nodes work and otherwise an error. -/
def Delivers (nodes : List (Option Stream)) (r : Received) : Prop :=
  ((∀ n ∈ nodes, Works n) → IsUnion nodes r) ∧ ((∃ n ∈ nodes, ¬ Works n) → r.failed = true)

/-- The client gets the union of the results or an error. -/
def NeverWrong (nodes : List (Option Stream)) (r : Received) : Prop :=
  r.failed = true ∨ ((∀ n ∈ nodes, Works n) ∧ IsUnion nodes r)

/-- A stream with batches of its schema. -/
def WellTyped (utf8 : List Nat → Bool) (s : Stream) : Prop :=
  ∀ b, Item.batch b ∈ s.items → TypedBatch utf8 b ∧ b.schema = s.schema

/-- All batches of a stream can be encoded. -/
def Encodable (t : Transport) (s : Stream) : Prop := ∀ b, Item.batch b ∈ s.items → t.encodes b = true

/-- All batches of a stream are small enough for a client. -/
def Small (t : Transport) (s : Stream) : Prop := ∀ b, Item.batch b ∈ s.items → t.size (encode b) ≤ t.limit

end ModelarDB.Spec.QueryResult
