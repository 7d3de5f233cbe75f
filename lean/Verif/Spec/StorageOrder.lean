import Verif.Spec.Storage
/-
Rows that are received in order, for C74.
-/
namespace ModelarDB.Spec.Storage
open Model.Storage

variable {α : Type}

/-- The rows of each series of a table are received in the order of their timestamps. -/
def InOrder (table : String) (received : List (Row α)) : Prop :=
  received.Pairwise fun r s => r.table = table → s.table = table → r.tags = s.tags → r.ts < s.ts

/-- The batches of segments of a series of a table that were saved do not overlap in time. -/
def Separated (table : String) (saved : List (Chunk α)) : Prop :=
  saved.Pairwise fun x y => x.table = table → y.table = table → x.tags = y.tags →
    (∀ p ∈ x.points, ∀ q ∈ y.points, p.1 < q.1) ∨ ∀ p ∈ x.points, ∀ q ∈ y.points, q.1 < p.1

end ModelarDB.Spec.Storage
