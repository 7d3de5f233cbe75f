import Verif.Model.Multivariate
/-
Specification of grouping rows into series, for C14.
-/
namespace ModelarDB.Spec
open Model

/-- What is assumed of sorting: it permutes the rows and the result is ordered. -/
def SortsRows (sort : SortRows) : Prop :=
  ∀ rows, (sort rows).Perm rows ∧ (sort rows).Pairwise fun a b => rowLe a b = true

/-- `part` consists of exactly the rows with the tags, as often as they occur, ordered by time. -/
structure IsSeries (rows : List Row) (tags : List Tag) (part : List Row) : Prop where
  rows : part.Perm (rows.filter fun r => r.tags = tags)
  sorted : part.Pairwise fun a b => a.time ≤ b.time

end ModelarDB.Spec
