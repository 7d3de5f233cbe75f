import Verif.Model.FileOrder
import Verif.Spec.EndToEndRows
/-
Specification of reading the segments of several fields from files, for C80.
-/
namespace ModelarDB.Spec
open Model Model.Query Model.StoredTable

/-- A query reads for each field all segments in its files that are to be kept, and possibly others in its files, each once. They are read in the
order in which they are in the file if there is one, and sorted by tags and by the first time if there are several. -/
structure ReadsFiles {ε : Type} (w : World ε StoredSegment) (lt : List String → List String → Prop) (fields : List Nat)
    (files : Nat → List (List StoredSegment)) : Prop where
  segment : w.segment = segmentOf
  neverFails : ∀ i ∈ fields, ∀ keep, NeverFails (w.read keep i)
  contents : ∀ i ∈ fields, ∀ keep, ∃ read : List StoredSegment, (itemsOf (w.read keep i)).flatten.Perm read ∧ read.Sublist (files i).flatten ∧
    ((files i).flatten.filter keep).Sublist read ∧ ((files i).length ≤ 1 → (itemsOf (w.read keep i)).flatten = read) ∧
    (2 ≤ (files i).length → segmentOf.Sorted lt (itemsOf (w.read keep i)).flatten)

/-- The saves that have segments of a table. -/
def savesOf {α : Type} (name : String) (saves : List (List (Model.Storage.Chunk α))) : List (List (Model.Storage.Chunk α)) :=
  saves.filter fun save => save.any fun c => c.table = name

end ModelarDB.Spec
