import Verif.Model.QueryStream
/-
Specification of reading time series tables, for C35 to C37.
-/
namespace ModelarDB.Spec
open Model.Query

/-- The items of an input stream. -/
def itemsOf {α : Type} (events : List (Event α)) : List α :=
  events.filterMap fun
    | .item a => some a
    | _ => none

/-- The input stream never fails. -/
def NeverFails {α : Type} (events : List (Event α)) : Prop := ∀ e ∈ events, e ≠ .error

/-- Reading a stream gives these items and then ends normally, however often it is polled beyond that. -/
def ReadsAs {S α : Type} (poll : S → Option (Poll α × S)) (s : S) (items : List α) : Prop :=
  ∃ n, ∀ m, n ≤ m → drain poll m s = (items, .finished)

/-- The data points a filter keeps. -/
def kept (predicate : Option (Point → Bool)) (points : List Point) : List Point :=
  match predicate with
  | some p => points.filter p
  | none => points

/-- All batches but the last are full: they hold at least `n` data points that the filter keeps. -/
def FullBatches {σ : Type} (points : σ → List Point) (predicate : Option (Point → Bool)) (n : Nat) (batches : List (List σ)) : Prop :=
  ∀ b ∈ batches.dropLast, n ≤ (kept predicate (b.flatMap points)).length

/-- A row of a table. `values` gives the value of each field. -/
structure TableRow where
  time : Int
  tags : List String
  values : Nat → Nat

/-- The data point of the field `i`. -/
def TableRow.point (i : Nat) (row : TableRow) : Point := ⟨row.time, row.values i, row.tags⟩

/-- What a query for the columns `order` returns for a row. `fields` are the fields that are requested, in order. -/
def cellsOf (tagNames : List String) (row : TableRow) : List JoinColumn → List Nat → Option (List Cell)
  | [], _ => some []
  | .timestamp :: order, fields => (cellsOf tagNames row order fields).map (.time row.time :: ·)
  | .field :: _, [] => none
  | .field :: order, i :: fields => (cellsOf tagNames row order fields).map (.value (row.values i) :: ·)
  | .tag name :: order, fields => do
    let i ← tagNames.findIdx? (· == name)
    let tag ← row.tags[i]?
    let cells ← cellsOf tagNames row order fields
    return .tag tag :: cells

/-- The rows of a batch of columns: row `i` has the values with index `i` of all columns. -/
def rowsOfColumns (columns : List (List Cell)) : List (List Cell) :=
  match columns with
  | [] => []
  | c :: _ => (List.range c.length).map fun i => columns.filterMap fun column => column[i]?

/-- The name of a tag is not one of the names the server uses for the time and the value of a data point. -/
def FreeName (name : String) : Prop := name ≠ "timestamp" ∧ name ≠ "value"

instance (name : String) : Decidable (FreeName name) := inferInstanceAs (Decidable (_ ∧ _))

/-- The columns of a query can be returned: there is one, the tags exist and have free names and there is a field for each column that is a
field. -/
structure Answerable (tagNames : List String) (order : List JoinColumn) (fields : List Nat) : Prop where
  columns : order ≠ []
  inputs : fields ≠ []
  tags : ∀ name, .tag name ∈ order → name ∈ tagNames ∧ FreeName name
  values : order.count .field ≤ fields.length

/-- The order of rows and data points: by tags, then by time. -/
def Before (lt : List String → List String → Prop) (tags tags' : List String) (time time' : Int) : Prop :=
  lt tags tags' ∨ tags = tags' ∧ time < time'

/-- What is known of a stored segment: its tags, its first and its last time. -/
structure SegmentOf (σ : Type) where
  points : σ → List Point
  tags : σ → List String
  start : σ → Int
  stop : σ → Int

/-- The data points of a segment have its tags, increase in time and are between its first and last time. -/
structure SegmentOf.Valid {σ : Type} (segment : SegmentOf σ) (s : σ) : Prop where
  tags : ∀ p ∈ segment.points s, p.tags = segment.tags s
  times : ∀ p ∈ segment.points s, segment.start s ≤ p.time ∧ p.time ≤ segment.stop s
  increasing : (segment.points s).Pairwise fun p q => p.time < q.time
  order : segment.start s ≤ segment.stop s

/-- The segments of one time series do not overlap in time. -/
def SegmentOf.Disjoint {σ : Type} (segment : SegmentOf σ) (segments : List σ) : Prop :=
  segments.Pairwise fun a b => segment.tags a ≠ segment.tags b ∨ segment.stop a < segment.start b ∨ segment.stop b < segment.start a

/-- The segments are sorted by tags and then by their first time, in any order if these are equal. -/
def SegmentOf.Sorted {σ : Type} (segment : SegmentOf σ) (lt : List String → List String → Prop) (segments : List σ) : Prop :=
  segments.Pairwise fun a b => lt (segment.tags a) (segment.tags b) ∨ segment.tags a = segment.tags b ∧ segment.start a ≤ segment.start b

/-- A filter that only uses the time and the tags, for data points and for rows. -/
def onPoints (filter : Option (Int → List String → Bool)) : Option (Point → Bool) := filter.map fun f p => f p.time p.tags

/-- The rows a filter keeps. -/
def keptRows (filter : Option (Int → List String → Bool)) (rows : List TableRow) : List TableRow :=
  match filter with
  | some f => rows.filter fun row => f row.time row.tags
  | none => rows

end ModelarDB.Spec
