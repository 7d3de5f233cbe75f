import Verif.Model.Embedded
import Verif.Spec.Within
import Mathlib.Data.List.Forall2
/-
Specification of the operations of the embedded library, for C44, C45, C46 and C59.
-/
namespace ModelarDB.Spec.Embedded
open Model Model.Embedded

/-- A value can be stored in a column: null only if the column allows it, and otherwise a value of the type of the column. -/
def CellValid {δ ν : Type} (f : Column δ) : Cell δ ν → Prop
  | none => f.nullable = true
  | some (type, _) => type = f.type

/-- A row can be stored in a table. -/
def RowValid {δ ν : Type} (schema : List (Column δ)) (row : List (Cell δ ν)) : Prop := List.Forall₂ CellValid schema row

/-- The items of a table. -/
def itemsOf {κ δ σ : Type} (st : State κ δ σ) (key : κ) : List σ := ((st key).map Table.items).getD []

/-- What others added to a table. -/
def addedTo {κ σ : Type} [DecidableEq κ] (others : Others κ σ) (key : κ) : List σ := (others.filter fun o => o.1 = key).flatMap Prod.snd

/-- A segment of a field: its data points with the value that was written and the value that is stored. -/
structure Points where
  field : Nat
  points : List (Int × FVal × FVal)
deriving DecidableEq

/-- The stored values of a segment are within the error bound of its field. -/
def Points.Respects (bounds : List ErrorBound) (p : Points) : Prop :=
  ∀ b, bounds[p.field]? = some b → ∀ x ∈ p.points, WithinExact b x.2.1 x.2.2

/-- All values in a table are within its error bounds. -/
def TableRespects {δ : Type} (t : Table δ Points) : Prop := ∀ p ∈ t.items, p.Respects t.bounds

/-- The timestamps of a field in a table. -/
def timestampsOf (items : List Points) (field : Nat) : List Int :=
  (items.filter fun p => p.field = field).flatMap fun p => p.points.map Prod.fst

/-- A time is in a range. -/
def InRange (startTime endTime : Option Int) (t : Int) : Prop := (∀ x, startTime = some x → x ≤ t) ∧ (∀ x, endTime = some x → t ≤ x)

/-- A segment has a point at its start time and at its end time and all points are in between. -/
def Spans (interval : Points → Int × Int) (p : Points) : Prop :=
  (interval p).1 ∈ p.points.map Prod.fst ∧ (interval p).2 ∈ p.points.map Prod.fst ∧
    ∀ t ∈ p.points.map Prod.fst, (interval p).1 ≤ t ∧ t ≤ (interval p).2

end ModelarDB.Spec.Embedded
