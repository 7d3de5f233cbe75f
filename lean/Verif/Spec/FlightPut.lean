import Verif.Model.FlightPut
import Mathlib.Data.List.Forall2
/-
What is expected when data is put into a table, for C64.
-/
namespace ModelarDB.Spec
open Model.FlightPut

/-- A column with the values its type allows. -/
def TypedColumn (utf8 : List Nat → Bool) (n : Nat) : ColumnType → Column → Prop
  | .fixed _ width, .fixed values => values.length = n ∧ ∀ v ∈ values, v < 256 ^ width
  | .text, .text values => values.length = n ∧ (∀ v ∈ values, utf8 v = true) ∧ values.flatten.length < 2 ^ 31
  | _, _ => False

/-- A batch whose columns have the types and the length it says. -/
def TypedBatch (utf8 : List Nat → Bool) (b : Batch) : Prop :=
  List.Forall₂ (fun (f : Field) c => TypedColumn utf8 b.length f.type c) b.schema b.columns

/-- The value of a column in a row, by name. -/
def valueOf (b : Batch) (row : Nat) (name : String) : Option (ColumnType × (Nat ⊕ List Nat)) :=
  ((b.schema.zip b.columns).find? (·.1.name == name)).bind fun (f, c) =>
    match c with
    | .fixed values => values[row]?.map fun v => (f.type, .inl v)
    | .text values => values[row]?.map fun v => (f.type, .inr v)

/-- All rows are stored with the value of each column under its name, or the request fails and nothing is stored. It fails if the schema is another one than
that of the table. -/
def PutsExactly (table : List Field) (sent : List Batch) (result : List Batch × Bool) : Prop :=
  (result.2 = true ∧ (∀ b ∈ sent, b.schema = table) ∧ result.1.map (·.length) = sent.map (·.length) ∧
    ∀ (i : Nat) (s r : Batch), sent[i]? = some s → result.1[i]? = some r → ∀ row name, valueOf r row name = valueOf s row name) ∨
  (result.2 = false ∧ result.1 = [])

instance (utf8 : List Nat → Bool) (n : Nat) : (t : ColumnType) → (c : Column) → Decidable (TypedColumn utf8 n t c)
  | .fixed _ width, .fixed values => inferInstanceAs (Decidable (values.length = n ∧ ∀ v ∈ values, v < 256 ^ width))
  | .text, .text values => inferInstanceAs (Decidable (values.length = n ∧ (∀ v ∈ values, utf8 v = true) ∧ values.flatten.length < 2 ^ 31))
  | .fixed _ _, .text _ => inferInstanceAs (Decidable False)
  | .text, .fixed _ => inferInstanceAs (Decidable False)

end ModelarDB.Spec
