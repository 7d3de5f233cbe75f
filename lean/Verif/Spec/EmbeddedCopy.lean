import Verif.Model.EmbeddedCopy
/-
What a user who copies the result of a query to a table expects, for C83.
-/
namespace ModelarDB.Spec.EmbeddedCopy
open Model Model.Embedded Model.EmbeddedCopy

variable {κ δ ν σ : Type}

/-- The rows of batches. -/
def rowsOf (batches : List (Batch δ ν)) : List (List (Cell δ ν)) := batches.flatMap (·.rows)

/-- The whole result: all its batches, without an error. -/
def Complete (a : Answer δ ν) (batches : List (Batch δ ν)) : Prop := a.batches = batches.map some

/-- What is stored for a row in a normal table. -/
structure Stores (item : List (Cell δ ν) → σ) (encode : Table δ σ → List (Batch δ ν) → Option (List σ)) : Prop where
  rows : ∀ t batches items, t.kind = .normal → encode t batches = some items → items = (rowsOf batches).map item

/-- What is stored for the rows of a batch in a normal table. -/
structure StoresEach (item : List (Cell δ ν) → σ) (encode : Table δ σ → Batch δ ν → Option (List σ)) : Prop where
  rows : ∀ t batch items, t.kind = .normal → encode t batch = some items → items = batch.rows.map item

/-- Items are added to one table and nothing else is changed. -/
structure Added (key : κ) (items : List σ) (st st' : State κ δ σ) : Prop where
  table : ∃ t, st key = some t ∧ st' key = some { t with items := t.items ++ items }
  others : ∀ k, k ≠ key → st' k = st k

end ModelarDB.Spec.EmbeddedCopy
