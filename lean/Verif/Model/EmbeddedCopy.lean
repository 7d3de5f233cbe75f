import Verif.Model.Embedded
import Verif.Model.FlightPut
/-
Copying the result of a query to a table with the embedded library.

Source: crates/modelardb_embedded/src/operations/data_folder.rs and crates/modelardb_embedded/src/operations/client.rs.

Simplifications:
* The result of the query is given: its schema, and its batches up to the first error. It does not change while it is copied, also if it is read from
  the table it is copied to, as a plan reads the version of the table for which it was made.
* The rows of normal tables are the items of `Model/Embedded.lean`, and all batches are written with one commit, see C50.
-/
namespace ModelarDB.Model.EmbeddedCopy
open Embedded

variable {κ δ ν σ τ β : Type} [DecidableEq κ] [DecidableEq δ]

/-- The result of a query: its schema and its batches, with `none` for an error in the middle. -/
structure Answer (δ ν : Type) where
  schema : List (Column δ)
  batches : List (Option (Batch δ ν))
deriving DecidableEq

/-- `common::collect`: all batches or the first error. -/
def collect : List (Option (Batch δ ν)) → Option (List (Batch δ ν))
  | [] => some []
  | none :: _ => none
  | some b :: rest => (collect rest).map (b :: ·)

/-- `DataFolder::copy`, data_folder.rs:254-291. `target` is `none` if the target is not a data folder, `answer` is `none` if the query cannot be
executed, and `encode` are the items that are written for batches, or `none` if they cannot be written. -/
def copyFolder (encode : Table δ σ → List (Batch δ ν) → Option (List σ)) (st : State κ δ σ) (target : Option κ) (answer : Option (Answer δ ν)) :
    Outcome κ δ σ :=
  match target with
  | none => (st, some .notTable)
  | some key =>
    match st key with
    | none => (st, some .notTable)
    | some t =>
      if t.kind ≠ .normal then (st, some .notTable)
      else
        match answer with
        | none => (st, some .failed)
        | some a =>
          if a.schema ≠ t.schema then (st, some .mismatch)
          else
            match collect a.batches with
            | none => (st, some .failed)
            | some batches =>
              match encode t batches with
              | none => (st, some .failed)
              | some items => (st.append key items, none)

/-- The loop of `Client::copy`, client.rs:213-215. `write` is that of the target, which is a data folder or another server. -/
def copyLoop (write : τ → β → τ × Option Error) : τ → List (Option β) → τ × Option Error
  | st, [] => (st, none)
  | st, none :: _ => (st, some .failed)
  | st, some b :: rest =>
    match write st b with
    | (st', some e) => (st', some e)
    | (st', none) => copyLoop write st' rest

/-- `Client::copy`, client.rs:205-218. The schema of the result is not looked at. -/
def copyClient (write : τ → β → τ × Option Error) (st : τ) (batches : Option (List (Option β))) : τ × Option Error :=
  match batches with
  | none => (st, some .failed)
  | some batches => copyLoop write st batches

/-- `DataFolder::write`, data_folder.rs:191-236, as the target of a copy. -/
def writeFolder (encode : Table δ σ → Batch δ ν → Option (List σ)) (key : κ) (st : State κ δ σ) (batch : Batch δ ν) : Outcome κ δ σ :=
  match write encode st key batch with
  | .error e => (st, some e)
  | .ok st' => (st', none)

/-- `Client::write`, client.rs:164-180, as the target of a copy: the batch is sent in parts and the server ingests them, see `Model/FlightPut.lean`.
The state is what the server ingested. -/
def writeServer (utf8 : List Nat → Bool) (parts : FlightPut.Batch → List FlightPut.Batch) (stores : Nat → Bool) (table : List FlightPut.Field)
    (ingested : List FlightPut.Batch) (batch : FlightPut.Batch) : List FlightPut.Batch × Option Error :=
  match FlightPut.put utf8 stores table (parts batch) with
  | (stored, true) => (ingested ++ stored, none)
  | (stored, false) => (ingested ++ stored, some .failed)

end ModelarDB.Model.EmbeddedCopy
