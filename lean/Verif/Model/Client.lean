import Verif.Model.Statements
/-
The operations that the embedded library offers on one table (crates/modelardb_embedded/src/operations) and how their arguments get there from C
and Python.
-/
namespace ModelarDB.Model.Client
open Statements

/-- The operations that act on the table they are given (operations/mod.rs:134-147). -/
inductive TableOp where
  | drop
  | truncate
  | vacuum (retention : Option Nat)
deriving DecidableEq, Repr

/-- The text that `Client` sends to a node (operations/client.rs:273-312). -/
def clientText (name : List Char) : TableOp → List Char
  | .truncate => "TRUNCATE ".toList ++ name
  | .drop => "DROP TABLE ".toList ++ name
  | .vacuum (some period) => "VACUUM ".toList ++ name ++ " RETAIN ".toList ++ Nat.toDigits 10 period
  | .vacuum none => "VACUUM ".toList ++ name

/-- What a node that has `tables` does with a text (crates/modelardb_server/src/remote.rs:636-744): the tables that were acted on and whether the
request succeeded. Only for texts that start with DROP TABLE, TRUNCATE or VACUUM. -/
def atNode (tables : List (List Char)) (text : List Char) : List (List Char) × Bool :=
  match (tokenize text).bind parse with
  | some statement => execute tables statement
  | none => ([], false)

/-- An operation of `Client` on a table of a node. -/
def clientPerform (tables : List (List Char)) (op : TableOp) (name : List Char) : List (List Char) × Bool := atNode tables (clientText name op)

/-- An operation of `DataFolder` on a table of the folder (operations/data_folder.rs:493-541 and
crates/modelardb_storage/src/data_folder/mod.rs:659-684). -/
def folderPerform (tables : List (List Char)) (op : TableOp) (name : List Char) : List (List Char) × Bool :=
  if name ∈ tables then
    match op with
    | .vacuum retention => if (retentionUsed retention).isSome then ([name], true) else ([], false)
    | _ => ([name], true)
  else ([], false)

/-- A text that Python gives to C as bytes in UTF-8 that end with zero, as Rust reads it (bindings/python/modelardb/operations.py:629-683
and capi.rs:1076-1094). No other character has a zero in its bytes, so this is about characters. -/
def throughC (text : List Char) : List Char := text.takeWhile (· ≠ '\x00')

/-- The two kinds of `Operations`. -/
inductive Kind where
  | dataFolder
  | client
deriving DecidableEq, Repr

/-- An operation in Python (bindings/python/modelardb/operations.py:629-683 and capi.rs:918-1014). -/
def pythonPerform (kind : Kind) (tables : List (List Char)) (op : TableOp) (name : List Char) : List (List Char) × Bool :=
  match kind with
  | .dataFolder => folderPerform tables op (throughC name)
  | .client => clientPerform tables op (throughC name)

end ModelarDB.Model.Client
