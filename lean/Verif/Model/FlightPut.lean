import Mathlib.Data.List.Basic
/-
Writing data to a table of a node with Apache Arrow Flight.

Source: crates/modelardb_server/src/remote.rs and crates/modelardb_embedded/src/operations/client.rs.

The crates arrow-flight and arrow-ipc are not part of the repository. Their encoder writes the buffers of the columns one after another, and their decoder
reads as many buffers for each column as its type in the given schema has; they are modelled from the format of Arrow IPC. Columns have values of a fixed
number of bytes or text. Nulls, dictionaries and compression are not modelled. Bytes are numbers.
-/
namespace ModelarDB.Model.FlightPut

/-- The type of a column: values of a number of bytes, e.g. `Float32`, or text in UTF-8. -/
inductive ColumnType where
  | fixed (name : String) (width : Nat)
  | text
deriving DecidableEq, Repr

/-- A column of a schema. -/
structure Field where
  name : String
  type : ColumnType
deriving DecidableEq, Repr

/-- The values of a column: the bits of each value or the bytes of each text. -/
inductive Column where
  | fixed (values : List Nat)
  | text (values : List (List Nat))
deriving DecidableEq, Repr

/-- The number of values. -/
def Column.length : Column → Nat
  | .fixed values => values.length
  | .text values => values.length

/-- A `RecordBatch`. -/
structure Batch where
  schema : List Field
  length : Nat
  columns : List Column
deriving DecidableEq, Repr

/-- A message with a record batch: the number of values of each column and the buffers. It does not contain the schema. -/
structure Message where
  nodes : List Nat
  buffers : List (List Nat)
deriving DecidableEq, Repr

/-- The lowest bytes of a number, little endian. -/
def toLe : Nat → Nat → List Nat
  | 0, _ => []
  | w + 1, v => v % 256 :: toLe w (v / 256)

/-- The number with the given bytes. -/
def ofLe : List Nat → Nat
  | [] => 0
  | b :: bs => b + 256 * ofLe bs

/-- The offsets of texts that follow each other. -/
def offsets (start : Nat) : List (List Nat) → List Nat
  | [] => [start]
  | t :: ts => start :: offsets (start + t.length) ts

/-- The bitmap for values that are all valid. -/
def validity (n : Nat) : List Nat := List.replicate ((n + 7) / 8) 255

/-- The buffers of a column (arrow-ipc). -/
def encodeColumn : ColumnType → Column → List (List Nat)
  | .fixed _ width, .fixed values => [validity values.length, values.flatMap (toLe width)]
  | _, .text values => [validity values.length, (offsets 0 values).flatMap (toLe 4), values.flatten]
  | .text, .fixed values => [validity values.length, values.flatMap (toLe 4)]

/-- The message for a batch (`FlightDataEncoder` of arrow-flight). -/
def encode (b : Batch) : Message :=
  ⟨b.columns.map Column.length, ((b.schema.zip b.columns).flatMap fun (f, c) => encodeColumn f.type c)⟩

/-- The values in a buffer, an error if it is too short. -/
def decodeFixed (width : Nat) : Nat → List Nat → Option (List Nat)
  | 0, _ => some []
  | n + 1, buffer =>
    if width ≤ buffer.length then (decodeFixed width n (buffer.drop width)).map (ofLe (buffer.take width) :: ·) else none

/-- The texts between offsets, an error if they are not increasing, are not in the buffer or are not UTF-8. -/
def decodeTexts (utf8 : List Nat → Bool) (data : List Nat) : List Nat → Option (List (List Nat))
  | a :: b :: rest =>
    if a ≤ b ∧ b ≤ data.length ∧ b < 2 ^ 31 ∧ utf8 ((data.drop a).take (b - a)) = true then
      (decodeTexts utf8 data (b :: rest)).map ((data.drop a).take (b - a) :: ·)
    else none
  | [a] => if a ≤ data.length then some [] else none
  | [] => none

/-- Decode a column with the type it has in the schema and return the buffers that are left. -/
def decodeColumn (utf8 : List Nat → Bool) (n : Nat) : ColumnType → List (List Nat) → Option (Column × List (List Nat))
  | .fixed _ width, _ :: values :: rest => (decodeFixed width n values).map fun vs => (.fixed vs, rest)
  | .text, _ :: os :: data :: rest => (decodeFixed 4 (n + 1) os).bind fun os => (decodeTexts utf8 data os).map fun ts => (.text ts, rest)
  | _, _ => none

/-- Decode columns in order. Nodes and buffers that are left at the end are ignored. -/
def decodeColumns (utf8 : List Nat → Bool) : List Field → List Nat → List (List Nat) → Option (List Column)
  | [], _, _ => some []
  | f :: fs, n :: ns, buffers => (decodeColumn utf8 n f.type buffers).bind fun (c, rest) => (decodeColumns utf8 fs ns rest).map (c :: ·)
  | _ :: _, [], _ => none

/-- `flight_data_to_record_batch` (remote.rs:230-239): the batch has the schema of the table. The columns must have the same length, which is that of the
batch. -/
def decode (utf8 : List Nat → Bool) (schema : List Field) (length : Nat) (m : Message) : Option Batch :=
  (decodeColumns utf8 schema m.nodes m.buffers).bind fun columns =>
    if columns.all (·.length == length) then some ⟨schema, length, columns⟩ else none

/-- `ingest_into_normal_table` and `ingest_into_time_series_table` (remote.rs:472-525): the batches that are ingested, in order, up to the first error, and
whether all were. Each message comes with the number of rows. `stores i` is whether the storage engine can ingest the `i`-th batch. -/
def ingest (utf8 : List Nat → Bool) (schema : List Field) (stores : Nat → Bool) : Nat → List (Nat × Message) → List Batch × Bool
  | _, [] => ([], true)
  | i, (n, m) :: rest =>
    match decode utf8 schema n m with
    | none => ([], false)
    | some b =>
      if stores i then (b :: (ingest utf8 schema stores (i + 1) rest).1, (ingest utf8 schema stores (i + 1) rest).2) else ([], false)

/-- `do_put` (remote.rs:750-794) of the batches that a client sends (operations/client.rs:161-179). The first message has the name of the table and the
schema of the sender; the schema is not read. The client sends a large batch in several messages, so `sent` are the parts of the batch. -/
def put (utf8 : List Nat → Bool) (stores : Nat → Bool) (table : List Field) (sent : List Batch) : List Batch × Bool :=
  ingest utf8 table stores 0 (sent.map fun b => (b.length, encode b))

end ModelarDB.Model.FlightPut
