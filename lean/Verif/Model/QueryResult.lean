import Verif.Model.FlightPut
/-
How the result of a query gets from the nodes that execute it to the client.

Source: crates/modelardb_server/src/remote.rs, crates/modelardb_embedded/src/lib.rs and operations/client.rs, and crates/modelardb_client/src/main.rs.

Batches and messages are those of `Model/FlightPut.lean`. The crates arrow-flight, arrow-ipc and tonic are not part of the repository. They are given by
`Transport`: whether a batch can be encoded, how large a message is and how large a message a client accepts. The query itself is not modelled: what a
node computes for it is any stream. Connections that break give an error to the reader, as tonic does, and are an `error` of a stream.
-/
namespace ModelarDB.Model.QueryResult
open FlightPut

/-- What a stream of record batches can give. -/
inductive Item where
  | batch (b : Batch)
  | error
deriving DecidableEq, Repr

/-- A `RecordBatchStream`: its schema and what it gives, in order. -/
structure Stream where
  schema : List Field
  items : List Item
deriving DecidableEq, Repr

/-- What is sent over a connection as the answer to a query. -/
inductive Sent where
  | schema (fields : List Field)
  | batch (rows : Nat) (message : Message)
  | status
deriving DecidableEq, Repr

/-- The libraries for sending messages. -/
structure Transport where
  /-- The texts that are valid. -/
  utf8 : List Nat → Bool
  /-- Whether arrow-ipc can encode the batch. -/
  encodes : Batch → Bool
  /-- The bytes of a message. -/
  size : Message → Nat
  /-- The largest message that is accepted by a client. No client in the repository changes what tonic uses, 4 MiB (remote.rs:76-78 does for the server). -/
  limit : Nat

/-- The loop of `send_query_result` (remote.rs:185-208): an error of the stream is sent and ends the loop. An error when encoding ends the loop and is
returned, and `do_get` (remote.rs:733-741) logs it; it is not sent. -/
def sendItems (t : Transport) : List Item → List Sent
  | [] => []
  | .error :: _ => [.status]
  | .batch b :: rest => if t.encodes b then .batch b.length (encode b) :: sendItems t rest else []

/-- `send_query_result` (remote.rs:169-211). -/
def sendQueryResult (t : Transport) (s : Stream) : List Sent := .schema s.schema :: sendItems t s.items

/-- The messages after the schema as they are read by a node (remote.rs:147-158) or by a client (modelardb_client/src/main.rs:349-351 and 383-385 and
`FlightRecordBatchStream` in operations/client.rs:187-190). Each message is decoded with the schema that was sent first. Reading ends at an error of the
connection. -/
def receiveItems (t : Transport) (schema : List Field) : List Sent → List Item
  | [] => []
  | .status :: _ => [.error]
  | .schema _ :: _ => [.error]
  | .batch rows m :: rest =>
    if t.size m ≤ t.limit then
      (match decode t.utf8 schema rows m with
        | some b => .batch b
        | none => .error) :: receiveItems t schema rest
    else [.error]

/-- `execute_query_at_address` (remote.rs:123-164) after the connection is made: the first message must be the schema. -/
def receive (t : Transport) : List Sent → Option Stream
  | .schema fields :: rest => some ⟨fields, receiveItems t fields rest⟩
  | _ => none

/-- What `SelectAll` (remote.rs:105-118) gives for streams: always the next item of any stream that has one. -/
inductive Interleaved {α : Type} : List (List α) → List α → Prop where
  | done {streams : List (List α)} : (∀ s ∈ streams, s = []) → Interleaved streams []
  | next {before after : List (List α)} {rest out : List α} {x : α} :
    Interleaved (before ++ rest :: after) out → Interleaved (before ++ (x :: rest) :: after) (x :: out)

/-- What a client has read: the schema, the batches before an error, and whether there was one. -/
structure Received where
  schema : Option (List Field)
  batches : List Batch
  failed : Bool
deriving DecidableEq, Repr

/-- The batches before the first error. -/
def collect : List Item → List Batch × Bool
  | [] => ([], false)
  | .error :: _ => ([], true)
  | .batch b :: rest => (b :: (collect rest).1, (collect rest).2)

/-- What a client reads of an answer. -/
def clientReads (t : Transport) (sent : List Sent) : Received :=
  match receive t sent with
  | none => ⟨none, [], true⟩
  | some s => ⟨some s.schema, (collect s.items).1, (collect s.items).2⟩

/-- What a client can get for a query (remote.rs:665-744). `own` is what the node that is asked computes and `others` what the nodes at the addresses in
INCLUDE compute, `none` if the query cannot be started there. A node that is at an address more than once is asked more than once (remote.rs:109-113). -/
inductive Answer (t : Transport) : Option Stream → List (Option Stream) → Received → Prop where
  | ownFails {others : List (Option Stream)} : Answer t none others ⟨none, [], true⟩
  | otherFails {own : Stream} {others : List (Option Stream)} : none ∈ others → Answer t (some own) others ⟨none, [], true⟩
  | union {own : Stream} {others received : List Stream} {items : List Item} :
    others.map (fun s => receive t (sendQueryResult t s)) = received.map some →
    Interleaved (own.items :: received.map (·.items)) items →
    Answer t (some own) (others.map some) (clientReads t (sendQueryResult t ⟨own.schema, items⟩))

/-- Two columns after each other. -/
def appendColumn : Column → Column → Option Column
  | .fixed a, .fixed b => some (.fixed (a ++ b))
  | .text a, .text b => some (.text (a ++ b))
  | _, _ => none

/-- The columns of two batches after each other. -/
def appendColumns : List Column → List Column → Option (List Column)
  | [], [] => some []
  | a :: as, b :: bs => (appendColumn a b).bind fun c => (appendColumns as bs).map (c :: ·)
  | _, _ => none

/-- `concat_batches` of arrow with the schema of the first batch. -/
def concatBatches (first : Batch) : List Batch → Option Batch
  | [] => some first
  | b :: rest => (appendColumns first.columns b.columns).bind fun columns => concatBatches ⟨first.schema, first.length + b.length, columns⟩ rest

/-- `record_batch_stream_to_record_batch` (crates/modelardb_embedded/src/lib.rs:57-67), which is what C and Python get: one batch, without columns if there
are no batches, and `none` for an error. -/
def embeddedBatch (r : Received) : Option Batch :=
  if r.failed then none
  else
    match r.batches with
    | [] => some ⟨[], 0, []⟩
    | b :: rest => concatBatches b rest

end ModelarDB.Model.QueryResult
