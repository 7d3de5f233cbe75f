import Verif.Model.Restarts
import Verif.Model.DataTransfer
/-
An edge node that ingests rows, saves them in its local data folder and transfers what is in a table to the data folder in the cloud.

The steps of the server are those of `Model/Restarts.lean` and the steps of a transfer those of `Model/DataTransfer.lean`. Here they are put
together: what the server saves in the table is what is committed to the table, and a restart stops both. One table is modelled, as each table is
transferred separately, data_transfer.rs:200-261. The table is not dropped or truncated by a client.
-/
namespace ModelarDB.Model.EdgeNode
open Storage Restarts DataTransfer

variable {α : Type}

/-- An edge node: its server and a table. A file of the table has the segments of the buffers that were saved together. -/
structure Node (α : Type) where
  server : Server α
  table : Table (List (Chunk α))
deriving DecidableEq

/-- A node with an empty data folder. -/
def Node.new (ingested uncompressed compressed : Nat) (batchSize : Option Nat) : Node α :=
  ⟨.new ingested uncompressed compressed, .new batchSize⟩

/-- What can happen: a step of the server, where `size` is the number of bytes of the file if one is committed and `disk` the sizes of the files
when the server is started, or a step of a transfer. -/
inductive NodeAction (α : Type) where
  | server (action : Action α) (size : Nat) (disk : List (Chunk α) → Nat)
  | transfer (op : DataTransfer.Op (List (Chunk α)))

/-- What a step of the server does to a table. `save_compressed_data`, compressed_data_manager.rs:240-291, commits the segments in the buffer of the
table, and `DataTransfer::try_new`, data_transfer.rs:61-102, is called when the server is started, storage/mod.rs:149-161. -/
def tableOp (name : String) (s s' : Server α) (action : Action α) (size : Nat) (disk : List (Chunk α) → Nat) :
    Option (DataTransfer.Op (List (Chunk α))) :=
  match action with
  | .restart .. => some (.restart disk)
  | _ =>
    match (s'.allSaved.drop s.allSaved.length).filter (fun c => c.table = name) with
    | [] => none
    | chunks => some (.commit chunks size)

/-- Steps of a transfer: the size of a file is reported, compressed_data_manager.rs:273-280, a transfer is requested, storage/mod.rs:303-312, goes on,
data_transfer.rs:226-262, or the batch size is changed, storage/mod.rs:386-401. -/
def ofTransfer : DataTransfer.Op (List (Chunk α)) → Bool
  | .report _ | .request _ | .advance .. | .setBatchSize _ => true
  | _ => false

/-- One step; `none` if it cannot be taken. -/
def Node.step (name : String) (env : Env α) (n : Node α) : NodeAction α → Option (Node α)
  | .server action size disk =>
    (n.server.step env action).bind fun s =>
      match tableOp name n.server s action size disk with
      | none => some ⟨s, n.table⟩
      | some op => (n.table.step op).map fun t => ⟨s, t⟩
  | .transfer op => if ofTransfer op then (n.table.step op).map fun t => ⟨n.server, t⟩ else none

/-- Any number of steps. -/
def Node.run (name : String) (env : Env α) (n : Node α) : List (NodeAction α) → Option (Node α)
  | [] => some n
  | action :: actions => (n.step name env action).bind fun n' => n'.run name env actions

end ModelarDB.Model.EdgeNode
