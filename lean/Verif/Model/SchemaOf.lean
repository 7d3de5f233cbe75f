import Verif.Model.TableDefinition
import Verif.Model.FlightPut
import Verif.Model.Embedded
/-
The schema of a table that programs are told, and rows that are written with it.

Source: crates/modelardb_server/src/remote.rs, crates/modelardb_server/src/context.rs, crates/modelardb_storage/src/query/time_series_table.rs and
crates/modelardb_embedded/src/operations.

Simplifications:
* Only time series tables. The schema of a normal table is the one it was created with.
* Rows are encoded as in `Verif.Model.FlightPut`.
-/
namespace ModelarDB.Model.SchemaOf
open TableDefinition

variable {ε : Type}

/-- The schema a program is told: `get_schema`, remote.rs:615-631, which is `TableProvider::schema`, context.rs:442-454 and time_series_table.rs:493-495, and `schema` of a data
folder, crates/modelardb_embedded/src/operations/data_folder.rs:172-185. -/
def schemaOf (m : Metadata ε) : List Column := m.querySchema

/-- The type of a column in a message. Timestamps have 8 bytes and values 4. -/
def messageType : DataType → FlightPut.ColumnType
  | .timestamp => .fixed "Timestamp" 8
  | .value => .fixed "Float32" 4
  | .string => .text
  | .other name => .fixed name 0

/-- A column of a message. -/
def messageField (c : Column) : FlightPut.Field := ⟨c.name, messageType c.type⟩

/-- `do_put` for a time series table, remote.rs:750-794: the messages are read with the schema of the stored columns, remote.rs:500-526. -/
def putRows (utf8 : List Nat → Bool) (stores : Nat → Bool) (m : Metadata ε) (sent : List FlightPut.Batch) : List FlightPut.Batch × Bool :=
  FlightPut.put utf8 stores (m.schema.map messageField) sent

/-- A column of a batch that is written to a data folder. -/
def folderColumn (c : Column) : Embedded.Column DataType := ⟨c.name, c.type, c.nullable⟩

/-- The time series table in a data folder: rows are written with the schema of the stored columns, crates/modelardb_embedded/src/operations/data_folder.rs:202-220. -/
def folderTable {σ : Type} (m : Metadata ε) (items : List σ) : Embedded.Table DataType σ := ⟨.timeSeries, m.schema.map folderColumn, m.errorBounds, items⟩

end ModelarDB.Model.SchemaOf
