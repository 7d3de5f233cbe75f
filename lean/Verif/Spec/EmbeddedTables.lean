import Verif.Model.EmbeddedTables
import Verif.Spec.DataFolder
/-
What a user who creates a time series table with the embedded library asks for, for C82.
-/
namespace ModelarDB.Spec.EmbeddedTables
open Model Model.Statements Model.TableDefinition Model.CreateTable

variable {ε : Type}

/-- What is asked for: a name, columns, error bounds for some of the columns and the texts of expressions for some of the columns. -/
structure Request where
  name : String
  schema : List Column
  bounds : List (String × ErrorBound)
  expressions : List (String × List Token)

/-- One error bound and one expression for a column. -/
structure Unambiguous (r : Request) : Prop where
  bounds : (r.bounds.map (·.1)).Nodup
  expressions : (r.expressions.map (·.1)).Nodup

/-- A column that is computed. -/
def Request.Computed (r : Request) (name : String) : Prop := ∃ text, (name, text) ∈ r.expressions

/-- The whole text is an expression. -/
def Says (sql : Sql ε) (text : List Token) (e : ε) : Prop := sql.parseExpr text = some (e, [])

/-- Nothing follows the expressions in the texts. -/
def Whole (sql : Sql ε) (r : Request) : Prop := ∀ p ∈ r.expressions, ∀ e rest, sql.parseExpr p.2 = some (e, rest) → rest = []

/-- All error bounds and expressions are for columns of the table, and columns are computed or have an error bound. -/
structure Named (r : Request) : Prop where
  bounds : ∀ p ∈ r.bounds, (∃ c ∈ r.schema, c.name = p.1) ∧ ¬r.Computed p.1
  expressions : ∀ p ∈ r.expressions, ∃ c ∈ r.schema, c.name = p.1

/-- Only fields have error bounds and are computed, the error bounds mean something, and the name of the table can be saved. -/
structure Usual (r : Request) : Prop where
  boundFields : ∀ c ∈ r.schema, ∀ b, (c.name, b) ∈ r.bounds → c.type = .value
  meaningful : ∀ p ∈ r.bounds, Meaningful p.2
  computedFields : ∀ c ∈ r.schema, r.Computed c.name → c.type = .value
  noQuote : '\'' ∉ r.name.toList
  selfName : SelfName r.name.toList

/-- A table has the columns that are asked for. Columns with an expression are computed with it, and the others are stored, with the error bound that
is given or else lossless. -/
structure Made (sql : Sql ε) (r : Request) (m : Metadata ε) : Prop where
  name : m.name = r.name
  columns : m.querySchema = r.schema
  computed : ∀ (i : Nat) (c : Column), r.schema[i]? = some c → ∀ text, (c.name, text) ∈ r.expressions →
    ∃ g, m.generated[i]? = some (some g) ∧ Says sql text g.expr ∧
      List.Forall₂ (fun (n : String) (k : Nat) => ∃ c', r.schema[k]? = some c' ∧ c'.name = n) (sql.refs g.expr) g.sources
  stored : ∃ bounds, Consistent r.schema bounds m.generated m ∧ ∀ (i : Nat) (c : Column), r.schema[i]? = some c → ¬r.Computed c.name →
    m.generated[i]? = some none ∧ (∀ b, (c.name, b) ∈ r.bounds → bounds[i]? = some b) ∧ ((∀ b, (c.name, b) ∉ r.bounds) → bounds[i]? = some .lossless)

/-- All that is asked for is in the table: each error bound is that of a stored column and each expression computes a column. -/
structure NothingIgnored (sql : Sql ε) (r : Request) (m : Metadata ε) : Prop where
  bounds : ∀ p ∈ r.bounds, ∃ (j : Nat) (c : Column), m.schema[j]? = some c ∧ c.name = p.1 ∧ m.errorBounds[j]? = some p.2
  expressions : ∀ p ∈ r.expressions, ∃ (i : Nat) (c : Column) (g : Generated ε), m.querySchema[i]? = some c ∧ c.name = p.1 ∧
    m.generated[i]? = some (some g) ∧ Says sql p.2 g.expr

/-- A request that makes sense. -/
structure Sensible (sql : Sql ε) (r : Request) : Prop where
  different : (r.schema.map (·.name)).Nodup
  few : r.schema.length ≤ 32767
  types : ∀ c ∈ r.schema, c.type = .timestamp ∨ c.type = .value ∨ c.type = .string
  timestamp : ∃ i c, r.schema[i]? = some c ∧ c.type = .timestamp ∧ ¬r.Computed c.name ∧
    ∀ (k : Nat) (c' : Column), r.schema[k]? = some c' → c'.type = .timestamp → ¬r.Computed c'.name → k = i
  field : ∃ c ∈ r.schema, c.type = .value ∧ ¬r.Computed c.name
  expressions : ∀ c ∈ r.schema, ∀ text, (c.name, text) ∈ r.expressions → ∃ e, Says sql text e ∧
    ∀ n ∈ sql.refs e, (∃ c' ∈ r.schema, c'.name = n) ∧ ¬r.Computed n

/-- What a number that is passed from C as an error bound stands for: relative if it is negative and absolute if it is positive. -/
def FromC (v : FVal) (b : ErrorBound) : Prop :=
  (v.lt (.fin false 0) = true ∧ b = .relative v.neg) ∨ ((FVal.fin false 0).lt v = true ∧ b = .absolute v)

end ModelarDB.Spec.EmbeddedTables
