import Verif.Model.Statements
/-
`read_time_series_table` of the embedded library: the SQL it makes from its arguments and what it reads.

Source: crates/modelardb_embedded/src/operations/mod.rs, crates/modelardb_embedded/src/operations/data_folder.rs and
crates/modelardb_embedded/src/operations/client.rs.

The grammar and the meaning of SQL are those of the crates sqlparser and datafusion, which are not part of the repository. Only queries of one table with
columns and aggregates of columns, conditions made of comparisons with AND and OR, and GROUP BY of columns are modelled; everything else is an error
here. The operator `<=` is two tokens here.
-/
namespace ModelarDB.Model.ReadTable
open Statements

/-- `Aggregate` (embedded/src/lib.rs:45-52). -/
inductive Aggregate where
  | none | count | min | max | sum | avg
deriving DecidableEq, Repr

/-- The name of an aggregate in SQL. -/
def Aggregate.name : Aggregate → List Char
  | .none => []
  | .count => "COUNT".toList
  | .min => "MIN".toList
  | .max => "MAX".toList
  | .sum => "SUM".toList
  | .avg => "AVG".toList

/-- The arguments of `read_time_series_table`. The tags are a hash map, whose order is arbitrary. -/
structure Request where
  table : List Char
  columns : List (List Char × Aggregate)
  groupBy : List (List Char)
  startTime : Option (List Char)
  endTime : Option (List Char)
  tags : List (List Char × List Char)
deriving DecidableEq, Repr

/-- A value in the SELECT clause (operations/mod.rs:202-211). -/
def itemText : List Char × Aggregate → List Char
  | (column, .none) => column
  | (column, aggregate) => aggregate.name ++ ('(' :: (column ++ [')']))

/-- The values in the WHERE clause (operations/mod.rs:213-225). -/
def conditionTexts (r : Request) : List (List Char) :=
  r.tags.map (fun (name, value) => name ++ " = '".toList ++ value ++ ['\'']) ++
    (r.startTime.map fun time => '\'' :: (time ++ "' <= timestamp".toList)).toList ++
    (r.endTime.map fun time => "timestamp <= '".toList ++ time ++ ['\'']).toList

/-- `generate_read_time_series_table_sql` (operations/mod.rs:190-255). -/
def readText (schema : List (List Char)) (r : Request) : List Char :=
  let items := if r.columns = [] then schema else r.columns.map itemText
  let whereClause := if conditionTexts r = [] then [] else "WHERE ".toList ++ join " AND ".toList (conditionTexts r)
  let groupByClause := if r.groupBy = [] then [] else "GROUP BY ".toList ++ join ", ".toList r.groupBy
  "SELECT ".toList ++ join ", ".toList items ++ " FROM ".toList ++ r.table ++ (' ' :: whereClause) ++ (' ' :: groupByClause)

/-! ### Queries -/

/-- A side of a comparison. -/
inductive Operand where
  | column (name : List Char)
  | literal (text : List Char)
deriving DecidableEq, Repr

/-- The operators. -/
inductive Comparator where
  | eq | le
deriving DecidableEq, Repr

/-- A comparison. -/
structure Comparison where
  left : Operand
  op : Comparator
  right : Operand
deriving DecidableEq, Repr

/-- A query. The condition is a disjunction of conjunctions, without any if there is no WHERE clause. -/
structure Query where
  items : List (List Char × Aggregate)
  table : List Char
  condition : Option (List (List Comparison))
  groupBy : List (List Char)
deriving DecidableEq, Repr

/-- The parts of a list between the elements with a property. -/
def splitTokens (p : Token → Bool) : List Token → List (List Token)
  | [] => [[]]
  | t :: ts =>
    if p t then [] :: splitTokens p ts
    else
      match splitTokens p ts with
      | [] => [[t]]
      | g :: gs => (t :: g) :: gs

/-- The words that are never names, sqlparser has more. -/
def grammarWords : List (List Char) :=
  ["SELECT".toList, "FROM".toList, "WHERE".toList, "GROUP".toList, "BY".toList, "AND".toList, "OR".toList]

/-- Whether a word without quotes cannot be a name. -/
def isReserved (more : List (List Char)) (word : List Char) : Bool :=
  grammarWords.contains (word.map Char.toUpper) || more.contains (word.map Char.toUpper)

/-- A name: without quotes it is changed to lower case. -/
def parseName (more : List (List Char)) : Token → Option (List Char)
  | .word value none => if isReserved more value then none else some (value.map Char.toLower)
  | .word value (some _) => some value
  | _ => none

/-- The aggregate that a function of datafusion computes. -/
def parseAggregate (name : List Char) : Option Aggregate :=
  [("COUNT".toList, Aggregate.count), ("MIN".toList, .min), ("MAX".toList, .max), ("SUM".toList, .sum), ("AVG".toList, .avg)].lookup
    (name.map Char.toUpper)

/-- An item in the SELECT clause. -/
def parseItem (more : List (List Char)) : List Token → Option (List Char × Aggregate)
  | [t] => (parseName more t).map (·, .none)
  | [.word f none, .other c, t, .other d] =>
    if c = '(' ∧ d = ')' then (parseAggregate f).bind fun a => (parseName more t).map (·, a) else none
  | _ => none

/-- A side of a comparison. -/
def parseOperand (more : List (List Char)) : Token → Option Operand
  | .string text => some (.literal text)
  | t => (parseName more t).map .column

/-- A comparison. -/
def parseComparison (more : List (List Char)) : List Token → Option Comparison
  | [a, .other c, b] =>
    if c = '=' then (parseOperand more a).bind fun a => (parseOperand more b).map (⟨a, .eq, ·⟩) else none
  | [a, .other c, .other d, b] =>
    if c = '<' ∧ d = '=' then (parseOperand more a).bind fun a => (parseOperand more b).map (⟨a, .le, ·⟩) else none
  | _ => none

/-- A condition: AND binds stronger than OR. -/
def parseCondition (more : List (List Char)) (tokens : List Token) : Option (List (List Comparison)) :=
  (splitTokens (·.isKeyword "OR".toList) tokens).mapM fun part =>
    (splitTokens (·.isKeyword "AND".toList) part).mapM (parseComparison more)

/-- What follows the condition. -/
def parseGroupBy (more : List (List Char)) : List Token → Option (List (List Char))
  | [] => some []
  | group :: by' :: names =>
    if group.isKeyword "GROUP".toList && by'.isKeyword "BY".toList then
      (splitTokens (· == .comma) names).mapM fun part =>
        match part with
        | [t] => parseName more t
        | _ => none
    else none
  | _ => none

/-- What follows the table: the condition and the columns for grouping. -/
def parseClauses (more : List (List Char)) : List Token → Option (Option (List (List Comparison)) × List (List Char))
  | [] => some (none, [])
  | t :: rest =>
    if t.isKeyword "WHERE".toList then
      (parseCondition more (rest.takeWhile (!·.isKeyword "GROUP".toList))).bind fun condition =>
        (parseGroupBy more (rest.dropWhile (!·.isKeyword "GROUP".toList))).map (some condition, ·)
    else (parseGroupBy more (t :: rest)).map (none, ·)

/-- A query. -/
def parseQuery (more : List (List Char)) : List Token → Option Query
  | [] => none
  | t :: rest =>
    if t.isKeyword "SELECT".toList then
      ((splitTokens (· == .comma) (rest.takeWhile (!·.isKeyword "FROM".toList))).mapM (parseItem more)).bind fun items =>
        match rest.dropWhile (!·.isKeyword "FROM".toList) with
        | _ :: table :: rest' =>
          (parseName more table).bind fun table => (parseClauses more rest').map fun (condition, groupBy) => ⟨items, table, condition, groupBy⟩
        | _ => none
    else none

/-! ### Reading -/

/-- A row of a time series table. The values of fields do not matter for what is read. -/
structure Row (φ : Type) where
  time : Int
  tag : List Char → List Char
  fields : φ

/-- A time series table: its columns, the one with timestamps, those with tags, and its rows. -/
structure Table (φ : Type) where
  name : List Char
  columns : List (List Char)
  timestamp : List Char
  tags : List (List Char)
  rows : List (Row φ)

/-- Comparing timestamps. -/
def Comparator.times : Comparator → Int → Int → Bool
  | .eq, a, b => a == b
  | .le, a, b => decide (a ≤ b)

/-- Comparing text. -/
def Comparator.texts : Comparator → List Char → List Char → Bool
  | .eq, a, b => a == b
  | .le, a, b => decide (String.ofList a ≤ String.ofList b)

variable {φ : Type}

/-- The meaning of a comparison. Text is changed to a timestamp if it is compared to one, which can fail. Comparisons of fields and of two columns are
not modelled. -/
def comparison (parseTime : List Char → Option Int) (t : Table φ) : Comparison → Option (Row φ → Bool)
  | ⟨.column c, op, .literal l⟩ =>
    if c = t.timestamp then (parseTime l).map fun time row => op.times row.time time
    else if c ∈ t.tags then some fun row => op.texts (row.tag c) l
    else none
  | ⟨.literal l, op, .column c⟩ =>
    if c = t.timestamp then (parseTime l).map fun time row => op.times time row.time
    else if c ∈ t.tags then some fun row => op.texts l (row.tag c)
    else none
  | ⟨.literal l, op, .literal m⟩ => some fun _ => op.texts l m
  | _ => none

/-- The meaning of a condition. -/
def condition (parseTime : List Char → Option Int) (t : Table φ) (parts : List (List Comparison)) : Option (Row φ → Bool) :=
  (parts.mapM fun part : List Comparison => part.mapM (comparison parseTime t)).map fun parts row => parts.any fun part => part.all fun f => f row

/-- Execute a query. How the result is computed from the rows that are kept is a parameter. -/
def execute {ρ : Type} (parseTime : List Char → Option Int) (answer : Table φ → List (List Char × Aggregate) → List (List Char) → List (Row φ) → ρ)
    (tables : List (Table φ)) (q : Query) : Option ρ :=
  match tables.find? (·.name == q.table) with
  | none => none
  | some t =>
    if q.items.all (fun item => t.columns.contains item.1) && q.groupBy.all (t.columns.contains ·) then
      (match q.condition with
        | none => some fun (_ : Row φ) => true
        | some parts => condition parseTime t parts).map fun keep => answer t q.items q.groupBy (t.rows.filter keep)
    else none

/-- `read_time_series_table` (operations/data_folder.rs:297-329 and operations/client.rs:224-249). The columns of the table are looked up first. That
names are changed to lower case then, too, is not modelled here. -/
def readTable {ρ : Type} (more : List (List Char)) (parseTime : List Char → Option Int)
    (answer : Table φ → List (List Char × Aggregate) → List (List Char) → List (Row φ) → ρ) (tables : List (Table φ)) (r : Request) : Option ρ :=
  match tables.find? (·.name == r.table) with
  | none => none
  | some t => (tokenize (readText t.columns r)).bind fun tokens => (parseQuery more tokens).bind (execute parseTime answer tables)

end ModelarDB.Model.ReadTable
