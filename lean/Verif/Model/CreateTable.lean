import Verif.Model.Statements
import Verif.Model.TableDefinition
/-
The statements CREATE TIME SERIES TABLE and CREATE TABLE from their tokens to the definition of the table.

Source: crates/modelardb_storage/src/parser.rs.

Simplifications:
* The crates sqlparser and datafusion are not part of the repository. The tokens are given. `Sql` has what is used of the crates: how letters
  change case, how expressions are parsed and whether one can be evaluated. That datafusion only changes ASCII letters in names to lower case
  (`normalize_ident`) is taken from its source.
* Keywords only have ASCII letters, see `Token.isKeyword`.
* The metadata of columns is not modelled.
-/
namespace ModelarDB.Model.CreateTable
open Statements TableDefinition

/-- What is used of crates: the cases of letters, the reserved words, the names that are paths, the parser of expressions, the columns an
expression refers to, whether an expression can be evaluated for columns, and the text of a number. -/
structure Sql (ε : Type) where
  lower : List Char → List Char
  upper : List Char → List Char
  keywords : List (List Char)
  validPath : List Char → Bool
  parseExpr : List Token → Option (ε × List Token)
  refs : ε → List String
  physical : List Column → ε → Bool
  display : FVal → List Char

variable {ε : Type}

/-- The order of the columns of expressions. -/
def Sql.env (sql : Sql ε) : Env ε := ⟨sql.refs⟩

/-! ### Numbers -/

/-- `10 ^ e`. -/
def pow10 (e : Int) : ℚ := if 0 ≤ e then ((10 ^ e.toNat : Nat) : ℚ) else mkRat 1 (10 ^ (-e).toNat)

/-- The sign of an exponent, true if it is negative, and the digits. -/
def sign : List Char → Bool × List Char
  | '-' :: rest => (true, rest)
  | '+' :: rest => (false, rest)
  | rest => (false, rest)

/-- The exponent at the end of a number. -/
def exponent : List Char → Option Int
  | [] => some 0
  | c :: rest =>
    if c = 'e' ∨ c = 'E' then
      if (sign rest).2 = [] ∨ !(sign rest).2.all Char.isDigit then none
      else some (if (sign rest).1 then -(Nat.ofDigitChars 10 (sign rest).2 0 : Int) else Nat.ofDigitChars 10 (sign rest).2 0)
    else none

/-- The digits after a point and what follows. -/
def fraction : List Char → List Char × List Char
  | '.' :: rest => (rest.takeWhile Char.isDigit, rest.dropWhile Char.isDigit)
  | rest => ([], rest)

/-- The number a text without a sign stands for. -/
def decimal (text : List Char) : Option ℚ :=
  let whole := text.takeWhile Char.isDigit
  let part := (fraction (text.dropWhile Char.isDigit)).1
  if whole = [] ∧ part = [] then none
  else (exponent (fraction (text.dropWhile Char.isDigit)).2).map fun e =>
    (Nat.ofDigitChars 10 (whole ++ part) 0 : ℚ) * pow10 (e - part.length)

/-- `str::parse::<f32>` of a number without a sign and of the text of infinity: the nearest float. -/
def parseF32 (text : List Char) : Option FVal :=
  if text = "inf".toList then some (.inf false) else (decimal text).map (FVal.round f32Fmt false)

/-! ### Parsing CREATE TIME SERIES TABLE -/

/-- A token of `ColumnOption::DialectSpecific`. -/
inductive DialectToken where
  | number (text : List Char) (flag : Bool)
  | other
deriving DecidableEq

/-- `ColumnOption`, the other options cannot occur in these statements. -/
inductive ColumnOption (ε : Type) where
  | dialect (tokens : List DialectToken)
  | generated (expr : ε)

/-- `SQLDataType`. -/
inductive SqlType where
  | timestamp
  | real
  | text
deriving DecidableEq

/-- `ColumnDef`. -/
structure ColumnDef (ε : Type) where
  name : List Char
  type : SqlType
  options : List (ColumnOption ε)

/-- `parse_word_value`, parser.rs:337-343. -/
def parseWord : List Token → Option (List Char × List Token)
  | .word value _ :: rest => some (value, rest)
  | _ => none

/-- `expect_word_value`, parser.rs:316-323. -/
def expectWord (sql : Sql ε) (expected : List Char) (tokens : List Token) : Option (List Token) :=
  match parseWord tokens with
  | some (value, rest) => if sql.upper value = expected then some rest else none
  | none => none

/-- `expect_token`. -/
def expectToken (token : Token) : List Token → Option (List Token)
  | t :: rest => if t = token then some rest else none
  | [] => none

/-- `expect_keyword`. -/
def expectKeyword (keyword : List Char) : List Token → Option (List Token)
  | t :: rest => if t.isKeyword keyword then some rest else none
  | [] => none

/-- The sign `%` after a number, parser.rs:264. -/
def parsePercent : List Token → Bool × List Token
  | .other '%' :: rest => (true, rest)
  | rest => (false, rest)

/-- The error bound of a field, parser.rs:260-273, `parse_positive_literal_f32`, parser.rs:347-357, and `new_error_bound_column_option_def`,
parser.rs:373-383. The parenthesis before it is read. -/
def parseBound (sql : Sql ε) : List Token → Option (List (ColumnOption ε) × List Token)
  | .number text :: rest =>
    match parseF32 text with
    | none => none
    | some value =>
      match expectToken (.other ')') (parsePercent rest).2 with
      | none => none
      | some rest' =>
        some (if (FVal.fin false 0).lt value then [.dialect [.number (sql.display value) (parsePercent rest).1]] else [], rest')
  | _ => none

/-- The expression of a field, parser.rs:274-288. -/
def parseAs (sql : Sql ε) (tokens : List Token) : Option (List (ColumnOption ε) × List Token) :=
  match expectWord sql "AS".toList tokens with
  | none => none
  | some rest =>
    match expectToken (.other '(') rest with
    | none => none
    | some rest =>
      match sql.parseExpr rest with
      | none => none
      | some (e, rest) => (expectToken (.other ')') rest).map fun rest => ([.generated e], rest)

/-- The part of a field after the word FIELD, parser.rs:259-292. -/
def parseField (sql : Sql ε) : List Token → Option (List (ColumnOption ε) × List Token)
  | .other '(' :: rest => parseBound sql rest
  | .word value quote :: rest => parseAs sql (.word value quote :: rest)
  | rest => some ([], rest)

/-- One column, parser.rs:253-301. -/
def parseColumn (sql : Sql ε) (tokens : List Token) : Option (ColumnDef ε × List Token) :=
  match parseWord tokens with
  | none => none
  | some (name, rest) =>
    match parseWord rest with
    | none => none
    | some (type, rest) =>
      if sql.upper type = "TIMESTAMP".toList then some (⟨name, .timestamp, []⟩, rest)
      else if sql.upper type = "FIELD".toList then (parseField sql rest).map fun (options, rest) => (⟨name, .real, options⟩, rest)
      else if sql.upper type = "TAG".toList then some (⟨name, .text, []⟩, rest)
      else none

/-- The loop of `parse_columns`, parser.rs:252-309. The first argument bounds the number of columns. -/
def parseColumnsWith (sql : Sql ε) : Nat → List Token → Option (List (ColumnDef ε) × List Token)
  | 0, _ => none
  | fuel + 1, tokens =>
    match parseColumn sql tokens with
    | none => none
    | some (column, .other ')' :: rest) => some ([column], rest)
    | some (column, rest) =>
      match expectToken .comma rest with
      | none => none
      | some rest => (parseColumnsWith sql fuel rest).map fun (columns, rest) => (column :: columns, rest)

/-- `parse_columns`, parser.rs:247-312. -/
def parseColumns (sql : Sql ε) (tokens : List Token) : Option (List (ColumnDef ε) × List Token) :=
  (expectToken (.other '(') tokens).bind fun rest => parseColumnsWith sql rest.length rest

/-- `next_tokens_are_create_time_series_table`, parser.rs:199-222, and `parse_create_time_series_table`, parser.rs:226-243. -/
def parseCreate (sql : Sql ε) (tokens : List Token) : Option ((List Char × List (ColumnDef ε)) × List Token) :=
  (expectKeyword "CREATE".toList tokens).bind fun tokens =>
    (expectWord sql "TIME".toList tokens).bind fun tokens =>
      (expectWord sql "SERIES".toList tokens).bind fun tokens =>
        (expectKeyword "TABLE".toList tokens).bind fun tokens =>
          (parseWord tokens).bind fun (name, tokens) =>
            (parseColumns sql tokens).map fun (columns, tokens) => ((name, columns), tokens)

/-- `tokenize_and_parse_sql_statement`, parser.rs:79-93, up to the statement: one statement between semicolons. -/
def parseStatement (sql : Sql ε) (tokens : List Token) : Option (List Char × List (ColumnDef ε)) :=
  match parseCreate sql (tokens.dropWhile (· == .semicolon)) with
  | some (statement, rest) => if rest.all (· == .semicolon) then some statement else none
  | none => none

/-! ### Semantic checks -/

/-- The name of the table, parser.rs:797-827. -/
def tableName (sql : Sql ε) (name : List Char) : Option (List Char) :=
  if (sql.lower name).any Char.isWhitespace then none
  else if sql.upper (sql.lower name) ∈ sql.keywords then none
  else if sql.validPath (sql.lower name) then some (sql.lower name)
  else none

/-- `tokens_to_error_bound`, parser.rs:1158-1175. -/
def tokensToBound : List DialectToken → Except Failure (FVal × Bool)
  | [.number text relative] =>
    match parseF32 text with
    | some value => .ok (value, relative)
    | none => .error .error
  | _ => .error .error

/-- The error bound of a column, parser.rs:1131-1147, after the options before. -/
def optionBound (bound : ErrorBound) : List (ColumnOption ε) → Except Failure ErrorBound
  | [] => .ok bound
  | .generated _ :: rest => optionBound bound rest
  | .dialect tokens :: rest =>
    match tokensToBound tokens with
    | .error e => .error e
    | .ok (value, relative) =>
      match (if relative then ErrorBound.tryNewRelative value else ErrorBound.tryNewAbsolute value) with
      | some bound => optionBound bound rest
      | none => .error .error

/-- `extract_error_bounds_for_all_columns`, parser.rs:1125-1153. -/
def errorBounds (columns : List (ColumnDef ε)) : Except Failure (List ErrorBound) := columns.mapM fun c => optionBound .lossless c.options

/-- The type of a column in the definition. -/
def SqlType.dataType : SqlType → DataType
  | .timestamp => .timestamp
  | .real => .value
  | .text => .string

/-- `SqlToRel::build_schema` of datafusion: only ASCII letters in names are changed to lower case. -/
def builtSchema (columns : List (ColumnDef ε)) : List Column :=
  columns.map fun c => ⟨String.ofList (c.name.map Char.toLower), c.type.dataType, true⟩

/-- The expression of a column, parser.rs:1193-1222: the references are checked, then whether it can be evaluated. -/
def optionGenerated (sql : Sql ε) (schema : List Column) (generated : Option (Generated ε)) :
    List (ColumnOption ε) → Except Failure (Option (Generated ε))
  | [] => .ok generated
  | .dialect _ :: rest => optionGenerated sql schema generated rest
  | .generated e :: rest =>
    if !(sql.refs e).all fun r => (indexOf schema r).isSome then .error .error
    else if !sql.physical schema e then .error .error
    else
      match tryFromExpr sql.env schema e with
      | .ok g => optionGenerated sql schema (some g) rest
      | .error _ => .error .panic

/-- `extract_generation_exprs_for_all_columns`, parser.rs:1180-1228. -/
def generatedColumns (sql : Sql ε) (columns : List (ColumnDef ε)) : Except Failure (List (Option (Generated ε))) :=
  if !uniqueNames (builtSchema columns) then .error .error
  else columns.mapM fun c => optionGenerated sql (builtSchema columns) none c.options

/-- Whether the options of a column are dialect specific tokens that are an error bound or an expression, parser.rs:1072-1102. -/
def checkOptions : List (ColumnOption ε) → Except Failure Unit
  | [] => .ok ()
  | .generated _ :: rest => checkOptions rest
  | .dialect tokens :: rest =>
    match tokensToBound tokens with
    | .ok _ => checkOptions rest
    | .error e => .error e

/-- One column of the schema, parser.rs:1064-1115. -/
def schemaColumn (sql : Sql ε) (c : ColumnDef ε) : Except Failure Column :=
  match c.type with
  | .real => (checkOptions c.options).map fun _ => ⟨String.ofList (sql.lower c.name), .value, false⟩
  | t => .ok ⟨String.ofList (sql.lower c.name), t.dataType, false⟩

/-- `column_defs_to_time_series_table_query_schema`, parser.rs:1057-1121. -/
def querySchema (sql : Sql ε) (columns : List (ColumnDef ε)) : Except Failure (List Column) := columns.mapM (schemaColumn sql)

/-- `semantic_checks_for_create_table`, parser.rs:785-839, and `semantic_checks_for_create_time_series_table`, parser.rs:872-897. The other
features of the statement are not set, parser.rs:389-450. -/
def checkCreate (sql : Sql ε) (name : List Char) (columns : List (ColumnDef ε)) : Except Failure (Metadata ε) :=
  match tableName sql name with
  | none => .error .error
  | some name => do
    let bounds ← errorBounds columns
    let generated ← generatedColumns sql columns
    let schema ← querySchema sql columns
    tryNew (String.ofList name) schema bounds generated

/-- `tokenize_and_parse_sql_statement`, parser.rs:79-160, for CREATE TIME SERIES TABLE: the definition of the table. -/
def create (sql : Sql ε) (tokens : List Token) : Except Failure (Metadata ε) :=
  match parseStatement sql tokens with
  | some (name, columns) => checkCreate sql name columns
  | none => .error .error

end ModelarDB.Model.CreateTable
