import Mathlib.Data.List.Basic
/-
The statements that act on tables by name (crates/modelardb_storage/src/parser.rs) and how a node executes them and passes them on.

Text is a list of characters. The tokens and the grammar of DROP TABLE are those of the crate sqlparser with its `GenericDialect`, whose
identifiers only have ASCII letters here. Comments, strings with a prefix such as `N'a'` and numbers that are not made of digits are not
modelled.
-/
namespace ModelarDB.Model.Statements

/-- Tokens of SQL. A word is an identifier or a keyword, with the character it is quoted with. -/
inductive Token where
  | word (value : List Char) (quote : Option Char)
  | number (text : List Char)
  | string (value : List Char)
  | comma
  | period
  | semicolon
  | other (c : Char)
deriving DecidableEq, Repr

/-- `GenericDialect::is_identifier_start`. -/
def isIdentifierStart (c : Char) : Bool := c.isAlpha || c == '_' || c == '#' || c == '@'

/-- `GenericDialect::is_identifier_part`. -/
def isIdentifierPart (c : Char) : Bool := c.isAlpha || c.isDigit || c == '@' || c == '$' || c == '#' || c == '_'

/-- The text up to the closing quote, where two quotes stand for one, and what follows. `none` if the quote is not closed. -/
def quoted (quote : Char) : List Char → Option (List Char × List Char)
  | [] => none
  | c :: rest =>
    if c = quote then
      match rest with
      | d :: rest' => if d = quote then (quoted quote rest').map fun (v, r) => (quote :: v, r) else some ([], d :: rest')
      | [] => some ([], [])
    else (quoted quote rest).map fun (v, r) => (c :: v, r)

/-- `Tokenizer::tokenize` of sqlparser without white space, the first argument bounds the number of steps. -/
def tokenizeWith : Nat → List Char → Option (List Token)
  | _, [] => some []
  | 0, _ :: _ => none
  | fuel + 1, c :: rest =>
    if c.isWhitespace then tokenizeWith fuel rest
    else if isIdentifierStart c then
      (tokenizeWith fuel (rest.dropWhile isIdentifierPart)).map (Token.word (c :: rest.takeWhile isIdentifierPart) none :: ·)
    else if c.isDigit then
      (tokenizeWith fuel (rest.dropWhile Char.isDigit)).map (Token.number (c :: rest.takeWhile Char.isDigit) :: ·)
    else if c = '"' ∨ c = '`' then
      match quoted c rest with
      | none => none
      | some (value, rest') => (tokenizeWith fuel rest').map (Token.word value (some c) :: ·)
    else if c = '\'' then
      match quoted c rest with
      | none => none
      | some (value, rest') => (tokenizeWith fuel rest').map (Token.string value :: ·)
    else
      let token := if c = ',' then Token.comma else if c = '.' then .period else if c = ';' then .semicolon else .other c
      (tokenizeWith fuel rest).map (token :: ·)

/-- The tokens of a text. -/
def tokenize (text : List Char) : Option (List Token) := tokenizeWith text.length text

/-- `word.keyword`: a word is a keyword unless it is quoted. -/
def Token.isKeyword (t : Token) (keyword : List Char) : Bool :=
  match t with
  | .word value none => value.map Char.toUpper = keyword
  | _ => false

/-- The statements that name tables (parser.rs:56-72). -/
inductive Statement where
  | dropTable (names : List (List Char))
  | truncate (names : List (List Char)) (cluster : Bool)
  | vacuum (names : List (List Char)) (retention : Option Nat) (cluster : Bool)
deriving DecidableEq, Repr

/-- `MAX_RETENTION_PERIOD_IN_SECONDS` (crates/modelardb_types/src/types.rs:66). -/
def maxRetention : Nat := (2 ^ 63 - 1) / 1000

/-- `ModelarDbDialect::parse_table_names` (parser.rs:637-653): words that are separated by commas. -/
def parseTableNames : List Token → Option (List (List Char) × List Token)
  | .word value _ :: .comma :: rest => (parseTableNames rest).map fun (names, r) => (value :: names, r)
  | .word value _ :: rest => some ([value], rest)
  | _ => none

/-- The flag CLUSTER (parser.rs:517-524 and 600-610). -/
def parseCluster : List Token → Bool × List Token
  | t :: rest => if t.isKeyword "CLUSTER".toList then (true, rest) else (false, t :: rest)
  | [] => (false, [])

/-- `str::parse::<u64>` of digits. -/
def parseU64 (text : List Char) : Option Nat :=
  if text ≠ [] ∧ text.all Char.isDigit ∧ Nat.ofDigitChars 10 text 0 < 2 ^ 64 then some (Nat.ofDigitChars 10 text 0) else none

/-- `Vec::join` with a separator. -/
def join (separator : List Char) : List (List Char) → List Char
  | [] => []
  | [name] => name
  | name :: rest => name ++ separator ++ join separator rest

/-- `str::split_terminator`: the parts between separators, without an empty part at the end. -/
def splitTerminator (separator : Char) : List Char → List (List Char)
  | [] => []
  | c :: rest =>
    if c = separator then [] :: splitTerminator separator rest
    else
      match rest, splitTerminator separator rest with
      | [], _ => [[c]]
      | _ :: _, part :: parts => (c :: part) :: parts
      | _ :: _, [] => [[c]]

/-- The names in VACUUM (parser.rs:526-534): none if the next token is RETAIN or not a word. -/
def parseVacuumNames : List Token → Option (List (List Char) × List Token)
  | .word value quote :: rest =>
    if (Token.word value quote).isKeyword "RETAIN".toList then some ([], .word value quote :: rest)
    else parseTableNames (.word value quote :: rest)
  | rest => some ([], rest)

/-- The retention period in VACUUM (parser.rs:536-552). -/
def parseRetain : List Token → Option (Option Nat × List Token)
  | [] => some (none, [])
  | t :: rest =>
    if t.isKeyword "RETAIN".toList then
      match rest with
      | .number text :: rest' =>
        match parseU64 text with
        | none => none
        | some period => if maxRetention < period then none else some (some period, rest')
      | _ => none
    else some (none, t :: rest)

/-- `ModelarDbDialect::parse_vacuum` (parser.rs:512-562) after the keyword. The result is the name, the storage specifier and the flag of
the statement `DropSecret`, which is used for VACUUM. -/
def parseVacuum (tokens : List Token) : Option ((List Char × Option (List Char) × Bool) × List Token) :=
  match parseVacuumNames (parseCluster tokens).2 with
  | none => none
  | some (names, rest) =>
    match parseRetain rest with
    | none => none
    | some (period, rest') => some ((join [';'] names, period.map (Nat.toDigits 10), (parseCluster tokens).1), rest')

/-- The arm for `Statement::DropSecret` (parser.rs:138-144). -/
def vacuumStatement (name : List Char) (specifier : Option (List Char)) (flag : Bool) : Statement :=
  .vacuum (splitTerminator ';' name) (specifier.bind parseU64) flag

/-- `ModelarDbDialect::parse_truncate` (parser.rs:593-631) after the keyword. -/
def parseTruncate (tokens : List Token) : Option ((List (List Char) × Bool) × List Token) :=
  (parseTableNames (parseCluster tokens).2).map fun (names, r) => ((names, (parseCluster tokens).1), r)

/-- `Parser::parse_identifier` of sqlparser. -/
def Token.identifier : Token → Option (List Char)
  | .word value _ => some value
  | .string value => some value
  | _ => none

/-- The names in DROP TABLE, `Parser::parse_comma_separated` of `Parser::parse_object_name` of sqlparser: identifiers that are separated by
periods within a name and by commas between names. -/
def parseObjectNames : List Token → Option (List (List (List Char)) × List Token)
  | t :: .comma :: rest =>
    match t.identifier, parseObjectNames rest with
    | some part, some (names, r) => some ([part] :: names, r)
    | _, _ => none
  | t :: .period :: rest =>
    match t.identifier, parseObjectNames rest with
    | some part, some (name :: names, r) => some ((part :: name) :: names, r)
    | _, _ => none
  | t :: rest => t.identifier.map fun part => ([[part]], rest)
  | [] => none

/-- `semantic_checks_for_drop` (parser.rs:1244-1281): the parts of a name are put together. -/
def dropNames (names : List (List (List Char))) : List (List Char) := names.map List.flatten

/-- The statement at the start of the tokens and what follows (parser.rs:695-707 and 94-144). Other statements are `none` like those that are
rejected. -/
def parseStatement : List Token → Option (Statement × List Token)
  | [] => none
  | t :: rest =>
    if t.isKeyword "VACUUM".toList then
      (parseVacuum rest).map fun ((name, specifier, flag), r) => (vacuumStatement name specifier flag, r)
    else if t.isKeyword "TRUNCATE".toList then
      (parseTruncate rest).map fun ((names, cluster), r) => (Statement.truncate names cluster, r)
    else if t.isKeyword "DROP".toList then
      match rest with
      | t' :: rest' =>
        if t'.isKeyword "TABLE".toList then (parseObjectNames rest').map fun (names, r) => (Statement.dropTable (dropNames names), r)
        else none
      | [] => none
    else none

/-- `tokenize_and_parse_sql_statement` (parser.rs:79-160) for the statements that are modelled: one statement between semicolons. -/
def parse (tokens : List Token) : Option Statement :=
  match parseStatement (tokens.dropWhile (· == .semicolon)) with
  | some (statement, rest) => if rest.all (· == .semicolon) then some statement else none
  | none => none

/-- `normalize_name` (crates/modelardb_types/src/functions.rs:25-27). -/
def normalizeName (name : List Char) : List Char := name.map Char.toLower

/-- The name of a table that is created (parser.rs:789-831), `none` if it is rejected. `keywords` are those of sqlparser. Whether the name is a
path is checked too: here a path has no control characters, no empty part and no part that is `.` or `..`. -/
def createdName (keywords : List (List Char)) (validPath : List Char → Bool) (parts : List (List Char)) : Option (List Char) :=
  match parts with
  | [name] =>
    let normalized := normalizeName name
    if normalized.any Char.isWhitespace then none
    else if normalized.map Char.toUpper ∈ keywords then none
    else if validPath normalized then some normalized
    else none
  | _ => none

/-! ### Executing statements -/

/-- Act on each table in turn and stop at the first that does not exist, which is an error (crates/modelardb_server/src/remote.rs:399-405,
429-435 and 462-467 and crates/modelardb_server/src/context.rs:305-311, 341-346 and 391-394). `removes` is true for DROP TABLE. The result is the
tables that were acted on and whether all were. -/
def perform (removes : Bool) : List (List Char) → List (List Char) → List (List Char) × Bool
  | _, [] => ([], true)
  | tables, name :: rest =>
    if name ∈ tables then
      let (acted, success) := perform removes (if removes then tables.filter (· ≠ name) else tables) rest
      (name :: acted, success)
    else ([], false)

/-- A statement at a node that has `tables` (crates/modelardb_server/src/remote.rs:700-725): VACUUM without names acts on all tables. -/
def execute (tables : List (List Char)) : Statement → List (List Char) × Bool
  | .dropTable names => perform true tables names
  | .truncate names _ => perform false tables names
  | .vacuum names _ _ => perform false tables (if names = [] then tables else names)

/-- The statement that is sent to the other nodes of a cluster (crates/modelardb_server/src/cluster.rs:192-249). -/
def forwardedText : Statement → List Char
  | .dropTable names => "DROP TABLE ".toList ++ join ", ".toList names
  | .truncate names _ => "TRUNCATE ".toList ++ join ", ".toList names
  | .vacuum names (some period) _ => "VACUUM ".toList ++ join ", ".toList names ++ " RETAIN ".toList ++ Nat.toDigits 10 period
  | .vacuum names none _ => "VACUUM ".toList ++ join ", ".toList names

/-! ### Retention -/

/-- `chrono::TimeDelta::new` without nanoseconds. -/
def timeDelta (seconds : Int) : Option Int :=
  if -((2 ^ 63 - 1) / 1000) ≤ seconds ∧ seconds ≤ (2 ^ 63 - 1) / 1000 then some seconds else none

/-- The cast `as i64` of a `u64`. -/
def castI64 (n : Nat) : Int := if n < 2 ^ 63 then n else (n : Int) - 2 ^ 64

/-- The retention period that `DataFolder::vacuum_table` uses, in seconds (crates/modelardb_storage/src/data_folder/mod.rs:659-684). `none` if the
period is rejected. -/
def retentionUsed (period : Option Nat) : Option Int := timeDelta (castI64 (period.getD (60 * 60 * 24 * 7)))

/-- The stale files that delta-rs deletes, given by their ages in seconds: those that are older than the period. -/
def vacuumDeletes (retention : Int) (ages : List Nat) : List Nat := ages.filter fun age => retention < age

/-! ### INCLUDE -/

/-- The result of `execute_query_at_addresses_and_union` up to the query that is sent. -/
inductive Forwarded where
  | query (text : List Char)
  | error
  | panic
deriving DecidableEq, Repr

/-- What follows the last occurrence of `needle`, as `str::rfind` finds it. -/
def afterLast (needle : List Char) : List Char → Option (List Char)
  | [] => if needle = [] then some [] else none
  | c :: rest =>
    match afterLast needle rest with
    | some r => some r
    | none => if needle.isPrefixOf (c :: rest) then some ((c :: rest).drop needle.length) else none

/-- The query that is sent to the addresses of INCLUDE (crates/modelardb_server/src/remote.rs:91-103): what follows the last occurrence of the last
address and one byte. Slicing outside the text or within a character panics. -/
def forwardedQuery (sql : List Char) (addresses : List (List Char)) : Forwarded :=
  match addresses.getLast? with
  | none => .error
  | some last =>
    match afterLast last sql with
    | none => .error
    | some [] => .panic
    | some (c :: rest) => if c.utf8Size = 1 then .query rest else .panic

/-- The addresses of INCLUDE (crates/modelardb_storage/src/parser.rs:469-482): strings that are separated by commas. -/
def parseAddresses : List Token → Option (List (List Char) × List Token)
  | .string address :: .comma :: rest => (parseAddresses rest).map fun (addresses, r) => (address :: addresses, r)
  | .string address :: rest => some ([address], rest)
  | _ => none

/-- `ModelarDbDialect::parse_include_query` (crates/modelardb_storage/src/parser.rs:465-492 and 1232-1239): the addresses and the tokens of the
query, which is not parsed here. -/
def parseInclude : List Token → Option (List (List Char) × List Token)
  | t :: rest => if t.isKeyword "INCLUDE".toList then parseAddresses rest else none
  | [] => none

/-- What a node sends for a statement with INCLUDE (crates/modelardb_server/src/remote.rs:679-695). Errors of the query at the node itself are not
modelled. -/
def includeForwarded (sql : List Char) : Forwarded :=
  match (tokenize sql).bind fun tokens => parseInclude (tokens.dropWhile (· == .semicolon)) with
  | none => .error
  | some (addresses, _) => forwardedQuery sql addresses

end ModelarDB.Model.Statements
