import Verif.Model.CreateTable
import Verif.Spec.Statements
import Verif.Spec.TableDefinition
import Mathlib.Algebra.Order.Field.Rat
/-
What a CREATE TIME SERIES TABLE statement says, for C75.
-/
namespace ModelarDB.Spec
open Model Model.Statements Model.TableDefinition Model.CreateTable

variable {ε : Type}

/-- What is assumed of the crates: ASCII letters change case as usual, a number is read back from its text, and an expression in
parentheses is read up to the closing parenthesis. -/
structure Lawful (sql : Sql ε) : Prop where
  lower : ∀ w : List Char, (∀ c ∈ w, c.val < 128) → sql.lower w = w.map Char.toLower
  display : ∀ text v, parseF32 text = some v → parseF32 (sql.display v) = some v
  used : ∀ tokens e rest, sql.parseExpr tokens = some (e, rest) → ∃ text, tokens = text ++ rest
  closed : ∀ text e rest rest', sql.parseExpr (text ++ .other ')' :: rest) = some (e, .other ')' :: rest) →
    sql.parseExpr (text ++ .other ')' :: rest') = some (e, .other ')' :: rest')

/-- The text of an exponent: the letter e, perhaps a sign, and digits. -/
inductive ExponentText : List Char → Int → Prop
  | none : ExponentText [] 0
  | positive (letter : Char) (plus digits : List Char) : letter = 'e' ∨ letter = 'E' → plus = [] ∨ plus = ['+'] → digits ≠ [] →
      (∀ c ∈ digits, c.isDigit = true) → ExponentText (letter :: (plus ++ digits)) (Nat.ofDigitChars 10 digits 0)
  | negative (letter : Char) (digits : List Char) : letter = 'e' ∨ letter = 'E' → digits ≠ [] → (∀ c ∈ digits, c.isDigit = true) →
      ExponentText (letter :: '-' :: digits) (-(Nat.ofDigitChars 10 digits 0 : Int))

/-- The text of a number: digits, perhaps a point and digits, and perhaps an exponent. -/
def NumberText (text : List Char) (q : ℚ) : Prop :=
  ∃ whole part dot e n, (∀ c ∈ whole, c.isDigit = true) ∧ (∀ c ∈ part, c.isDigit = true) ∧ (whole ≠ [] ∨ part ≠ []) ∧
    (dot = ['.'] ∨ dot = [] ∧ part = []) ∧ ExponentText e n ∧ text = whole ++ dot ++ part ++ e ∧
    q = (Nat.ofDigitChars 10 whole 0 + Nat.ofDigitChars 10 part 0 / 10 ^ part.length) * (10 : ℚ) ^ n

/-- What a column can be declared as. -/
inductive Kind (ε : Type) where
  | timestamp
  | tag
  | field
  /-- A field with an error bound, a number or a percentage. -/
  | bounded (number : List Char) (percentage : Bool)
  /-- A field that is computed with an expression, with the text of the expression. -/
  | computed (text : List Token) (expr : ε)

/-- A column that is declared. -/
structure DeclaredColumn (ε : Type) where
  name : List Char
  kind : Kind ε

/-- A table that is declared. -/
structure Declaration (ε : Type) where
  name : List Char
  columns : List (DeclaredColumn ε)

/-- A word in any case and with any quotes. -/
def Spelled (sql : Sql ε) (word : String) (t : Token) : Prop := ∃ value quote, t = .word value quote ∧ sql.upper value = word.toList

/-- The text of an expression: it is read as the expression when it is followed by a parenthesis. -/
def ReadAs (sql : Sql ε) (text : List Token) (e : ε) : Prop :=
  ∀ rest, sql.parseExpr (text ++ .other ')' :: rest) = some (e, .other ')' :: rest)

/-- What follows the name of a column. -/
inductive WrittenKind (sql : Sql ε) : Kind ε → List Token → Prop
  | timestamp (t : Token) : Spelled sql "TIMESTAMP" t → WrittenKind sql .timestamp [t]
  | tag (t : Token) : Spelled sql "TAG" t → WrittenKind sql .tag [t]
  | field (t : Token) : Spelled sql "FIELD" t → WrittenKind sql .field [t]
  | number (t : Token) (number : List Char) : Spelled sql "FIELD" t →
      WrittenKind sql (.bounded number false) [t, .other '(', .number number, .other ')']
  | percentage (t : Token) (number : List Char) : Spelled sql "FIELD" t →
      WrittenKind sql (.bounded number true) [t, .other '(', .number number, .other '%', .other ')']
  | computed (t as : Token) (text : List Token) (e : ε) : Spelled sql "FIELD" t → Spelled sql "AS" as → ReadAs sql text e →
      WrittenKind sql (.computed text e) ([t, as, .other '('] ++ text ++ [.other ')'])

/-- Columns that are separated by commas. There is at least one. -/
inductive WrittenColumns (sql : Sql ε) : List (DeclaredColumn ε) → List Token → Prop
  | last (name : List Char) (quote : Option Char) (kind : Kind ε) (text : List Token) : WrittenKind sql kind text →
      WrittenColumns sql [⟨name, kind⟩] (.word name quote :: text)
  | cons (name : List Char) (quote : Option Char) (kind : Kind ε) (text : List Token) (columns : List (DeclaredColumn ε)) (rest : List Token) :
      WrittenKind sql kind text → WrittenColumns sql columns rest →
      WrittenColumns sql (⟨name, kind⟩ :: columns) (.word name quote :: text ++ .comma :: rest)

/-- `CREATE TIME SERIES TABLE name (columns)`, with semicolons around it. -/
def Written (sql : Sql ε) (d : Declaration ε) (tokens : List Token) : Prop :=
  ∃ pre post create time series table quote columns, Ends pre ∧ Ends post ∧ Keyword create "CREATE" ∧ Spelled sql "TIME" time ∧
    Spelled sql "SERIES" series ∧ Keyword table "TABLE" ∧ WrittenColumns sql d.columns columns ∧
    tokens = pre ++ ([create, time, series, table, .word d.name quote, .other '('] ++ columns ++ .other ')' :: post)

/-- The type of a column of a kind. -/
def Kind.type : Kind ε → DataType
  | .timestamp => .timestamp
  | .tag => .string
  | _ => .value

/-- The column of the table. -/
def DeclaredColumn.column (sql : Sql ε) (c : DeclaredColumn ε) : Column := ⟨String.ofList (sql.lower c.name), c.kind.type, false⟩

/-- A column that is stored. -/
def Kind.stored : Kind ε → Bool
  | .computed _ _ => false
  | _ => true

/-- The error bound that is declared: the float that is nearest to the number. Zero is lossless. -/
def Kind.Bound : Kind ε → ErrorBound → Prop
  | .bounded number percentage, b =>
    ∃ q, decimal number = some q ∧
      (FVal.round f32Fmt false q = .fin false 0 ∧ b = .lossless ∨
        FVal.round f32Fmt false q ≠ .fin false 0 ∧
          b = if percentage then .relative (FVal.round f32Fmt false q) else .absolute (FVal.round f32Fmt false q))
  | _, b => b = .lossless

/-- The expression that is declared, with the positions of the columns it refers to. -/
def Kind.Computes (sql : Sql ε) (schema : List Column) : Kind ε → Option (Generated ε) → Prop
  | .computed _ e, g => ∃ g', g = some g' ∧ g'.expr = e ∧
      List.Forall₂ (fun (r : String) (i : Nat) => ∃ c, schema[i]? = some c ∧ c.name = r) (sql.refs e) g'.sources
  | _, g => g = none

/-- A table has the declared name and columns, with the error bounds and expressions that are declared. -/
structure Defines (sql : Sql ε) (d : Declaration ε) (m : Metadata ε) : Prop where
  name : m.name = String.ofList (sql.lower d.name)
  columns : m.querySchema = d.columns.map (DeclaredColumn.column sql)
  generated : List.Forall₂ (fun c g => c.kind.Computes sql m.querySchema g) d.columns m.generated
  stored : ∃ bounds, List.Forall₂ (fun (c : DeclaredColumn ε) b => c.kind.Bound b) d.columns bounds ∧
    Consistent m.querySchema bounds m.generated m

/-- A declaration that makes sense. -/
structure Sensible (sql : Sql ε) (d : Declaration ε) : Prop where
  noSpace : ∀ c ∈ sql.lower d.name, c.isWhitespace = false
  notReserved : sql.upper (sql.lower d.name) ∉ sql.keywords
  path : sql.validPath (sql.lower d.name) = true
  few : d.columns.length ≤ 32767
  different : (d.columns.map fun c => sql.lower c.name).Nodup
  timestamp : d.columns.countP (fun c => c.kind.type = .timestamp) = 1
  field : ∃ c ∈ d.columns, c.kind.type = .value ∧ c.kind.stored = true
  bounds : ∀ c ∈ d.columns, ∃ b, c.kind.Bound b ∧ Meaningful b
  expressions : ∀ c ∈ d.columns, ∀ text e, c.kind = .computed text e →
    (∀ r ∈ sql.refs e, ∃ c' ∈ d.columns, String.ofList (sql.lower c'.name) = r ∧ c'.kind.stored = true) ∧
      sql.physical (d.columns.map fun c => ⟨String.ofList (sql.lower c.name), c.kind.type, true⟩) e = true

/-- The names of the columns only have ASCII characters. -/
def Ascii (d : Declaration ε) : Prop := ∀ c ∈ d.columns, ∀ x ∈ c.name, x.val < 128

end ModelarDB.Spec
