import Verif.Model.Statements
/-
Specification of statements that name tables, for C41, C42 and C43.
-/
namespace ModelarDB.Spec
open Model.Statements

/-- A word of a statement, with its quotes. -/
structure Word where
  value : List Char
  quote : Option Char
deriving DecidableEq

/-- A word as a token. -/
def Word.token (w : Word) : Token := .word w.value w.quote

/-- Names that are separated by commas. -/
def listing (ws : List Word) : List Token := (ws.map Word.token).intersperse .comma

/-- A keyword in any case, without quotes. -/
def Keyword (t : Token) (keyword : String) : Prop := ∃ value, t = .word value none ∧ value.map Char.toUpper = keyword.toList

/-- A word that is not a given keyword, e.g. because it is quoted. -/
def Word.Not (w : Word) (keyword : String) : Prop := ¬ Keyword w.token keyword

/-- The words of an optional clause. -/
def ClusterClause (cluster : Bool) (tokens : List Token) : Prop :=
  if cluster then ∃ t, tokens = [t] ∧ Keyword t "CLUSTER" else tokens = []

/-- The clause with the retention period, a decimal number. -/
def RetainClause (retention : Option Nat) (tokens : List Token) : Prop :=
  match retention with
  | none => tokens = []
  | some n => ∃ t text, tokens = [t, .number text] ∧ Keyword t "RETAIN" ∧ text ≠ [] ∧ (∀ c ∈ text, c.isDigit = true) ∧
      Nat.ofDigitChars 10 text 0 = n

/-- TRUNCATE with the tables it names. -/
def SaysTruncate (tokens : List Token) (ws : List Word) (cluster : Bool) : Prop :=
  ∃ t flag, tokens = t :: (flag ++ listing ws) ∧ Keyword t "TRUNCATE" ∧ ClusterClause cluster flag ∧ ws ≠ [] ∧
    (cluster = false → ∀ w, ws.head? = some w → w.Not "CLUSTER")

/-- VACUUM with the tables it names, all tables if it names none, and the retention period. -/
def SaysVacuum (tokens : List Token) (ws : List Word) (retention : Option Nat) (cluster : Bool) : Prop :=
  ∃ t flag retain, tokens = t :: (flag ++ listing ws ++ retain) ∧ Keyword t "VACUUM" ∧ ClusterClause cluster flag ∧
    RetainClause retention retain ∧ (∀ w, ws.head? = some w → w.Not "RETAIN") ∧
    (cluster = false → ∀ w, ws.head? = some w → w.Not "CLUSTER")

/-- DROP TABLE with the tables it names. -/
def SaysDrop (tokens : List Token) (ws : List Word) : Prop :=
  ∃ t t', tokens = t :: t' :: listing ws ∧ Keyword t "DROP" ∧ Keyword t' "TABLE" ∧ ws ≠ []

/-- The parts of a name: words and texts in single quotes. -/
inductive Part where
  | word (w : Word)
  | text (value : List Char)
deriving DecidableEq

/-- A part as a token. -/
def Part.token : Part → Token
  | .word w => w.token
  | .text value => .string value

/-- What a part stands for. -/
def Part.value : Part → List Char
  | .word w => w.value
  | .text value => value

/-- The parts of a name are separated by periods. -/
def dotted (parts : List Part) : List Token := (parts.map Part.token).intersperse .period

/-- Names in parts that are separated by commas. -/
def dottedListing (names : List (List Part)) : List Token := [Token.comma].intercalate (names.map dotted)

/-- DROP TABLE with the names it has, each in parts. -/
def SaysDropParts (tokens : List Token) (names : List (List Part)) : Prop :=
  ∃ t t', tokens = t :: t' :: dottedListing names ∧ Keyword t "DROP" ∧ Keyword t' "TABLE" ∧ names ≠ [] ∧ ∀ parts ∈ names, parts ≠ []

/-- The parts of a text that end with semicolons. The last part does not need one. -/
def Terminated (parts : List (List Char)) (text : List Char) : Prop :=
  (∀ part ∈ parts, ';' ∉ part) ∧
    parts.flatMap (· ++ [';']) = if text = [] ∨ text.getLast? = some ';' then text else text ++ [';']

/-- Statements end with any number of semicolons. -/
def Ends (tokens : List Token) : Prop := ∀ t ∈ tokens, t = .semicolon

/-- A name that does not need quotes: letters, digits and some other characters, the first of which is not a digit or a dollar sign. -/
def PlainName (name : List Char) : Prop :=
  (∀ c ∈ name, c.isAlphanum ∨ c ∈ ['_', '@', '#', '$']) ∧ ∃ c rest, name = c :: rest ∧ (c.isAlpha ∨ c ∈ ['_', '@', '#'])

/-- The effect of a statement that names tables: it acts on exactly these, if all exist. -/
def ActsOn (tables named : List (List Char)) (result : List (List Char) × Bool) : Prop :=
  (∀ name ∈ result.1, name ∈ named ∧ name ∈ tables) ∧ ((∀ name ∈ named, name ∈ tables) → result = (named, true))

/-- `text` occurs in `query`. -/
def Occurs (text query : List Char) : Prop := ∃ before after, query = before ++ text ++ after

/-- The text of the addresses of INCLUDE: strings without quotes that are separated by commas, with spaces anywhere. -/
inductive AddressText : List (List Char) → List Char → Prop
  | last (n : Nat) (address : List Char) : '\'' ∉ address → AddressText [address] (List.replicate n ' ' ++ '\'' :: (address ++ ['\'']))
  | cons (n m : Nat) (address : List Char) (addresses : List (List Char)) (text : List Char) : '\'' ∉ address → AddressText addresses text →
      AddressText (address :: addresses) (List.replicate n ' ' ++ '\'' :: (address ++ '\'' :: (List.replicate m ' ' ++ ',' :: text)))

end ModelarDB.Spec
