import Verif.Model.CommandLine
import Verif.Model.Statements
/-
What SQL text means, for C70: its tokens. This follows the tokenizer of sqlparser with comments, but reads one character at a time. Strings with a prefix
and between dollar signs are not covered.
-/
namespace ModelarDB.Spec.CommandLine
open Model.Statements

/-- Where in the text the reader is. -/
inductive Place where
  /-- Between tokens. -/
  | between
  | word (text : List Char)
  | number (text : List Char)
  /-- Within quotes. -/
  | quoted (quote : Char) (text : List Char)
  /-- After a quote that ends the text in quotes unless another one follows. -/
  | closed (quote : Char) (text : List Char)
  | dash
  | slash
  | lineComment
  /-- In a comment between `/*` and `*/`, after an asterisk or not. -/
  | blockComment (asterisk : Bool)
deriving DecidableEq, Repr

/-- The token that ends here. -/
def Place.ended : Place → List Token
  | .word text => [.word text none]
  | .number text => [.number text]
  | .closed quote text => if quote = '\'' then [.string text] else [.word text (some quote)]
  | .dash => [.other '-']
  | .slash => [.other '/']
  | _ => []

/-- The characters with which a word can begin. -/
def wordStart (c : Char) : Bool := c.isAlpha || ['_', '@', '#'].contains c

/-- The characters in a word. -/
def wordPart (c : Char) : Bool := c.isAlphanum || ['_', '@', '#', '$'].contains c

/-- The place and tokens after a character between tokens. -/
def begin (c : Char) : Place × List Token :=
  if c.isWhitespace then (.between, [])
  else if wordStart c then (.word [c], [])
  else if c.isDigit then (.number [c], [])
  else if c = '"' ∨ c = '`' ∨ c = '\'' then (.quoted c [], [])
  else if c = '-' then (.dash, [])
  else if c = '/' then (.slash, [])
  else (.between, [if c = ',' then .comma else if c = '.' then .period else if c = ';' then .semicolon else .other c])

/-- The place and tokens after a character. -/
def step (place : Place) (c : Char) : Place × List Token :=
  match place with
  | .quoted quote text => (if c = quote then .closed quote text else .quoted quote (text ++ [c]), [])
  | .lineComment => (if c = '\n' then .between else .lineComment, [])
  | .blockComment asterisk => (if asterisk = true ∧ c = '/' then .between else .blockComment (c == '*'), [])
  | .word text => if wordPart c then (.word (text ++ [c]), []) else ((begin c).1, place.ended ++ (begin c).2)
  | .number text => if c.isDigit then (.number (text ++ [c]), []) else ((begin c).1, place.ended ++ (begin c).2)
  | .closed quote text => if c = quote then (.quoted quote (text ++ [c]), []) else ((begin c).1, place.ended ++ (begin c).2)
  | .dash => if c = '-' then (.lineComment, []) else ((begin c).1, place.ended ++ (begin c).2)
  | .slash => if c = '*' then (.blockComment false, []) else ((begin c).1, place.ended ++ (begin c).2)
  | .between => begin c

/-- Quotes and comments with asterisks must end. -/
def Place.complete : Place → Bool
  | .quoted _ _ => false
  | .blockComment _ => false
  | _ => true

/-- The tokens of the rest of a text, `none` if it is not complete. -/
def tokensFrom (place : Place) : List Char → Option (List Token)
  | [] => if place.complete then some place.ended else none
  | c :: rest => (tokensFrom (step place c).1 rest).map ((step place c).2 ++ ·)

/-- The tokens of a text. -/
def tokens (text : List Char) : Option (List Token) := tokensFrom .between text

/-- Each `--` in the text is not in quotes or in a comment with asterisks. -/
def DashesOutside (text : List Char) : Prop := ∀ before after, text = before ++ '-' :: '-' :: after → tokens before ≠ none

/-- The line starts with a backslash after white space. -/
def IsCommand (line : List Char) : Prop := ∃ space rest, line = space ++ '\\' :: rest ∧ ∀ c ∈ space, c.isWhitespace = true

end ModelarDB.Spec.CommandLine
