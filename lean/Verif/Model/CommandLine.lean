import Verif.Model.QueryResult
/-
The command-line client (crates/modelardb_client/src/main.rs).

Text is a list of characters. White space is that of `Char.isWhitespace`, while `str::trim` also removes other white space of Unicode. What is printed
besides the batches of a result and whether there was an error is not modelled.
-/
namespace ModelarDB.Model.CommandLine
open FlightPut QueryResult

/-- The line before the first `--` (main.rs:106-112). -/
def beforeComment : List Char → List Char
  | [] => []
  | [c] => [c]
  | c :: d :: rest => if c = '-' ∧ d = '-' then [] else c :: beforeComment (d :: rest)

/-- `str::trim`. -/
def trim (text : List Char) : List Char := ((text.dropWhile Char.isWhitespace).reverse.dropWhile Char.isWhitespace).reverse

/-- `str::split(' ')`: there always is a first part. -/
def splitSpaces : List Char → List Char × List (List Char)
  | [] => ([], [])
  | c :: rest => if c = ' ' then ([], (splitSpaces rest).1 :: (splitSpaces rest).2) else (c :: (splitSpaces rest).1, (splitSpaces rest).2)

/-- What the client sends to the server. -/
inductive Request where
  | query (text : List Char)
  | schemaOf (table : List Char)
  | listTables
  | flushMemory
  | flushNode
deriving DecidableEq, Repr

/-- What the client does for a line. -/
inductive Act where
  | send (request : Request)
  | help
  | invalid
  | quit
deriving DecidableEq, Repr

/-- `execute_command` (main.rs:184-253). -/
def command (text : List Char) : Act :=
  if (splitSpaces text).1 = ['\\', 'd'] then
    match (splitSpaces text).2 with
    | table :: _ => .send (.schemaOf table)
    | [] => .invalid
  else if (splitSpaces text).1 = ['\\', 'd', 't'] then .send .listTables
  else if (splitSpaces text).1 = ['\\', 'f'] then .send .flushMemory
  else if (splitSpaces text).1 = ['\\', 'F'] then .send .flushNode
  else if (splitSpaces text).1 = ['\\', 'h'] then .help
  else if (splitSpaces text).1 = ['\\', 'q'] then .quit
  else .invalid

/-- `execute_and_print_command_or_query` (main.rs:160-171). -/
def act (text : List Char) : Act :=
  match trim text with
  | '\\' :: rest => command ('\\' :: rest)
  | query => .send (.query query)

/-- Whether an error is printed for an answer (main.rs:173-175). For the names of the tables it is not (main.rs:219-226). -/
def printsError (request : Request) (succeeds : Bool) : Bool :=
  match request with
  | .listTables => false
  | _ => !succeeds

/-- What a run of the client has done: the requests in order, the number of errors it printed and whether it exits with the code for success. -/
structure Run where
  requests : List Request
  errors : Nat
  success : Bool
deriving DecidableEq, Repr

/-- `execute_queries_from_a_file` (main.rs:98-122). A line is `none` if it cannot be read. `answers` are whether the server can execute each request. -/
def runFile (answers : Nat → Bool) : Nat → List (Option (List Char)) → Run
  | _, [] => ⟨[], 0, true⟩
  | _, none :: _ => ⟨[], 0, false⟩
  | i, some line :: rest =>
    if beforeComment line = [] then runFile answers i rest
    else
      match act (beforeComment line) with
      | .quit => ⟨[], 0, true⟩
      | .help => runFile answers i rest
      | .invalid => { runFile answers i rest with errors := (runFile answers i rest).errors + 1 }
      | .send request =>
        let after := runFile answers (i + 1) rest
        ⟨request :: after.requests, (printsError request (answers i)).toNat + after.errors, after.success⟩

/-- The answer of the user before the next batch is printed (main.rs:354-365): whether to print it and the lines that are left. At the end of the input
`read_line` returns at once with nothing, so the loop never ends, which is `none`. -/
def confirm : List (List Char) → Option (Bool × List (List Char))
  | [] => none
  | line :: rest => if line = ['\n'] then some (true, rest) else if line = ['q', '\n'] then some (false, rest) else confirm rest

/-- How printing a result ends. -/
inductive Ending where
  | done
  | quit
  | error
  | never
deriving DecidableEq, Repr

/-- `print_batches_with_confirmation` (main.rs:341-374) for what is read from the server. -/
def printConfirmed (multiple : Bool) (lines : List (List Char)) : List Item → List Batch × Ending
  | [] => ([], .done)
  | .error :: _ => ([], .error)
  | .batch b :: rest =>
    if multiple then
      match confirm lines with
      | none => ([], .never)
      | some (false, _) => ([], .quit)
      | some (true, left) => (b :: (printConfirmed true left rest).1, (printConfirmed true left rest).2)
    else (b :: (printConfirmed true lines rest).1, (printConfirmed true lines rest).2)

/-- `print_batches_without_confirmation` (main.rs:378-391). -/
def printAll : List Item → List Batch × Ending
  | [] => ([], .done)
  | .error :: _ => ([], .error)
  | .batch b :: rest => (b :: (printAll rest).1, (printAll rest).2)

end ModelarDB.Model.CommandLine
