import Mathlib.Data.List.Basic
/-
The functions of the C-API: how they convert their arguments, how errors are reported, and who owns the structures of Apache Arrow's C Data Interface.

Source: crates/modelardb_embedded/src/capi.rs. It is used by crates/modelardb_embedded/bindings/python/modelardb/operations.py and ffi_array.py.

What the operations do is not modelled here (C61 to C63), only whether they fail. Addresses are numbers and errors are their texts. Using a pointer for
another type than it was created with or after it was deallocated has no defined behaviour.
-/
namespace ModelarDB.Model.CApi

/-- What a pointer returned by the functions that open a data folder or connect to a node points to. -/
inductive Kind where
  | dataFolder
  | client
deriving DecidableEq, Repr

/-- A pointer to a data folder or client. -/
inductive Ptr where
  | null
  | unaligned
  | address (a : Nat)
deriving DecidableEq, Repr

/-- A pointer to a C string: null, not UTF-8 or valid. -/
inductive Text where
  | null
  | notUtf8
  | valid
deriving DecidableEq, Repr

/-- An array and schema that the caller exported. `valid` is whether they can be imported. -/
structure Exported where
  id : Nat
  valid : Bool
deriving DecidableEq, Repr

/-- The functions that use a data folder or client. -/
inductive Fn where
  | modelardbType | create | tables | schema | write | read | copy | readTable | copyTable | move | truncate | drop | vacuum
deriving DecidableEq, Repr

/-- How an argument is converted. The number is which of the pointers, strings or exported structures it is. -/
inductive Arg where
  | handle (i : Nat)
  | text (i : Nat)
  | maybeText (i : Nat)
  | borrow (i : Nat)
  | take (i : Nat)
  | check
deriving DecidableEq, Repr

/-- The conversions of each function in order. -/
def args : Fn → List Arg
  /- capi.rs:276-289 -/
  | .modelardbType => [.handle 0]
  /- capi.rs:332-372; the schema is only read through a reference, the error bounds and generated columns are read from their pointers. -/
  | .create => [.handle 0, .text 0, .borrow 0, .take 1, .take 2]
  /- capi.rs:428-445 -/
  | .tables => [.handle 0]
  /- capi.rs:470-485 -/
  | .schema => [.handle 0, .text 0]
  /- capi.rs:516-534 -/
  | .write => [.handle 0, .text 0, .take 0]
  /- capi.rs:564-586 -/
  | .read => [.handle 0, .text 0]
  /- capi.rs:615-629 -/
  | .copy => [.handle 0, .text 0, .handle 1, .text 1]
  /- capi.rs:682-737; the check is for the aggregates. -/
  | .readTable => [.handle 0, .text 0, .maybeText 1, .maybeText 2, .take 0, .check, .take 1, .take 2]
  /- capi.rs:809-841 -/
  | .copyTable => [.handle 0, .text 0, .handle 1, .text 1, .maybeText 2, .maybeText 3, .take 0]
  /- capi.rs:898-912 -/
  | .move => [.handle 0, .text 0, .handle 1, .text 1]
  /- capi.rs:928-937 -/
  | .truncate => [.handle 0, .text 0]
  /- capi.rs:953-962 -/
  | .drop => [.handle 0, .text 0]
  /- capi.rs:990-1014; the check is for the retention period. -/
  | .vacuum => [.handle 0, .text 0, .maybeText 1, .check]

/-- A call. `dataFolder` is the argument `is_data_folder`, `operation` the error of the operation if its arguments can be converted. -/
structure Call where
  fn : Fn
  dataFolder : Bool
  handles : List Ptr
  texts : List Text
  exported : List Exported
  checks : Bool
  operation : Option String
deriving DecidableEq, Repr

/-- What a caller can do in a thread. -/
inductive Request where
  | openFolder (error : Option String)
  | connect (error : Option String)
  | close (p : Ptr) (dataFolder : Bool)
  | call (c : Call)
  | error
  | export (id : Nat)
  | release (id : Nat)
deriving DecidableEq, Repr

/-- What a request returns. `undefined` is undefined behaviour. -/
inductive Result where
  | pointer (p : Ptr)
  | success
  | failure
  | message (m : Option String)
  | done
  | undefined
deriving DecidableEq, Repr

/-- The process. `lastError` is THREAD_LAST_ERROR of each thread and `boxes` what is allocated. `released` is how often each exported structure was released,
which deallocates it. -/
structure Process where
  boxes : List (Nat × Kind)
  next : Nat
  lastError : Nat → Option String
  released : Nat → Nat

/-- A process that used nothing yet. -/
def Process.new : Process := ⟨[], 0, fun _ => none, fun _ => 0⟩

/-- What `is_data_folder` says a pointer points to. -/
def kindOf (dataFolder : Bool) : Kind := if dataFolder then .dataFolder else .client

/-- How the conversion of the arguments ends: the structures that were taken with an error, undefined behaviour or success. -/
inductive Converted where
  | error (taken : List Nat) (message : String)
  | undefined
  | ok (taken : List Nat)
deriving DecidableEq, Repr

/-- Add a taken structure. -/
def Converted.add (id : Nat) : Converted → Converted
  | .error taken m => .error (id :: taken) m
  | .undefined => .undefined
  | .ok taken => .ok (id :: taken)

/-- Convert the arguments in order, where `borrowed` are the addresses to which mutable references exist: `c_void_to_operations` (capi.rs:1048-1071),
`c_char_ptr_to_str` (capi.rs:1076-1092), `c_char_ptr_to_maybe_str` (capi.rs:846-852) and `from_ffi` of arrow, which releases what was read from the pointers also if it fails. Two mutable references to the same value have
no defined behaviour. -/
def convert (boxes : List (Nat × Kind)) (c : Call) (borrowed : List Nat) : List Arg → Converted
  | [] => .ok []
  | .handle i :: rest =>
    match c.handles[i]? with
    | some (.address a) => if (a, kindOf c.dataFolder) ∈ boxes ∧ a ∉ borrowed then convert boxes c (a :: borrowed) rest else .undefined
    | _ => .error [] "Pointer is null or unaligned."
  | .text i :: rest =>
    match c.texts[i]? with
    | some .valid => convert boxes c borrowed rest
    | some .notUtf8 => .error [] "Not UTF-8."
    | _ => .error [] "Pointer to string is null."
  | .maybeText i :: rest =>
    match c.texts[i]? with
    | some .notUtf8 => .error [] "Not UTF-8."
    | _ => convert boxes c borrowed rest
  | .borrow i :: rest =>
    match c.exported[i]? with
    | some e => if e.valid then convert boxes c borrowed rest else .error [] "Schema could not be converted."
    | none => .undefined
  | .take i :: rest =>
    match c.exported[i]? with
    | some e => if e.valid then (convert boxes c borrowed rest).add e.id else .error [e.id] "Data could not be converted."
    | none => .undefined
  | .check :: rest => if c.checks then convert boxes c borrowed rest else .error [] "Unsupported argument."

/-- Structures that are released. -/
def Process.take (s : Process) (ids : List Nat) : Process := { s with released := fun i => s.released i + ids.count i }

/-- `THREAD_LAST_ERROR.set(Some(error))` -/
def Process.fail (s : Process) (thread : Nat) (message : String) : Process :=
  { s with lastError := fun t => if t = thread then some message else s.lastError t }

/-- A request of a thread. -/
def Process.step (s : Process) (thread : Nat) : Request → Process × Result
  /- `modelardb_embedded_open_memory`, `_local`, `_s3` and `_azure` with `set_error_and_return_value_ptr` (capi.rs:218-229) -/
  | .openFolder none => ({ s with boxes := (s.next, .dataFolder) :: s.boxes, next := s.next + 1 }, .pointer (.address s.next))
  | .openFolder (some e) => (s.fail thread e, .pointer .null)
  /- `modelardb_embedded_connect` (capi.rs:204-214) -/
  | .connect none => ({ s with boxes := (s.next, .client) :: s.boxes, next := s.next + 1 }, .pointer (.address s.next))
  | .connect (some e) => (s.fail thread e, .pointer .null)
  /- `modelardb_embedded_close` (capi.rs:235-258), which does not set an error. -/
  | .close (.address a) dataFolder =>
    if (a, kindOf dataFolder) ∈ s.boxes then ({ s with boxes := s.boxes.filter (·.1 != a) }, .success) else (s, .undefined)
  | .close _ _ => (s, .failure)
  /- The functions with `set_error_and_return_code` (capi.rs:1150-1158) -/
  | .call c =>
    match convert s.boxes c [] (args c.fn) with
    | .undefined => (s, .undefined)
    | .error taken m => ((s.take taken).fail thread m, .failure)
    | .ok taken =>
      match c.operation with
      | none => (s.take taken, .success)
      | some e => ((s.take taken).fail thread e, .failure)
  /- `modelardb_embedded_error` (capi.rs:1021-1042) -/
  | .error => (s, .message (s.lastError thread))
  /- `FFIArray.from_array` (ffi_array.py:29-49): a new structure for which nothing was released. -/
  | .export id => ({ s with released := fun i => if i = id then 0 else s.released i }, .done)
  /- The callback in the structure of the caller, which is not cleared by reading it from its pointer. -/
  | .release id => (s.take [id], .done)

/-- Requests of several threads in order and what they return. -/
def Process.run (s : Process) : List (Nat × Request) → Process × List (Nat × Request × Result)
  | [] => (s, [])
  | (t, r) :: rest => (((s.step t r).1.run rest).1, (t, r, (s.step t r).2) :: ((s.step t r).1.run rest).2)

end ModelarDB.Model.CApi
