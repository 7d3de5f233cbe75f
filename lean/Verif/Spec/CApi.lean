import Verif.Model.CApi
/-
What a caller of the C-API expects, for C66.
-/
namespace ModelarDB.Spec.CApi
open Model.CApi

/-- The parameters of a function: how many data folders or clients, which strings can be null, how many exported structures, and which of those are arrays. -/
structure Signature where
  handles : Nat
  texts : List Bool
  exported : Nat
  arrays : List Nat

/-- The parameters of each function as documented. -/
def signature : Fn → Signature
  | .modelardbType => ⟨1, [], 0, []⟩
  | .create => ⟨1, [false], 3, [1, 2]⟩
  | .tables => ⟨1, [], 0, []⟩
  | .schema => ⟨1, [false], 0, []⟩
  | .write => ⟨1, [false], 1, [0]⟩
  | .read => ⟨1, [false], 0, []⟩
  | .copy => ⟨2, [false, false], 0, []⟩
  | .readTable => ⟨1, [false, true, true], 3, [0, 1, 2]⟩
  | .copyTable => ⟨2, [false, false, true, true], 1, [0]⟩
  | .move => ⟨2, [false, false], 0, []⟩
  | .truncate => ⟨1, [false], 0, []⟩
  | .drop => ⟨1, [false], 0, []⟩
  | .vacuum => ⟨1, [false, true], 0, []⟩

/-- Whether a function checks the values of an argument. -/
def checksValues : Fn → Bool
  | .readTable | .vacuum => true
  | _ => false

/-- A call with the arguments the compiler requires. The exported structures are different ones. -/
structure WellTyped (c : Call) : Prop where
  handles : c.handles.length = (signature c.fn).handles
  texts : c.texts.length = (signature c.fn).texts.length
  exported : c.exported.length = (signature c.fn).exported
  different : (c.exported.map (·.id)).Nodup

/-- A string that can be used. -/
def Usable (optional : Bool) (t : Text) : Prop := t = .valid ∨ (optional = true ∧ t = .null)

/-- A call with arguments that can be used. -/
structure Fine (c : Call) : Prop where
  handles : ∀ p ∈ c.handles, ∃ a, p = .address a
  texts : ∀ p ∈ (signature c.fn).texts.zip c.texts, Usable p.1 p.2
  exported : ∀ e ∈ c.exported, e.valid = true
  checks : checksValues c.fn = true → c.checks = true

/-- Whether a request that returned `r` failed. -/
def failed : Result → Bool
  | .pointer .null | .failure => true
  | _ => false

/-- The error that a failing request should report, where the texts for arguments that cannot be used are not given. -/
def Reports : Request → String → Prop
  | .openFolder e, m => e = some m
  | .connect e, m => e = some m
  | .call c, m => Fine c → c.operation = some m
  | _, _ => True

/-- What was done so far. -/
abbrev Trace := List (Nat × Request × Result)

/-- The request returns data folders or clients. -/
def opens (k : Kind) : Request → Bool
  | .openFolder _ => k == .dataFolder
  | .connect _ => k == .client
  | _ => false

/-- The request closes what is at an address. -/
def closes (a : Nat) : Request → Bool
  | .close (.address b) _ => a == b
  | _ => false

/-- A data folder or client was returned and is not closed. -/
def Open (trace : Trace) (a : Nat) (k : Kind) : Prop :=
  ∃ before t r after, trace = before ++ (t, r, .pointer (.address a)) :: after ∧ opens k r = true ∧ ∀ x ∈ after, closes a x.2.1 = false

/-- The kind that the parameter is_data_folder says. -/
def said (dataFolder : Bool) : Kind := match dataFolder with | true => .dataFolder | false => .client

/-- A request that only uses data folders and clients that are open and of the kind the caller says, and not the same one twice. -/
def Proper (trace : Trace) : Request → Prop
  | .close (.address a) dataFolder => Open trace a (said dataFolder)
  | .call c => WellTyped c ∧ c.handles.Nodup ∧ ∀ a, .address a ∈ c.handles → Open trace a (said c.dataFolder)
  | _ => True

/-- The documented use: source and target can be a data folder and a client. Only what is_data_folder says about the source must be true. -/
def Documented (trace : Trace) : Request → Prop
  | .close (.address a) dataFolder => Open trace a (said dataFolder)
  | .call c => WellTyped c ∧ (∀ a, c.handles[0]? = some (.address a) → Open trace a (said c.dataFolder)) ∧
      ∀ a, .address a ∈ c.handles → ∃ k, Open trace a k
  | _ => True

/-- All requests satisfy a condition on what was done before. -/
def Always (ok : Trace → Request → Prop) (trace : Trace) : Prop := ∀ before x after, trace = before ++ x :: after → ok before x.2.1

/-- What a caller releases after a call, by position of the exported structure, depending on the function and whether it failed. -/
abbrev Policy := Fn → Bool → List Nat

/-- Export structures, call a function and release what the policy says. -/
def followed (policy : Policy) (t : Nat) (s : Process) (c : Call) : Process :=
  let s := (s.run (c.exported.map fun e => (t, Request.export e.id))).1
  let r := s.step t (.call c)
  (r.1.run ((policy c.fn (failed r.2)).filterMap fun i => (c.exported[i]?).map fun e => (t, Request.release e.id))).1

/-- All exported structures are released exactly once. -/
def ReleasedOnce (policy : Policy) (t : Nat) (s : Process) (c : Call) : Prop := ∀ e ∈ c.exported, (followed policy t s c).released e.id = 1

end ModelarDB.Spec.CApi
