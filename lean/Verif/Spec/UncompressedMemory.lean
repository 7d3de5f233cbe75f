import Verif.Model.UncompressedMemory
/-
What C90 says about the memory for uncompressed data, in terms of the rows and requests that are received and of the rows that are compressed.
-/
namespace ModelarDB.Spec.UncompressedMemory
open Model.UncompressedMemory

/-- The state after some steps of a server that was started with some memory. -/
def Reached (env : Env) (memory : Nat) (steps : List Step) (s : State) : Prop := (State.start memory).run env steps = some s

/-- The rows of a batch. -/
def rowsOf : Step → List Row
  | .batch rows => rows
  | _ => []

/-- The rows the ingestion thread has received. -/
def received (steps : List Step) : List Row := steps.flatMap rowsOf

/-- The memory is never reduced. -/
def Grows (steps : List Step) : Prop := ∀ c, Step.change c ∈ steps → 0 ≤ c

/-- Each file can be written and read, and no client goes away while its request is processed. -/
def NoFailures (steps : List Step) : Prop :=
  (∀ pick io, (Step.ingest pick io ∈ steps ∨ Step.request pick io ∈ steps) → io = true) ∧ Step.cancel ∉ steps

/-- The rows in a map. -/
def rowsIn (m : Buffers) : List Row := m.flatMap fun e => e.2.rows

/-- The rows in buffers that are sent to the compression thread. -/
def rowsSent (sent : List Sent) : List Row := sent.flatMap Sent.rows

/-- The rows a thread has in its hands while it spills. -/
def inSpiller : Spiller → List Row
  | .writing _ b => b.rows
  | .storing _ b => b.rows
  | _ => []

/-- The rows a request has in its hands. -/
def inRequest : Option Request → List Row
  | some ⟨_, some spiller⟩ => inSpiller spiller
  | _ => []

/-- The rows the ingestion thread has in its hands. -/
def inIngest : Ingest → List Row
  | .looking row rest => row :: rest
  | .reserving row rest => row :: rest
  | .spilling row rest spiller => row :: rest ++ inSpiller spiller
  | .reading row rest => row :: rest
  | .dropping _ rest b => b.rows ++ rest
  | .putting _ rest b _ => b.rows ++ rest
  | .sending _ rest => rest
  | .ended rest => rest
  | _ => []

/-- The rows that are in the server and will be compressed. -/
def kept (s : State) : List Row :=
  rowsSent s.channel ++ rowsSent s.compressing.toList ++ rowsIn s.memory ++ rowsIn s.disk ++ inIngest s.ingest ++ inRequest s.request

/-- The ingestion thread does not process a batch. -/
def Idle : Ingest → Prop
  | .waiting => True
  | .ended _ => True
  | _ => False

/-- A request spills a buffer. -/
def Spills (s : State) : Prop := ∃ change spiller, s.request = some ⟨change, some spiller⟩

/-- No request spills a buffer while the ingestion thread processes a batch. -/
def Exclusive (env : Env) (memory : Nat) (steps : List Step) : Prop :=
  ∀ before after s, steps = before ++ after → Reached env memory before s → Spills s → Idle s.ingest

/-- A request only starts while the ingestion thread waits for a message, and the ingestion thread only starts to process a batch while there is no request. -/
def Separate (env : Env) (memory : Nat) (steps : List Step) : Prop :=
  ∀ before step after s, steps = before ++ step :: after → Reached env memory before s →
    (∀ rows, step = .batch rows → s.request = none) ∧ (∀ c, step = .change c → Idle s.ingest)

end ModelarDB.Spec.UncompressedMemory
