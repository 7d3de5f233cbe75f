import Verif.Model.CompressedMemory
/-
What C89 says about the memory for compressed data, in terms of the requests and messages and of what is written.
-/
namespace ModelarDB.Spec.CompressedMemory
open Model.CompressedMemory

/-- The state after some steps of a server that was started with some memory. -/
def Reached (memory : Nat) (steps : List Step) (s : State) : Prop := (State.start memory).run steps = some s

/-- The batches the writer thread has received. -/
def received (steps : List Step) : List Batch :=
  steps.filterMap fun
    | .insert b => some b
    | _ => none

/-- How much a request changes the memory. -/
def changeOf : Step → Option Int
  | .change c => some c
  | _ => none

/-- The memory that is configured: that at the start and the changes. -/
def configured (memory : Nat) (steps : List Step) : Int := memory + (steps.filterMap changeOf).sum

/-- The memory is never reduced. -/
def Grows (steps : List Step) : Prop := ∀ c, Step.change c ∈ steps → 0 ≤ c

/-- Each buffer can be saved. -/
def NoFailures (steps : List Step) : Prop := ∀ r, (Step.write r ∈ steps ∨ Step.update r ∈ steps) → r = .done

/-- A batch has at most one record batch, so at most one field. -/
def OneField (steps : List Step) : Prop := ∀ b, Step.insert b ∈ steps → b.sizes.length ≤ 1

/-- What is in the buffers. -/
def inBuffers (s : State) : List Batch := s.buffers.flatMap fun e => e.2.batches

/-- What a thread has taken from the buffers and is writing. -/
def inSaver : Option Saver → List Batch
  | some (.writing _ buffer) => buffer.batches
  | _ => []

/-- The loop the writer thread is in. -/
def writerSaver : Writer → Option Saver
  | .saving _ saver => some saver
  | .flushing saver => some saver
  | _ => none

/-- Nothing is done: the writer thread waits for a message and there is no request. -/
def Quiet (s : State) : Prop := s.writer = .waiting ∧ s.updater = none

/-- A request only starts while the writer thread waits for a message, and the writer thread only starts to process a message while there is no request. -/
def Separate (memory : Nat) (steps : List Step) : Prop :=
  ∀ before step after s, steps = before ++ step :: after → Reached memory before s →
    (∀ b, step = .insert b → s.updater = none) ∧ (∀ c, step = .change c → s.writer = .waiting)

/-- The memory that is configured is never negative. -/
def Configurable (memory : Nat) (steps : List Step) : Prop := ∀ before after, steps = before ++ after → 0 ≤ configured memory before

/-- The bytes in the buffers, each batch counted with the size of its record batches. -/
def bytesInBuffers (s : State) : Nat := ((inBuffers s).map Batch.size).sum

end ModelarDB.Spec.CompressedMemory
