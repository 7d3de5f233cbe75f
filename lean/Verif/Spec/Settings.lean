import Verif.Model.Settings
/-
What it means that a setting has a value, for C88.
-/
namespace ModelarDB.Spec.Settings
open Model Model.Configuration Model.Settings

/-- The number of each setting, as documented in protocol.proto. -/
def number : Setting → Int
  | .ingested => 0
  | .uncompressed => 1
  | .compressed => 2
  | .transferBatchSize => 3
  | .transferTime => 4
  | .segmentSize => 5

/-- The value of a setting in a configuration. -/
def valueOf (c : Configuration) : Setting → Option Nat
  | .ingested => some c.ingested
  | .uncompressed => some c.uncompressed
  | .compressed => some c.compressed
  | .transferBatchSize => c.transferBatchSize
  | .transferTime => c.transferTime
  | .segmentSize => some c.segmentSize

/-- The value of a setting in what the server reports. -/
def reported (r : Report) : Setting → Option Nat
  | .ingested => some r.ingested
  | .uncompressed => some r.uncompressed
  | .compressed => some r.compressed
  | .transferBatchSize => r.transferBatchSize
  | .transferTime => r.transferTime
  | .segmentSize => some r.segmentSize

/-- The value of a setting on the command line. -/
def given (a : Args) : Setting → Option Nat
  | .ingested => a.ingested
  | .uncompressed => a.uncompressed
  | .compressed => a.compressed
  | .transferBatchSize => a.transferBatchSize
  | .transferTime => a.transferTime
  | .segmentSize => a.segmentSize

/-- The memory of a component: what it has reserved and what remains. -/
def total (m : Memory) : Int := m.remaining + m.reserved

/-- The component that a setting is for uses a value. There is nothing that uses the settings of transfers without a remote data folder and the size of
log files without a log. -/
def Uses (c : Components) (s : Setting) (value : Option Nat) : Prop :=
  match s with
  | .ingested => some (total c.ingested) = value.map Int.ofNat
  | .uncompressed => some (total c.uncompressed) = value.map Int.ofNat
  | .compressed => some (total c.compressed) = value.map Int.ofNat
  | .transferBatchSize => ∀ t, c.transfer = some t → t.batchSize = value
  | .transferTime => ∀ t, c.transfer = some t → t.time = value
  | .segmentSize => ∀ l, c.log = some l → some l.threshold = value ∧ ∀ t ∈ l.tables, some t.2 = value

/-- Memory settings. -/
def IsMemory (s : Setting) : Prop := s = .ingested ∨ s = .uncompressed ∨ s = .compressed

instance (s : Setting) : Decidable (IsMemory s) := inferInstanceAs (Decidable (_ ∨ _ ∨ _))

/-- A request that asks for less than `2 ^ 63` bytes of memory, and that succeeds in freeing compressed memory. -/
def Fine : Op → Prop
  | .update setting value w =>
    (setting = 0 ∨ setting = 1 ∨ setting = 2 → ∀ v, value = some v → v < 2 ^ 63) ∧ (setting = 2 → w.freeing = true)
  | _ => True

/-- The settings that can be changed. -/
def settings : List Setting := [.ingested, .uncompressed, .compressed, .transferBatchSize, .transferTime, .segmentSize]

/-- A step that leaves a setting to other requests: no request for the setting and no restart with a flag for it. -/
def Leaves (s : Setting) : Op → Prop
  | .update setting _ _ => setting ≠ number s
  | .restart _ args => given args s = none
  | _ => True

/-- Flags that ask for less than `2 ^ 63` bytes of memory. -/
def SmallFlags (args : Args) : Prop := ∀ s, IsMemory s → ∀ v, given args s = some v → v < 2 ^ 63

/-- Two servers have and use the same settings. -/
structure SameSettings (n n' : Node) : Prop where
  configuration : n'.configuration = n.configuration
  file : n'.file = n.file
  uses : ∀ s value, Uses n'.components s value ↔ Uses n.components s value

/-- A server that was started on a data folder and has taken any steps. -/
def Reached (n : Node) (ops : List Op) : Prop :=
  ∃ remote tables file args n₀, Node.start remote tables file args = some n₀ ∧ n₀.run ops = some n

end ModelarDB.Spec.Settings
