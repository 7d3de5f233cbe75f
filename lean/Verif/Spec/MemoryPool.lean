import Verif.Model.MemoryPool
/-
The memory that threads hold, for C25.
-/
namespace ModelarDB.Spec.MemoryPool
open Model.MemoryPool

/-- The memory that was handed out. -/
def handedOut (p : Pool) : Nat := ((p.requests.filter fun r => r.phase = .holding).map Request.size).sum

end ModelarDB.Spec.MemoryPool
