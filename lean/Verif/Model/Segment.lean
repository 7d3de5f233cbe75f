import Verif.Model.Timestamps
/-
Model of the parts of `/repo/crates/modelardb_compression/src/models/mod.rs` that only depend on
timestamps.
-/
namespace ModelarDB.Model

/-- `len` (models/mod.rs:98-124). `none` is a panic (more than eight bytes for a regular segment, or
a panic while decompressing). -/
def segmentLen (startTime endTime : Int) (timestamps : List Nat) : Option Nat :=
  if timestamps.isEmpty && startTime == endTime then some 1
  else if timestamps.isEmpty then some 2
  else if areCompressedTimestampsRegular timestamps then
    if timestamps.length > 8 then none
    else some (fromBeBytes (List.replicate (8 - timestamps.length) 0 ++ timestamps))
  else (decompressAllTimestamps startTime endTime timestamps).map List.length

end ModelarDB.Model
