import Verif.Spec.Storage
import Mathlib.Data.List.Sort
/-
A small storage engine for the examples of C20 to C25.
-/
namespace ModelarDB.Spec.Storage
open Model.Storage

/-- Buffers with two or more points, one field column, a hash without collisions and insertion sort. -/
def smallEnv (capacity : Nat) : Env Nat where
  capacity := capacity
  hasher := fun bytes => bytes.foldl (fun h b => h * 256 + b.toNat) 1
  numFields := fun _ => 1
  sort := List.insertionSort (fun a b => a.1 ≤ b.1)
  segmentSizes := fun _ points => [points.length]

theorem smallEnv_sorts (capacity : Nat) : Sorts (smallEnv capacity) := by
  intro l
  have : Std.Total (fun a b : Int × Nat => a.1 ≤ b.1) := ⟨fun a b => Int.le_total a.1 b.1⟩
  have : IsTrans (Int × Nat) (fun a b => a.1 ≤ b.1) := ⟨fun a b c h1 h2 => Int.le_trans h1 h2⟩
  exact ⟨List.perm_insertionSort _ l, List.pairwise_insertionSort _ l⟩

instance (env : Env Nat) (received : List (Row Nat)) : Decidable (Good env received) :=
  decidable_of_iff ((∀ r ∈ received, ∀ r' ∈ received, calculateTagHash env r.table r.tags = calculateTagHash env r'.table r'.tags →
    r.table = r'.table ∧ r.tags = r'.tags) ∧ (received.map key).Nodup) ⟨fun h => ⟨h.1, h.2⟩, fun h => ⟨h.hash, h.keys⟩⟩

end ModelarDB.Spec.Storage
