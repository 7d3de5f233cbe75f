import Verif.Lemmas.Saving
import Verif.Spec.StorageExample
import Mathlib.Data.List.Perm.Basic
/-
C54: A failed save loses nothing and is reported.
-/
namespace ModelarDB.Props
open Model.Storage Model.Saving Lemmas.Saving

variable {α : Type}

/-- C54 if saves may fail after the segments are written, e.g. because the remote store cannot be reached, but not before: after every history
the segments received are, as a multiset, those in the tables and those still in memory. What is missing: `C54_flush_loses` shows that
segments whose write fails are in neither. -/
theorem C54_nothing_lost_partial [DecidableEq α] {memory : Nat} {next : List SaveResult} (hnext : .writeFails ∉ next)
    {ops : List (Model.Saving.Op α)} {w : Writer α} (hrun : (Writer.new memory next).run ops = some w) :
    (w.m.c.saved ++ buffered w.m.c).Perm w.received := by
  have h := sinv_run (sinv_new memory next) hrun
  have hl : w.m.lost = [] := by
    by_contra hne
    exact hnext (h.lost hne)
  rw [List.perm_iff_count]
  intro a
  have := h.count (· == a)
  rw [hl] at this
  simp only [List.count, List.countP_append, List.countP_nil] at this ⊢
  omega

/-- C54 whatever fails: every segment received is in a table, in memory or lost because its write failed, exactly once, and an id is
recorded for a table exactly if a segment with the id is in it. So the write-ahead log replays the batches of which all segments are lost
when the server is started again. -/
theorem C54_lost_can_be_replayed {memory : Nat} {next : List SaveResult} {ops : List (Model.Saving.Op α)} {w : Writer α}
    (hrun : (Writer.new memory next).run ops = some w) :
    (∀ p : Chunk α → Bool, w.m.c.saved.countP p + (buffered w.m.c).countP p + w.m.lost.countP p = w.received.countP p) ∧
      (∀ t id, (t, id) ∈ w.m.c.commits ↔ ∃ x ∈ w.m.c.saved, x.table = t ∧ id ∈ x.batchIds) ∧
      (∀ x ∈ w.m.lost, ∀ id ∈ x.batchIds, (∀ y ∈ w.m.c.saved, y.table = x.table → id ∉ y.batchIds) → (x.table, id) ∉ w.m.c.commits) := by
  have h := sinv_run (sinv_new memory next) hrun
  refine ⟨h.count, h.commits, fun x _ id _ hy hc => ?_⟩
  obtain ⟨y, hys, hyt, hyi⟩ := (h.commits _ _).mp hc
  exact hy y hys hyt hyi

/-- If every save succeeds, the functions are those of the storage engine in the other properties. -/
theorem C54_same_without_failures (c : Compressed α) (x : Chunk α) (change : Int) :
    insertSegments ⟨c, [], []⟩ x = ofOption [] (insertCompressedSegments c x) ∧
      flush c.queue ⟨c, [], []⟩ = ofOption [] (flushCompressed c.queue c) ∧
      freeMemory 0 c.queue ⟨{ c with remaining := c.remaining + change }, [], []⟩ = ofOption [] (adjustCompressed c change) :=
  ⟨insert_ok c [] x, flush_ok _ c [], freeMemory_ok _ _ _ []⟩

/-- Segments of two tables. -/
def chunkA : Chunk Nat := ⟨"a", ["x"], [(0, 1), (1, 2)], [4], [0]⟩

def chunkB : Chunk Nat := ⟨"b", ["x"], [(0, 3)], [5], [0]⟩

example : (Writer.new 8 [.laterFails]).run [.data chunkA, .data chunkB] =
    some ⟨⟨⟨[("b", ⟨[chunkB], 5, [0]⟩)], ["b"], 4, [chunkA], [("a", 0)]⟩, [], []⟩, false, [], [chunkA, chunkB]⟩ := by decide +kernel

/-- C54 is false: if a write fails during a flush, its segments are no longer in memory, the other tables are not flushed, and the flush is
answered with success. -/
theorem C54_flush_loses : (Writer.new 20 [.writeFails]).run [.data chunkA, .data chunkB, .flush] =
    some ⟨⟨⟨[("b", ⟨[chunkB], 5, [0]⟩)], ["b"], 11, [], []⟩, [], [chunkA]⟩, true, [true], [chunkA, chunkB]⟩ := by decide +kernel

/-- C54 is false: if the remote store cannot be reached when segments are saved to free memory, the thread that saves segments ends, the
memory of the saved segments is never returned, and nothing is saved until the server is started again. -/
theorem C54_remote_failure_stops_saving : ∃ w : Writer Nat,
    (Writer.new 8 [.laterFails]).run [.data chunkA, .data chunkB] = some w ∧ w.m.c.saved = [chunkA] ∧ w.alive = false ∧
    w.m.c.remaining = 4 ∧ ∀ x, w.step (.data x) = none ∧ w.step .flush = none :=
  ⟨⟨⟨⟨[("b", ⟨[chunkB], 5, [0]⟩)], ["b"], 4, [chunkA], [("a", 0)]⟩, [], []⟩, false, [], [chunkA, chunkB]⟩, by decide +kernel, rfl, rfl, rfl,
    fun _ => ⟨rfl, rfl⟩⟩

/-- C54 is false for settings too: a change of the compressed memory that fails is not undone, although the setting keeps its
value. -/
theorem C54_failed_setting_kept : ∃ w : Writer Nat, (Writer.new 10 [.writeFails]).run [.data chunkA, .adjust (-8)] = some w ∧
    w.m.c.buffers = [] ∧ w.m.c.remaining = -2 :=
  ⟨((Writer.new 10 [.writeFails]).run [.data chunkA, .adjust (-8)]).get (by decide +kernel), (Option.some_get _).symm, by decide +kernel⟩

end ModelarDB.Props
