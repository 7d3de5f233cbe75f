import Verif.Lemmas.WriteAheadLogHistory
/-
C18: Replay after a restart returns exactly the unsaved batches in order.
-/
namespace ModelarDB.Props
open Model.Wal Spec.Wal Lemmas.Wal

variable {β : Type}

/-- C18. Whatever has happened to the log (appends, rotations, saves in any order, persisted-notifications in any
order and grouping, truncations, crashes inside operations and restarts), after a restart exactly the batches that
were written and not truncated and whose ids are not in the commit history are returned for replay, each once,
with the ids they were given and in the order they were written. If there is no crash inside an append, all of
them were acknowledged (`crashInAppend`); with such a crash the batch that was being written may be replayed
as well. Two misfortunes are excluded: crashes between the creation of a file and the writing of its
schema, and appends that fail after the batch was written (`C18_failed_append_replayed`). -/
theorem C18_replay_exact_partial {cfg : Config} (htorn : cfg.tornCreate = false) (hsync : cfg.failedSync = false) {w : World β}
    (h : Reachable cfg w) (threshold : Nat) :
    replay threshold w = some ((w.live.filter fun e => e.id ∉ w.commits).map Entry.pair) ∧
      ((w.live.filter fun e => e.id ∉ w.commits).map Entry.id).Pairwise (· < ·) ∧
      (cfg.crashInAppend = false → ∀ e ∈ w.live, e.acked = true) := by
  obtain ⟨segs, act, hi⟩ := inv_reachable htorn hsync h
  have he : (w.live.filter fun e => e.id ∉ w.commits).map Entry.pair = unsaved w.commits (content segs act) := by
    rw [← hi.same, unsaved, List.filter_map]
    rfl
  refine ⟨?_, ?_, fun hc e hm => hi.acked hc e (hi.sublist.subset hm)⟩
  · rw [replay_spec threshold hi.view, he]
    rfl
  · have h1 : ((w.live.filter fun e => e.id ∉ w.commits).map Entry.id) =
        ((w.live.filter fun e => e.id ∉ w.commits).map Entry.pair).map Prod.fst := by
      rw [List.map_map]; rfl
    rw [h1, he, List.pairwise_map]
    exact hi.view.ids_pairwise.filter _

/-- C18 fails if an append fails after the batch was written (write_ahead_log.rs:378-386): its caller got an error, but
the batch is replayed. -/
theorem C18_failed_append_replayed : ∃ w : World String, Reachable ⟨false, true, false, false, false⟩ w ∧ w.history = [] ∧
    replay 10 w = some [(0, "a")] := by
  refine ⟨(execAll World.initial [.restart 10, .appendFails "a"]).get (by decide +kernel),
    execAll_reachable (Option.some_get _).symm (by decide +kernel), ?_⟩
  decide +kernel

/-- A history with rotations, saves out of order, a crash and a truncation. -/
def eventful : List (Cmd String) :=
  [.restart 10, .append "a" 4, .append "b" 8, .append "c" 3, .truncate, .append "d" 20, .append "e" 1, .commitMark 4, .crash,
    .restart 1, .append "f" 1, .append "g" 1, .commitMark 5, .append "h" 0]

example : ∃ w : World String, Reachable ⟨false, false, true, true, false⟩ w ∧
    w.live.map Entry.pair = [(3, "d"), (4, "e"), (5, "f"), (6, "g"), (7, "h")] ∧ w.commits = [4, 5] ∧
    replay 1 w = some [(3, "d"), (6, "g"), (7, "h")] := by
  refine ⟨(execAll World.initial eventful).get (by decide +kernel),
    execAll_reachable (Option.some_get _).symm (by decide +kernel), ?_⟩
  decide +kernel

end ModelarDB.Props
