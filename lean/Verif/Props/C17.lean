import Verif.Lemmas.WriteAheadLogHistory
/-
C17: Batch ids are never reused.
-/
namespace ModelarDB.Props
open Model.Wal Spec.Wal Lemmas.Wal

variable {β : Type}

/-- C17. Ids are given out in increasing order, also across restarts, crashes and truncations, if segments are
saved in the order they were written and no crash leaves an empty folder behind. Missing: the histories of
`C17_reused_after_out_of_order_save`, `C17_reused_after_crash_in_truncate` and `C17_reused_after_crash_in_restart`,
for which it fails. -/
theorem C17_ids_never_reused_partial {cfg : Config} (htorn : cfg.tornCreate = false) (hsync : cfg.failedSync = false)
    (horder : cfg.outOfOrder = false) (hempty : cfg.emptied = false) {w : World β} (h : Reachable cfg w) :
    w.history.Pairwise fun a b => a.id < b.id := by
  obtain ⟨segs, act, hi⟩ := inv_reachable htorn hsync h
  exact (hi.extra ⟨horder, hempty⟩).sorted

/-- C17, consequence: the record of persisted ids never hides a batch that was not saved. A batch is in `saved` only
if a commit saved it. -/
theorem C17_unsaved_replayed_partial {cfg : Config} (htorn : cfg.tornCreate = false) (hsync : cfg.failedSync = false)
    (horder : cfg.outOfOrder = false) (hempty : cfg.emptied = false) {w : World β} (h : Reachable cfg w) (e : Entry β)
    (he : e ∈ w.live) (hs : e ∉ w.saved) (threshold : Nat) : ∃ batches, replay threshold w = some batches ∧ e.pair ∈ batches := by
  obtain ⟨segs, act, hi⟩ := inv_reachable htorn hsync h
  have hid : e.id ∉ w.commits := by
    rw [hi.commits]
    intro hc
    obtain ⟨e', he', heq⟩ := List.mem_map.mp hc
    by_cases hee : e' = e
    · rw [hee] at he'; exact hs he'
    · have hp : w.history.Pairwise fun a b => a.id ≠ b.id := (hi.extra ⟨horder, hempty⟩).sorted.imp fun h => Nat.ne_of_lt h
      have : Std.Symm fun a b : Entry β => a.id ≠ b.id := ⟨fun _ _ h => h.symm⟩
      exact List.Pairwise.forall (R := fun a b : Entry β => a.id ≠ b.id) hp (hi.saved e' he') (hi.sublist.subset he) hee heq
  refine ⟨_, replay_spec threshold hi.view, ?_⟩
  have : e.pair ∈ unsaved w.commits (w.live.map Entry.pair) :=
    List.mem_filter.mpr ⟨List.mem_map_of_mem he, decide_eq_true hid⟩
  rw [hi.same] at this
  exact this

/-- C17 fails without any crash inside an operation: if a newer segment is saved and deleted while an older one is not
yet saved, the id after a restart is taken from the older one (write_ahead_log.rs:338-342). The id 1 is used
again; it is already in the commit history, so the acknowledged batch "c" that was never saved is not replayed
and would be deleted unread. -/
theorem C17_reused_after_out_of_order_save : ∃ w : World String, Reachable ⟨false, false, true, false, false⟩ w ∧
    w.history = [⟨0, "a", true⟩, ⟨1, "b", true⟩, ⟨1, "c", true⟩] ∧ w.live = w.history ∧ w.saved = [⟨1, "b", true⟩] ∧
    replay 1 w = some [(0, "a")] := by
  refine ⟨(execAll World.initial [.restart 1, .append "a" 1, .append "b" 1, .commitMark 1, .crash, .restart 1, .append "c" 1]).get
    (by decide +kernel), execAll_reachable (Option.some_get _).symm (by decide +kernel), ?_⟩
  decide +kernel

/-- C17 fails if there is a crash while a log without closed segments is opened, after the leftover file without
batches was removed and before the new one was created (write_ahead_log.rs:655-658 and 345). -/
theorem C17_reused_after_crash_in_restart : ∃ w : World String, Reachable ⟨false, false, false, true, false⟩ w ∧
    w.history = [⟨0, "a", true⟩, ⟨0, "b", true⟩] ∧ w.saved = [⟨0, "a", true⟩] ∧ replay 1 w = some [] := by
  refine ⟨(execAll World.initial [.restart 1, .append "a" 1, .commitMark 0, .crash, .restartCrash 1 0, .restart 1, .append "b" 1]).get
    (by decide +kernel), execAll_reachable (Option.some_get _).symm (by decide +kernel), ?_⟩
  decide +kernel

/-- A table with one saved batch. -/
def savedOne : World String := (execAll World.initial [.restart 1, .append "a" 1, .commitMark 0]).get (by decide +kernel)

/-- The same table after a crash in truncate. -/
def emptiedFolder : World String := { savedOne with disk := [], log := none, live := [] }

/-- The same table with a further batch. -/
def reused : World String := (execAll emptiedFolder [.restart 1, .append "b" 1]).get (by decide +kernel)

/-- C17 fails if there is a crash inside truncate after the active file was removed and before the new one was
created (write_ahead_log.rs:600-615). -/
theorem C17_reused_after_crash_in_truncate : Reachable ⟨false, false, false, true, false⟩ reused ∧
    reused.history = [⟨0, "a", true⟩, ⟨0, "b", true⟩] ∧ reused.saved = [⟨0, "a", true⟩] ∧ replay 1 reused = some [] := by
  refine ⟨?_, by decide +kernel⟩
  have h1 : Reachable ⟨false, false, false, true, false⟩ savedOne :=
    execAll_reachable (Option.some_get _).symm (by decide +kernel)
  have h2 : Step ⟨false, false, false, true, false⟩ .truncateCrash savedOne emptiedFolder :=
    truncateCrash_empty (log := savedOne.log.get (by decide +kernel)) rfl (by decide +kernel) rfl
  exact Steps.reachable (Steps.reachable h1 ((Steps.refl _).tail h2))
    (execAll_steps (cs := [.restart 1, .append "b" 1]) (Option.some_get _).symm (by decide +kernel))

/-- The hypotheses are met by a history with rotations, saves, a crash, a truncation and restarts. -/
example : ∃ w : World String, Reachable ⟨false, false, false, false, false⟩ w ∧
    w.history.map Entry.pair = [(0, "a"), (1, "b"), (2, "c"), (3, "d"), (4, "e")] ∧ w.commits = [1, 0] ∧
    w.live.map Entry.pair = [(3, "d"), (4, "e")] := by
  refine ⟨(execAll World.initial [.restart 10, .append "a" 4, .append "b" 8, .append "c" 1, .commitMark 1, .commitMark 0, .crash,
    .restart 5, .truncate, .append "d" 9, .crash, .restart 7, .append "e" 1]).get (by decide +kernel),
    execAll_reachable (Option.some_get _).symm (by decide +kernel), ?_⟩
  decide +kernel

end ModelarDB.Props
