import Verif.Lemmas.WriteAheadLogHistory
/-
C15: An acknowledged write is recoverable until it is saved.
-/
namespace ModelarDB.Props
open Model.Wal Spec.Wal Lemmas.Wal

variable {β : Type}

/-- C15. After a write has been acknowledged, whatever happens to the log (other than a truncation of the table),
after a crash and a restart the batch is returned for replay under the id it was acknowledged with, unless
that id is in the commit history. Missing: the two misfortunes for which this fails (`C15_torn_file_not_recoverable`
and `C15_failed_append_hides_next`). -/
theorem C15_acknowledged_recoverable_partial {cfg : Config} (htorn : cfg.tornCreate = false) (hsync : cfg.failedSync = false)
    {w₀ w₁ w : World β} {ops : List Op} (h : Reachable cfg w₀) (happend : Step cfg .append w₀ w₁) (hsteps : Steps cfg ops w₁ w)
    (ht : .truncate ∉ ops ∧ .truncateCrash ∉ ops) :
    ∃ e : Entry β, e.acked = true ∧ w₁.history = w₀.history ++ [e] ∧
      (e.id ∉ w.commits → ∀ threshold, ∃ batches, replay threshold w = some batches ∧ e.pair ∈ batches) := by
  cases happend with
  | @append _ log log' d' id batch size hlog hres =>
    refine ⟨⟨id, batch, true⟩, rfl, rfl, fun hc threshold => ?_⟩
    obtain ⟨segs, act, hi⟩ :=
      inv_steps htorn hsync (inv_step htorn hsync (inv_reachable htorn hsync h) (.append batch size hlog hres)) hsteps
    refine ⟨_, replay_spec threshold hi.view, ?_⟩
    obtain ⟨new, _, _, hl⟩ := steps_history hsteps
    have hmem : (⟨id, batch, true⟩ : Entry β) ∈ w.live := by
      rw [hl ht.1 ht.2]
      simp
    have : (id, batch) ∈ unsaved w.commits (w.live.map Entry.pair) :=
      List.mem_filter.mpr ⟨List.mem_map.mpr ⟨_, hmem, rfl⟩, by simpa using hc⟩
    rw [hi.same] at this
    exact this

/-- C15 fails if there is a crash between the creation of a file and the writing of its schema, here
while the log is opened (write_ahead_log.rs:274-283): from then on the log cannot be opened, so the server does
not start and an acknowledged batch is not replayed. -/
theorem C15_torn_file_not_recoverable : ∃ w : World String, Reachable ⟨true, false, false, false, false⟩ w ∧
    (∃ e ∈ w.live, e.acked = true ∧ e.id ∉ w.commits) ∧ ∀ threshold, replay threshold w = none := by
  have hsome : (execAll World.initial [.restart 10, .append "a" 1, .crash, .restartCrash 10 1] : Option (World String)).isSome := by
    decide +kernel
  have hw : (execAll World.initial [.restart 10, .append "a" 1, .crash, .restartCrash 10 1] : Option (World String)).get hsome =
      ⟨[⟨.closed 0 0, true, ["a"]⟩, ⟨.active 1, false, []⟩], none, [], [], [⟨0, "a", true⟩], [⟨0, "a", true⟩]⟩ := rfl
  refine ⟨_, execAll_reachable (Option.some_get hsome).symm (by decide +kernel), ?_, ?_⟩
  · rw [hw]
    exact ⟨⟨0, "a", true⟩, by simp, rfl, by simp⟩
  · intro threshold
    rw [hw]
    rfl

/-- C15 fails after an append that fails once the batch is written (write_ahead_log.rs:378-386, for instance
because the file cannot be synced): the id is not consumed although the file holds the batch, so the next,
acknowledged batch is not replayed. -/
theorem C15_failed_append_hides_next : ∃ w : World String, Reachable ⟨false, true, false, false, false⟩ w ∧
    (⟨0, "b", true⟩ : Entry String) ∈ w.live ∧ w.commits = [] ∧ replay 10 w = some [(0, "a")] := by
  refine ⟨(execAll World.initial [.restart 10, .appendFails "a", .append "b" 10]).get (by decide +kernel),
    execAll_reachable (Option.some_get _).symm (by decide +kernel), ?_⟩
  decide +kernel

/-- Concrete histories for the example. -/
def before : World String :=
  (execAll World.initial [.restart 10, .append "a" 4, .append "b" 8]).get (by decide +kernel)
def written : World String := (exec before (.append "c" 1)).get (by decide +kernel)
def later : World String :=
  (execAll written [.commitMark 1, .append "d" 2, .commitMark 0, .crash, .restart 5]).get (by decide +kernel)

/-- The hypotheses are met by a batch written after a rotation, followed by saves of other batches, a crash and a
restart. -/
example : ∃ ops, Reachable ⟨false, false, true, true, true⟩ before ∧
    Step ⟨false, false, true, true, true⟩ .append before written ∧ Steps ⟨false, false, true, true, true⟩ ops written later ∧
    (Op.truncate ∉ ops ∧ Op.truncateCrash ∉ ops) ∧ later.commits = [1, 0] ∧
    later.history.map Entry.pair = [(0, "a"), (1, "b"), (2, "c"), (3, "d")] ∧ later.log = some ⟨4, 4, 0, [(2, 3)], [1, 0], 5⟩ := by
  refine ⟨_, execAll_reachable (Option.some_get _).symm (by decide +kernel), .append "c" 1 rfl rfl,
    execAll_steps (Option.some_get _).symm (by decide +kernel), ?_⟩
  decide +kernel

end ModelarDB.Props
