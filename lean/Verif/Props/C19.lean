import Verif.Props.C17
/-
C19: Truncating a table forgets its log but never an id.
-/
namespace ModelarDB.Props
open Model.Wal Spec.Wal Lemmas.Wal

variable {β : Type}

/-- C19. After truncate has returned and after any further history, the batches that are replayed after a restart
are batches written after the truncation: exactly those that are not recorded as persisted, if there is no other
truncation. -/
theorem C19_truncate_forgets {cfg : Config} (htorn : cfg.tornCreate = false) (hsync : cfg.failedSync = false)
    {w₀ w₁ w : World β} {ops : List Op} (h : Reachable cfg w₀) (htruncate : Step cfg .truncate w₀ w₁) (hsteps : Steps cfg ops w₁ w)
    (threshold : Nat) :
    ∃ new, w.history = w₀.history ++ new ∧
      (∃ batches, replay threshold w = some batches ∧ batches.Sublist (new.map Entry.pair)) ∧
      (.truncate ∉ ops → .truncateCrash ∉ ops →
        replay threshold w = some ((new.filter fun e => e.id ∉ w.commits).map Entry.pair)) := by
  obtain ⟨new, h1, h2, h3⟩ := steps_history hsteps
  obtain ⟨segs, act, hi⟩ := inv_steps htorn hsync (inv_step htorn hsync (inv_reachable htorn hsync h) htruncate) hsteps
  have hrep : replay threshold w = some ((w.live.filter fun e => e.id ∉ w.commits).map Entry.pair) := by
    rw [replay_spec threshold hi.view]
    have := hi.same
    rw [unsaved, List.filter_map] at this
    exact congrArg some this.symm
  cases htruncate with
  | @truncate _ log log' d' hlog hres =>
    simp only [List.nil_append] at h1 h2 h3
    refine ⟨new, h1, ⟨_, hrep, (List.filter_sublist.trans h2).map _⟩, fun ht1 ht2 => ?_⟩
    rw [hrep, h3 ht1 ht2]

/-- C19, ids: under the conditions of C17, the ids given out after the truncation are greater than all ids given
out before. -/
theorem C19_truncate_ids_increase_partial {cfg : Config} (htorn : cfg.tornCreate = false) (hsync : cfg.failedSync = false)
    (horder : cfg.outOfOrder = false) (hempty : cfg.emptied = false) {w₀ w₁ w : World β} {ops : List Op} (h : Reachable cfg w₀)
    (htruncate : Step cfg .truncate w₀ w₁) (hsteps : Steps cfg ops w₁ w) :
    ∃ new, w.history = w₀.history ++ new ∧ ∀ e ∈ new, ∀ e₀ ∈ w₀.history, e₀.id < e.id := by
  obtain ⟨new, h1, _, _⟩ := steps_history (Steps.trans ((Steps.refl w₀).tail htruncate) hsteps)
  have hr : Reachable cfg w := Steps.reachable h (Steps.trans ((Steps.refl w₀).tail htruncate) hsteps)
  have hp := C17_ids_never_reused_partial htorn hsync horder hempty hr
  rw [h1, List.pairwise_append] at hp
  exact ⟨new, h1, fun e he e₀ he₀ => hp.2.2 e₀ he₀ e he⟩

/-- C19, crashes inside truncate: batches that are still in the folder are replayed, the others are not, and nothing
else is. -/
theorem C19_crash_in_truncate {cfg : Config} (htorn : cfg.tornCreate = false) (hsync : cfg.failedSync = false) {w w' : World β}
    (h : Reachable cfg w) (hcrash : Step cfg .truncateCrash w w') (threshold : Nat) :
    ∃ batches, replay threshold w' = some batches ∧
      ∀ p, p ∈ batches ↔ Stored w'.disk p ∧ ∃ e ∈ w.live, e.pair = p ∧ e.id ∉ w.commits := by
  obtain ⟨segs, act, hi⟩ := inv_step htorn hsync (inv_reachable htorn hsync h) hcrash
  refine ⟨_, replay_spec threshold hi.view, fun p => ?_⟩
  have hsame := hi.same
  unfold unsaved at hsame
  rw [← hsame]
  cases hcrash with
  | @truncateCrash _ log d' hlog hres hcfg =>
    simp only [List.mem_filter, List.mem_map, decide_eq_true_eq]
    constructor
    · rintro ⟨⟨e, ⟨he, hst⟩, rfl⟩, hc⟩
      exact ⟨hst, e, he, rfl, hc⟩
    · rintro ⟨hst, e, he, rfl, hc⟩
      exact ⟨⟨e, ⟨he, hst⟩, rfl⟩, hc⟩

/-- C19 fails if there is a crash inside truncate after the active file was removed and before the new one was
created: the id 0 is given out a second time, and the new batch is not replayed although it was never saved. -/
theorem C19_crash_in_truncate_reuses_id : ∃ w w' w'' : World String, ∃ ops, Reachable ⟨false, false, false, true, false⟩ w ∧
    Step ⟨false, false, false, true, false⟩ .truncateCrash w w' ∧ Steps ⟨false, false, false, true, false⟩ ops w' w'' ∧
    (∃ e ∈ w.history, e.id = 0) ∧ (⟨0, "b", true⟩ : Entry String) ∈ w''.live ∧ (⟨0, "b", true⟩ : Entry String) ∉ w''.saved ∧
    replay 1 w'' = some [] := by
  have h2 : Step ⟨false, false, false, true, false⟩ .truncateCrash savedOne emptiedFolder :=
    truncateCrash_empty (log := savedOne.log.get (by decide +kernel)) rfl (by decide +kernel) rfl
  exact ⟨savedOne, emptiedFolder, reused, _, execAll_reachable (Option.some_get _).symm (by decide +kernel), h2,
    execAll_steps (cs := [.restart 1, .append "b" 1]) (Option.some_get _).symm (by decide +kernel),
    ⟨⟨0, "a", true⟩, by decide +kernel, rfl⟩, by decide +kernel, by decide +kernel, by decide +kernel⟩

/-- Concrete histories for the example. -/
def beforeTruncate : World String :=
  (execAll World.initial [.restart 10, .append "a" 4, .append "b" 8, .append "c" 1]).get (by decide +kernel)
def truncated : World String := (exec beforeTruncate .truncate).get (by decide +kernel)
def afterTruncate : World String :=
  (execAll truncated [.append "d" 20, .crash, .restart 5, .append "e" 1, .commitMark 3]).get (by decide +kernel)

/-- The hypotheses are met and nothing from before is replayed. -/
example : ∃ ops, Reachable ⟨false, false, false, false, false⟩ beforeTruncate ∧
    Step ⟨false, false, false, false, false⟩ .truncate beforeTruncate truncated ∧
    Steps ⟨false, false, false, false, false⟩ ops truncated afterTruncate ∧
    replay 5 afterTruncate = some [(4, "e")] := by
  refine ⟨_, execAll_reachable (Option.some_get _).symm (by decide +kernel), .truncate rfl rfl,
    execAll_steps (cs := [.append "d" 20, .crash, .restart 5, .append "e" 1, .commitMark 3]) (Option.some_get _).symm (by decide +kernel), ?_⟩
  decide +kernel

end ModelarDB.Props
