import Verif.Lemmas.Snapshots
/-
C95: A query returns the rows that its tables have at one moment, whatever happens to the tables while it is executed.
-/
namespace ModelarDB.Props
open Model.Snapshots Spec.Snapshots Lemmas.Snapshots

variable {ρ : Type}

/-- A query that succeeds has a result for each time it mentions the table, and each of them is the rows of the table at one moment after the query was sent, whatever
rows are saved, transferred, deleted and vacuumed while it is executed and if the table is dropped. -/
theorem C95_one_version {content : Nat → List ρ} {steps : List Step} {a b : State ρ} {q : Nat} {results : List (List ρ)}
    (hrun : a.run content steps = some b) (hidle : a.query q = .idle) (hdone : b.query q = .done results) :
    ∃ n, Step.ask q n ∈ steps ∧ results.length = n ∧
      ∀ r ∈ results, ∃ before after mid, steps = before ++ after ∧ (∃ m, Step.ask q m ∈ before) ∧ a.run content before = some mid ∧ r = mid.rows content := by
  rcases traced hidle steps hrun with h | ⟨n, hn, ht⟩
  · rw [h] at hdone; cases hdone
  rw [hdone] at ht
  refine ⟨n, hn, ht.1, fun r hr => ?_⟩
  obtain ⟨plan, ⟨x, y, mid, e, hq, hm, hp⟩, er⟩ := ht.2 r hr
  exact ⟨x, y, mid, e, hq, hm, by rw [er, hp]; rfl⟩

/-- Rows that are in the table from when the query is sent until it is answered are in each of its results. -/
theorem C95_rows_returned {content : Nat → List ρ} {steps : List Step} {a b : State ρ} {q : Nat} {results : List (List ρ)} {row : ρ}
    (hrun : a.run content steps = some b) (hidle : a.query q = .idle) (hdone : b.query q = .done results)
    (hrow : ∀ before after mid, steps = before ++ after → (∃ m, Step.ask q m ∈ before) → a.run content before = some mid → row ∈ mid.rows content) :
    ∀ r ∈ results, row ∈ r := by
  obtain ⟨n, _, _, h⟩ := C95_one_version hrun hidle hdone
  intro r hr
  obtain ⟨x, y, mid, e, hq, hm, er⟩ := h r hr
  rw [er]
  exact hrow x y mid e hq hm

/-- A query does not fail if the table is not dropped and retention periods are at least as long as the query and twice the difference between clocks and the time. -/
theorem C95_not_failed_partial {content : Nat → List ρ} {pre post : List Step} {a b : State ρ} {q n duration skew : Nat}
    (hpre : State.new.run content pre = some a) (hrun : a.run content (.ask q n :: post) = some b) (hdrop : b.dropped = false)
    (hlong : b.now ≤ a.now + duration) (hclocks : ClocksWithin content skew a (.ask q n :: post)) (hretain : RetainAtLeast (duration + 2 * skew) post) :
    b.query q ≠ .failed := by
  have ha := dropped_run hrun hdrop
  have ka := Kept.new.run hpre ha
  have hidle : a.query q = .idle := by
    obtain ⟨mid, hm, _⟩ := run_cons hrun
    simp only [State.step] at hm
    split at hm
    · rename_i hx; cases hq : a.query q <;> simp [hq] at hx; rfl
    · cases hm
  refine (safe_run (q := q) (start := a.now) (skew := skew) (D := duration) ka (by rw [hidle]; nofun) (by rw [hidle]; intro f hf; cases hf) (Nat.le_refl _)
    _ hrun hdrop hlong hclocks ?_).1
  intro c r hv
  rcases List.mem_cons.mp hv with e | hv
  · cases e
  · exact hretain c r hv

/-- As long as a table is not dropped all of its files and the files that are being written exist, and VACUUM and checkpoints do not change its rows. -/
theorem C95_vacuum_keeps_rows {content : Nat → List ρ} {steps : List Step} {st : State ρ} (hrun : State.new.run content steps = some st) (hdrop : st.dropped = false) :
    (∀ f ∈ st.active, f ∈ st.store) ∧ (∀ f ∈ st.pending, f ∈ st.store) ∧
      ∀ s st', (∃ c r, s = .vacuum c r) ∨ (∃ f, s = .delete f) ∨ (∃ c, s = .checkpoint c) → st.step content s = some st' →
        st'.rows content = st.rows content ∧ ∀ f ∈ st'.active, f ∈ st'.store := by
  have k := Kept.new.run hrun hdrop
  refine ⟨k.active, k.pending, fun s st' hs h => ?_⟩
  rcases hs with ⟨c, r, rfl⟩ | ⟨f, rfl⟩ | ⟨c, rfl⟩
  · have k' := k.step h (by simp only [State.step] at h; split at h <;> cases h; exact hdrop)
    refine ⟨?_, k'.active⟩
    simp only [State.step] at h; split at h <;> cases h; rfl
  · have k' := k.step h (by simp only [State.step] at h; split at h <;> cases h; exact hdrop)
    refine ⟨?_, k'.active⟩
    simp only [State.step] at h; split at h <;> cases h; rfl
  · have k' := k.step h (by simp only [State.step] at h; split at h <;> cases h; exact hdrop)
    refine ⟨?_, k'.active⟩
    simp only [State.step] at h; split at h <;> cases h; rfl

/-- Files that are removed from the table are deleted by a later VACUUM if its retention period has passed, unless a checkpoint is added more than a week after they are
removed. -/
theorem C95_freed_partial {content : Nat → List ρ} {pre between post : List Step} {files : List Nat} {removed clock : Int} {retention : Nat} {st : State ρ} {f : Nat}
    (hrun : State.new.run content (pre ++ .remove removed files :: between ++ .vacuum clock retention :: post) = some st) (hdrop : st.dropped = false)
    (hf : f ∈ files) (hold : removed < clock - retention) (hcheck : ∀ c, Step.checkpoint c ∈ between → c - week ≤ removed) (hend : st.doomed = []) : f ∉ st.store := by
  obtain ⟨v, hv, hpost⟩ := run_split hrun
  obtain ⟨w, hw, hpost⟩ := run_cons hpost
  obtain ⟨u, hu, hb⟩ := run_split hv
  obtain ⟨u', hu', hb⟩ := run_cons hb
  have dw := dropped_run hpost hdrop
  have dv := dropped_step hw dw
  have du' := dropped_run hb dv
  have ku' := ((Kept.new.run hu (dropped_step hu' du')).step hu' du')
  have ht : (f, removed) ∈ u'.tombs := by
    simp only [State.step] at hu'
    split at hu' <;> cases hu'
    exact List.mem_append_right _ (List.mem_map.mpr ⟨f, hf, rfl⟩)
  have htv := tomb_run ht hb dv hcheck
  have kv := ku'.run hb dv
  have hn : f < v.next := kv.old _ htv
  have hdoomed : f ∈ w.doomed ∨ f ∉ w.store := by
    simp only [State.step] at hw
    split at hw <;> cases hw
    by_cases hs : f ∈ v.store
    · exact .inl (List.mem_append_right _ (stale_of kv hs htv hold))
    · exact .inr hs
  have hnw : f < w.next := by
    simp only [State.step] at hw
    split at hw <;> cases hw
    exact hn
  rcases doomed_run hnw hdoomed hpost with h | h
  · rw [hend] at h; cases h
  · exact h

/-! ### Examples -/

/-- Files 0 and 1 are saved, a query begins, file 2 is saved, all files are removed and the files that were removed more than ten seconds ago are vacuumed. -/
private def busy : List Step := [.write, .write, .commit [0, 1], .tick 1000]
private def query : List Step :=
  [.scan 7, .write, .commit [2], .execute 7, .read 7, .remove 1000 [0, 1, 2], .tick 9000, .vacuum 10000 10000, .read 7, .read 7]

example : ((State.new.run (fun f => [f]) (busy ++ .ask 7 1 :: query)).map fun st => (st.query 7, st.active, st.store, st.now)) =
    some (.done [[0, 1]], [], [0, 1, 2], 10000) := by decide +kernel

/-- It meets the hypotheses of `C95_not_failed_partial`. -/
example : ∃ a b, State.new.run (fun f => [f]) busy = some a ∧ a.run (fun f => [f]) (.ask 7 1 :: query) = some b ∧ b.dropped = false ∧ b.now ≤ a.now + 9000 ∧
    ClocksWithin (fun f => [f]) 0 a (.ask 7 1 :: query) ∧ RetainAtLeast (9000 + 2 * 0) query := by
  refine ⟨_, _, rfl, rfl, rfl, by decide +kernel, clocksWithin_of_ok (by decide +kernel), fun c r h => ?_⟩
  simp [query] at h
  omega

/-- Files that are removed are deleted. -/
example : ((State.new.run (fun f => [f]) (busy ++ .remove 1000 [0] :: [.write, .tick 1] ++ .vacuum 1001 0 :: [.delete 0])).map fun st =>
    (st.store, st.active, st.doomed)) = some ([1, 2], [1], []) := by decide +kernel

/-! ### Limits -/

/-- A query fails if the files it reads are removed and vacuumed without a retention period while it is executed. -/
theorem C95_fails_without_retention :
    ((State.new.run (fun f => [f]) (busy ++ [.ask 7 1, .scan 7, .execute 7, .read 7, .remove 1000 [0, 1], .tick 1, .vacuum 1001 0, .delete 0, .delete 1, .read 7])).map
      fun st => st.query 7) = some (.failed : Query Nat) := by decide +kernel

/-- A query fails although it takes one millisecond and the retention period is ten seconds, if the clock of the node that executes VACUUM is ten seconds ahead. -/
theorem C95_fails_with_wrong_clock :
    ((State.new.run (fun f => [f]) (busy ++ [.ask 7 1, .scan 7, .execute 7, .remove 1000 [0, 1], .tick 1, .vacuum 11001 10000, .delete 0, .read 7])).map
      fun st => (st.query 7, st.now)) = some ((.failed : Query Nat), 1001) := by decide +kernel

/-- A query that mentions a table twice reads two versions of it: a row is in one of the results but not in the other. -/
theorem C95_two_versions :
    ((State.new.run (fun f => [f]) (busy ++ [.ask 7 2, .scan 7, .remove 1000 [0], .scan 7, .execute 7, .read 7, .read 7, .read 7, .read 7, .read 7])).map
      fun st => st.query 7) = some (.done [[0, 1], [1]]) := by decide +kernel

/-- A file of a writer that ends before it is committed is never deleted, whatever is done except that the table is dropped. -/
theorem C95_never_freed {content : Nat → List ρ} {pre post : List Step} {a b : State ρ} {f : Nat}
    (hpre : State.new.run content pre = some a) (hf : f ∈ a.pending) (hrun : a.run content (.abandon f :: post) = some b) (hdrop : b.dropped = false) : f ∈ b.store := by
  obtain ⟨mid, hm, hpost⟩ := run_cons hrun
  have da := dropped_run hrun hdrop
  have k := Kept.new.run hpre da
  have dm := dropped_run hpost hdrop
  have lost : Lost mid f := by
    rw [State.step, if_pos hf] at hm
    cases hm
    exact ⟨k.pending f hf, fun h => k.apart f h hf, fun h => by simpa using (List.mem_filter.mp h).2, fun t ht => (k.tombs _ ht).2 hf,
      fun h => (k.doomed f h).2 hf, k.known f (k.pending f hf)⟩
  exact (lost.run hpost hdrop).1

example : ((State.new.run (fun f => [f]) [.write, .abandon 0, .tick 1000000, .vacuum 1000000 0]).map fun st => (st.store, st.doomed)) =
    some ([0], []) := by decide +kernel

/-- A file that was removed more than a week before a checkpoint is not deleted. -/
theorem C95_forgotten :
    ((State.new.run (fun f => [f]) (busy ++ [.remove 1000 [0], .tick 604800001, .checkpoint 604801001, .vacuum 604801001 0])).map
      fun st => (st.store, st.active, st.doomed)) = some ([0, 1], [1], []) := by decide +kernel

end ModelarDB.Props
