import Verif.Lemmas.StorageIds
import Verif.Lemmas.StorageMemory
import Verif.Props.C22
/-
C20: An acknowledged point is never lost in a crash.
C53: No point is recovered twice.

A crash loses all memory. What is left is what is in the tables, in the commits to the tables and in the write-ahead log. Spilled
buffers are deleted when the server starts, uncompressed_data_manager.rs:70-88.
-/
namespace ModelarDB.Props
open Model.Storage Spec.Storage Lemmas.Storage

variable {α : Type}

/-- C20. After every history, a row of a batch in the write-ahead log is in its table, or it is replayed, or another row of the
same batch is in the table. Missing: the last case, in which the row is lost (`C20_acknowledged_lost`). The conditions are those of
C22, and that no id is used twice for a table (C17). -/
theorem C20_lost_only_if_partly_saved_partial {env : Env α} (hs : Sorts env) (hcap : 2 ≤ env.capacity) {i u c : Nat} {ops : List (Op α)}
    (hio : ∀ op ∈ ops, Op.ioOk op) (ht : ∀ op ∈ ops, Op.tableOk op) {e : Engine α} (hrun : (Engine.new i u c).run env ops = some e)
    (hg : Good env e.received) (hids : (e.batches.map fun b => (b.1, b.2.1)).Nodup)
    {b : String × Nat × List (Row α)} (hb : b ∈ e.batches) {r : Row α} (hr : r ∈ b.2.2) :
    r ∈ savedRows e ∨ r ∈ replayedRows e ∨ ∃ r' ∈ b.2.2, r' ≠ r ∧ r' ∈ savedRows e := by
  obtain ⟨_, h⟩ := ids_run hs hcap ops hio ht (inv_new i u c) (ids_new i u c) hrun hg
  by_cases hs : r ∈ savedRows e
  · exact Or.inl hs
  refine Or.inr ?_
  by_cases hc : (b.1, b.2.1) ∈ e.c.commits
  · obtain ⟨x, hx, h1, h2⟩ := (h.c.commits _ _).mp hc
    obtain ⟨b', hb', h3, h4, r', h5, h6⟩ := (h.c.saved x hx).ids _ h2
    have hbb : b' = b := by
      refine List.inj_on_of_nodup_map hids hb' hb ?_
      rw [Prod.mk.injEq]
      exact ⟨h3.trans h1, h4⟩
    subst hbb
    have h7 : r' ∈ savedRows e := List.mem_flatMap.mpr ⟨x, hx, h5⟩
    exact Or.inr ⟨r', h6, fun he => hs (he ▸ h7), h7⟩
  · refine Or.inl (List.mem_flatMap.mpr ⟨b, ?_, hr⟩)
    simp only [replayedBatches, List.mem_filter, decide_eq_true_eq]
    exact ⟨hb, hc⟩

/-- A row of a batch without other rows is never lost. -/
theorem C20_single_row_never_lost_partial {env : Env α} (hs : Sorts env) (hcap : 2 ≤ env.capacity) {i u c : Nat} {ops : List (Op α)}
    (hio : ∀ op ∈ ops, Op.ioOk op) (ht : ∀ op ∈ ops, Op.tableOk op) {e : Engine α} (hrun : (Engine.new i u c).run env ops = some e)
    (hg : Good env e.received) (hids : (e.batches.map fun b => (b.1, b.2.1)).Nodup) {table : String} {id : Nat} {r : Row α}
    (hb : (table, id, [r]) ∈ e.batches) : r ∈ savedRows e ∨ r ∈ replayedRows e := by
  rcases C20_lost_only_if_partly_saved_partial hs hcap hio ht hrun hg hids hb (r := r) (by simp) with h | h | ⟨r', h1, h2, _⟩
  · exact Or.inl h
  · exact Or.inr h
  · exact absurd (by simpa using h1) h2

/-- C53. What is in the tables and what is replayed after a crash has no row twice, for every history. The conditions are
those of C22; ids may even be used twice. -/
theorem C53_recovered_once {env : Env α} (hs : Sorts env) (hcap : 2 ≤ env.capacity) {i u c : Nat} {ops : List (Op α)}
    (hio : ∀ op ∈ ops, Op.ioOk op) (ht : ∀ op ∈ ops, Op.tableOk op) {e : Engine α} (hrun : (Engine.new i u c).run env ops = some e)
    (hg : Good env e.received) : ((savedRows e ++ replayedRows e).map key).Nodup ∧ ∀ r ∈ savedRows e ++ replayedRows e, r ∈ e.received := by
  obtain ⟨hi, h⟩ := ids_run hs hcap ops hio ht (inv_new i u c) (ids_new i u c) hrun hg
  have hcount := run_induction (P := fun e => ∀ p : Row α → Bool, (e.batches.flatMap fun b => b.2.2).countP p ≤ e.received.countP p)
    (fun _ _ _ h => batches_count h) (by simp [Engine.new]) hrun
  have h1 : ∀ p, (savedRows e).countP p ≤ e.received.countP p := by
    intro p
    rw [← hi.count p]
    unfold ecount ccount savedRows
    omega
  have h2 : ∀ p, (replayedRows e).countP p ≤ e.received.countP p := by
    intro p
    refine Nat.le_trans ?_ (hcount p)
    have := countP_flatMap_filter p (fun b : String × Nat × List (Row α) => decide ((b.1, b.2.1) ∉ e.c.commits)) (fun b => b.2.2) e.batches
    unfold replayedRows replayedBatches
    omega
  have hdis : ∀ r ∈ savedRows e, r ∉ replayedRows e := by
    intro r hr hr'
    obtain ⟨x, hx, h3⟩ := List.mem_flatMap.mp hr
    obtain ⟨b, hb, h4⟩ := List.mem_flatMap.mp hr'
    simp only [replayedBatches, List.mem_filter, decide_eq_true_eq] at hb
    obtain ⟨h5, h6⟩ := (h.c.saved x hx).rows r h3 b hb.1 h4
    exact hb.2 ((h.c.commits _ _).mpr ⟨x, hx, h5.symm, h6⟩)
  have hnodup : ∀ l : List (Row α), (∀ p, l.countP p ≤ e.received.countP p) → (l.map key).Nodup := by
    intro l hl
    rw [List.nodup_iff_count_le_one]
    intro k
    rw [List.count, List.countP_map]
    refine Nat.le_trans (hl _) ?_
    refine Nat.le_trans (Nat.le_of_eq (congrFun (congrArg _ (funext fun r => ?_)) _)) (key_count hg.keys k)
    by_cases hk : key r = k <;> simp [hk]
  refine ⟨?_, fun r hr => ?_⟩
  · rw [List.map_append, List.nodup_append]
    refine ⟨hnodup _ h1, hnodup _ h2, ?_⟩
    intro k hk k' hk' he
    obtain ⟨r, hr, rfl⟩ := List.mem_map.mp hk
    obtain ⟨r', hr', rfl⟩ := List.mem_map.mp hk'
    have : r = r' := List.inj_on_of_nodup_map hg.keys (countP_mem h1 hr) (countP_mem h2 hr') he
    subst this
    exact hdis r hr hr'
  · rcases List.mem_append.mp hr with hr | hr
    · exact countP_mem h1 hr
    · exact countP_mem h2 hr

/-- A batch has rows of two series. One series fills a buffer, which is compressed and saved. -/
def partlySaved : List (Op Nat) :=
  [.insert "t" [rowA 1 7, rowA 2 7, rowB 1 8] (some 0) 2, .ingestionTake, .ingestionRow true, .ingestionRow true, .ingestionRow true,
    .ingestionDone, .compressionTake, .compressionDone, .write,
    .insert "t" [rowA 3 7, rowA 4 7] (some 1) 2, .insert "t" [rowB 2 9] (some 2) 1, .ingestionTake, .ingestionRow true, .ingestionRow true,
    .compressionTake, .compressionDone, .write]

/-- C20 is false: row (b, 1) of the first batch is acknowledged, neither saved nor replayed, while (a, 1) is saved. -/
theorem C20_acknowledged_lost : ∃ e : Engine Nat, (Engine.new 100 1000 3).run (smallEnv 2) partlySaved = some e ∧ Good (smallEnv 2) e.received ∧
    (e.batches.map fun b => (b.1, b.2.1)).Nodup ∧ ("t", 0, [rowA 1 7, rowA 2 7, rowB 1 8]) ∈ e.batches ∧
    rowB 1 8 ∉ savedRows e ∧ rowB 1 8 ∉ replayedRows e := by
  refine ⟨((Engine.new 100 1000 3).run (smallEnv 2) partlySaved).get (by decide +kernel), (Option.some_get _).symm, by decide +kernel,
    by decide +kernel, by decide +kernel, by decide +kernel, by decide +kernel⟩

/-- The hypotheses are met in this history, in which four rows are saved and one is replayed. -/
example : ∃ e : Engine Nat, (Engine.new 100 1000 3).run (smallEnv 2) partlySaved = some e ∧ Good (smallEnv 2) e.received ∧
    (∀ op ∈ partlySaved, Op.ioOk op ∧ Op.tableOk op) ∧
    savedRows e = [rowA 1 7, rowA 2 7, rowA 3 7, rowA 4 7] ∧ replayedRows e = [rowB 2 9] := by
  refine ⟨((Engine.new 100 1000 3).run (smallEnv 2) partlySaved).get (by decide +kernel), (Option.some_get _).symm, by decide +kernel,
    ?_, by decide +kernel, by decide +kernel⟩
  simp [partlySaved, Op.ioOk, Op.tableOk, rowA, rowB]

/-- The memory for uncompressed data is reduced and the buffer with the only row of the first batch cannot be written to disk, so that the request is refused. Then a second
batch is received for the series, and everything is saved. -/
def failedSpill : List (Op Nat) :=
  [.insert "t" [rowA 1 7] (some 0) 1, .ingestionTake, .ingestionRow true, .ingestionDone, .adjustUncompressed false (-990),
    .insert "t" [rowA 2 7] (some 1) 1, .ingestionTake, .ingestionRow true, .ingestionDone, .flush, .ingestionTake, .compressionTake, .compressionDone, .compressionTake,
    .write, .write]

/-- C20 is false for batches with one row too if a buffer cannot be written to disk: the buffer loses its rows but keeps the id of their batch, which is then saved with the
next rows of the series. The row is neither saved nor replayed. -/
theorem C20_failed_spill_lost : ∃ e : Engine Nat, (Engine.new 100 1000 3).run (smallEnv 2) failedSpill = some e ∧ Good (smallEnv 2) e.received ∧
    (e.batches.map fun b => (b.1, b.2.1)).Nodup ∧ ("t", 0, [rowA 1 7]) ∈ e.batches ∧ e.results = [2] ∧ savedRows e = [rowA 2 7] ∧ replayedRows e = [] := by
  refine ⟨((Engine.new 100 1000 3).run (smallEnv 2) failedSpill).get (by decide +kernel), (Option.some_get _).symm, by decide +kernel,
    by decide +kernel, by decide +kernel, by decide +kernel, by decide +kernel, by decide +kernel⟩

end ModelarDB.Props
