import Verif.Lemmas.StorageMemory
import Verif.Props.C22
/-
C24: Memory accounting is exact.
-/
namespace ModelarDB.Props
open Model.Storage Spec.Storage Lemmas.Storage

variable {α : Type}

/-- C24 for ingested memory: what is available and what is held by batches that are not completely inserted is what is
configured, for every history. -/
theorem C24_ingested_exact {env : Env α} {i u c : Nat} {ops : List (Op α)} {e : Engine α}
    (hrun : (Engine.new i u c).run env ops = some e) : e.ingestedRemaining + ingestedMemory e = e.ingestedBudget :=
  run_induction (P := fun e => e.ingestedRemaining + ingestedMemory e = e.ingestedBudget) (fun _ _ _ h => iacc_step h)
    (by simp [Engine.new, ingestedMemory]) hrun

/-- C24 for uncompressed memory: what is available and what is held by buffers is what is configured and what was given to buffers
without reserving it (see `C24_unreserved_when`). Missing: that nothing is given to buffers without reserving it,
which is false (`C24_uncompressed_drifts`). The conditions are those of C22. -/
theorem C24_uncompressed_partial {env : Env α} (hs : Sorts env) (hcap : 2 ≤ env.capacity) {i u c : Nat} {ops : List (Op α)}
    (hio : ∀ op ∈ ops, Op.ioOk op) {e : Engine α} (hrun : (Engine.new i u c).run env ops = some e) (hg : Good env e.received) :
    e.u.remaining + uncompressedMemory env e = e.uncompressedBudget + e.u.unreserved := by
  have h := uacc_run hs hcap ops hio (inv_new i u c) (uacc_new env i u c) hrun hg
  unfold UAcc balance at h
  rw [uncompressedMemory_eq]
  push_cast
  omega

/-- The memory of a buffer is given without reserving it only if there is not enough memory, no finished buffer waits to be
compressed and a buffer is spilled to make room. -/
theorem C24_unreserved_when {env : Env α} {e e' : Engine α} {op : Op α} (h : e.step env op = some e')
    (hne : e'.u.unreserved ≠ e.u.unreserved) :
    ∃ io r rows batchId size, op = .ingestionRow io ∧ e.current = some ⟨r :: rows, batchId, size⟩ ∧
      e.u.remaining < tableMemory env r.table ∧ e.u.channel = [] ∧ e.u.inMemory ≠ [] ∧
      e'.u.unreserved = e.u.unreserved + tableMemory env r.table := by
  have hspill : ∀ (io : Bool) (u u' : Uncompressed α), spill env io u = .ok u' ∨ spill env io u = .failed u' →
      u'.unreserved = u.unreserved := by
    intro io u u' h
    unfold spill at h
    split at h
    · rcases h with h | h <;> cases h; rfl
    · split at h
      · rcases h with h | h <;> cases h
      · split at h <;> rcases h with h | h <;> cases h <;> rfl
  have hres : ∀ (io : Bool) (u u' : Uncompressed α) (t : String), reserve env io u t = .ok u' ∨ reserve env io u t = .failed u' →
      u'.unreserved = u.unreserved ∨ (u.remaining < tableMemory env t ∧ u.channel = [] ∧ u.inMemory ≠ [] ∧
        u'.unreserved = u.unreserved + tableMemory env t) := by
    intro io u u' t h
    unfold reserve at h
    rw [computeMemorySize_eq] at h
    split at h
    · rcases h with h | h <;> cases h; exact Or.inl rfl
    · next hlt =>
      split at h
      · next hc =>
        rw [List.isEmpty_iff] at hc
        split at h
        · next u₁ ho =>
          rcases h with h | h <;> cases h
          refine Or.inr ⟨by omega, hc, ?_, ?_⟩
          · intro hm
            unfold spill at ho
            rw [hm] at ho
            cases ho
          · dsimp only
            rw [hspill io u u₁ (Or.inl ho)]
        · next ho =>
          rcases h with h | h
          · exact absurd h (ho u')
          · exact Or.inl (hspill io u u' (Or.inr h))
      · rcases h with h | h <;> cases h
  cases op with
  | ingestionRow io =>
    simp only [Engine.step] at h
    split at h
    · split at h
      · next r rows batchId size hcur =>
        refine ⟨io, r, rows, batchId, size, rfl, hcur, ?_⟩
        have key : ∀ u', insertDataPoint env io e.u r batchId = .ok u' ∨ insertDataPoint env io e.u r batchId = .failed u' →
            u'.unreserved = e.u.unreserved ∨ (e.u.remaining < tableMemory env r.table ∧ e.u.channel = [] ∧ e.u.inMemory ≠ [] ∧
              u'.unreserved = e.u.unreserved + tableMemory env r.table) := by
          intro u' h
          unfold insertDataPoint at h
          dsimp only at h
          split at h
          · rcases h with h | h <;> cases h
            exact Or.inl (placeBuffer_rest env _ _).2.2.2.1
          · split at h
            · next u₁ hr =>
              have := hres io _ u₁ _ (Or.inl hr)
              split at h
              · split at h
                · rcases h with h | h <;> cases h; exact this
                · rcases h with h | h <;> cases h
                  rw [(placeBuffer_rest env _ _).2.2.2.1]
                  exact this
              · rcases h with h | h <;> cases h; exact this
            · exact hres io _ u' _ h
        split at h
        · next u' hu =>
          cases h
          rcases key u' (Or.inl hu) with h | h
          · exact absurd h hne
          · exact h
        · cases h; exact absurd rfl hne
        · next u' hu =>
          cases h
          rcases key u' (Or.inr hu) with h | h
          · exact absurd h hne
          · exact h
        · cases h
      · cases h
    · cases h
  | adjustUncompressed io change =>
    have hloop : ∀ fuel (u u' : Uncompressed α), spillWhileNegative env io fuel u = .ok u' ∨ spillWhileNegative env io fuel u = .failed u' →
        u'.unreserved = u.unreserved := by
      intro fuel
      induction fuel with
      | zero => intro u u' h; rcases h with h | h <;> cases h; rfl
      | succ fuel ih =>
        intro u u' h
        unfold spillWhileNegative at h
        split at h
        · split at h
          · next u₁ ho => rw [ih u₁ u' h, hspill io u u₁ (Or.inl ho)]
          · next ho =>
            rcases h with h | h
            · exact absurd h (ho u')
            · exact hspill io u u' (Or.inr h)
        · rcases h with h | h <;> cases h; rfl
    have : ∀ u', Model.Storage.adjustUncompressed env io e.u change = .ok u' ∨ Model.Storage.adjustUncompressed env io e.u change = .failed u' →
        u'.unreserved = e.u.unreserved := by
      intro u' h
      unfold Model.Storage.adjustUncompressed at h
      split at h
      · next u₁ ho =>
        rcases h with h | h <;> cases h
        exact hloop _ { e.u with remaining := e.u.remaining + change } u₁ (Or.inr ho)
      · next ho => exact hloop _ { e.u with remaining := e.u.remaining + change } u' h
    simp only [Engine.step] at h
    split at h
    · next u' hu => cases h; exact absurd (this u' (Or.inl hu)) hne
    · next u' hu => cases h; exact absurd (this u' (Or.inr hu)) hne
    · cases h
  | insert table rows batchId size =>
    simp only [Engine.step] at h
    split at h <;> cases h
    exact absurd rfl hne
  | ingestionTake =>
    simp only [Engine.step] at h
    split at h
    · split at h <;> cases h <;> exact absurd rfl hne
    · cases h
  | ingestionDone =>
    simp only [Engine.step] at h
    split at h
    · split at h <;> cases h
      exact absurd rfl hne
    · cases h
  | compressionTake =>
    simp only [Engine.step] at h
    split at h
    · split at h <;> cases h <;> exact absurd rfl hne
    · cases h
  | compressionDone =>
    simp only [Engine.step] at h
    split at h
    · split at h
      · cases h
      · split at h <;> cases h <;> exact absurd rfl hne
    · cases h
  | write =>
    simp only [Engine.step] at h
    split at h
    · split at h
      · cases h
      all_goals
        obtain ⟨c, _, rfl⟩ := Option.map_eq_some_iff.mp h
        exact absurd rfl hne
    · cases h
  | adjustCompressed change =>
    obtain ⟨c, _, rfl⟩ := Option.map_eq_some_iff.mp h
    exact absurd rfl hne
  | flush => cases h; exact absurd rfl hne
  | stop => cases h; exact absurd rfl hne
  | touchMemory i => cases h; exact absurd rfl hne
  | touchDisk i => cases h; exact absurd rfl hne
  | adjustIngested change => cases h; exact absurd rfl hne

/-- C24 for compressed memory: what is available and what is held by segments is never less than what is configured, and it is
what is configured if every table has one field column. Missing: the latter for tables with several field columns, which is
false (`C24_compressed_drifts`). Segments that are sent to the writer and not yet received are not counted at all. -/
theorem C24_compressed_partial {env : Env α} {i u c : Nat} {ops : List (Op α)} {e : Engine α}
    (hrun : (Engine.new i u c).run env ops = some e) :
    e.compressedBudget ≤ e.c.remaining + compressedMemory e ∧
      ((∀ t points, (env.segmentSizes t points).length ≤ 1) → e.c.remaining + compressedMemory e = e.compressedBudget) := by
  have h := run_induction (P := CAcc (∀ t points, (env.segmentSizes t points).length ≤ 1)) (fun _ _ _ h => cacc_step id h)
    (cacc_new _ i u c) hrun
  rw [trueSize_eq]
  exact ⟨h.ge, h.eq⟩

/-- The writer never panics because a buffer that should be saved does not exist: as long as the configured amount is not
negative, it can process the next message, whatever its size. -/
theorem C24_writer_never_panics {env : Env α} {i u c : Nat} {ops : List (Op α)} {e : Engine α}
    (hrun : (Engine.new i u c).run env ops = some e) (hbudget : 0 ≤ e.compressedBudget) (halive : e.writerAlive = true)
    (hnext : e.compressed ≠ []) : ∃ e', e.step env .write = some e' := by
  have h := run_induction (P := CAcc False) (fun _ _ _ h => cacc_step (fun h => h.elim) h) (cacc_new _ i u c) hrun
  simp only [Engine.step, halive, if_true]
  cases hq : e.compressed with
  | nil => exact absurd hq hnext
  | cons m rest =>
    cases m with
    | data x =>
      obtain ⟨c₁, k, _, h2 | ⟨_, h2⟩⟩ := h.insert (x := x) (fun h => h.elim)
      · simp [h2]
      · omega
    | flush n => simp [flushCompressed_spec _ _ rfl h.inv]
    | stop n => simp [flushCompressed_spec _ _ rfl h.inv]

/-- Non-trivial states: `busy` and something in every stage. -/
example : ∃ e, (Engine.new 6 36 20).run (smallEnv 3) (busy ++ [.insert "u" [rowC 2 1] none 4]) = some e ∧ Good (smallEnv 3) e.received ∧
    e.ingestedRemaining = 2 ∧ ingestedMemory e = 4 ∧ e.u.remaining = 0 ∧ uncompressedMemory (smallEnv 3) e = 72 ∧ e.u.unreserved = 36 ∧
    e.c.remaining = 17 ∧ compressedMemory e = 3 := by
  refine ⟨((Engine.new 6 36 20).run (smallEnv 3) (busy ++ [.insert "u" [rowC 2 1] none 4])).get (by decide +kernel),
    (Option.some_get _).symm, by decide +kernel, ?_⟩
  decide +kernel

/-- Two series, memory for one buffer and a flush request. -/
def twoSeries : List (Op Nat) :=
  [.insert "t" [rowA 1 7, rowB 1 8] none 2, .ingestionTake, .ingestionRow true, .ingestionRow true, .ingestionDone, .flush, .ingestionTake,
    .compressionTake, .compressionDone, .compressionTake, .compressionDone, .compressionTake, .write, .write, .write]

/-- C24 is false for uncompressed memory: when nothing is left in the engine more is available than configured. When a buffer is
spilled its memory is returned and also used for the new buffer, whose memory is returned again when it is compressed
(uncompressed_data_manager.rs:346-349 and 384-387). -/
theorem C24_uncompressed_drifts : ∃ e : Engine Nat, (Engine.new 6 24 20).run (smallEnv 2) twoSeries = some e ∧
    (∀ op ∈ twoSeries, Op.ioOk op) ∧ Good (smallEnv 2) e.received ∧ allRows e = savedRows e ∧ e.uncompressedBudget = 24 ∧
    e.u.remaining = 48 := by
  refine ⟨((Engine.new 6 24 20).run (smallEnv 2) twoSeries).get (by decide +kernel), (Option.some_get _).symm,
    by simp [twoSeries, Op.ioOk], ?_⟩
  decide +kernel

/-- Two field columns. -/
def twoFields : Env Nat := { smallEnv 2 with numFields := fun _ => 2, segmentSizes := fun _ points => [points.length, points.length] }

/-- C24 is false for compressed memory: the size of the segments of the first field column is added again to the size of the buffer with
those of the second (compressed_data_buffer.rs:101-107), so more memory is returned than was reserved. -/
theorem C24_compressed_drifts : ∃ e : Engine Nat, (Engine.new 6 64 20).run twoFields twoSeries = some e ∧
    (∀ op ∈ twoSeries, Op.ioOk op) ∧ Good twoFields e.received ∧ allRows e = savedRows e ∧ e.compressedBudget = 20 ∧
    e.c.remaining = 22 := by
  refine ⟨((Engine.new 6 64 20).run twoFields twoSeries).get (by decide +kernel), (Option.some_get _).symm,
    by simp [twoSeries, Op.ioOk], ?_⟩
  decide +kernel

/-- A row of one series is received and the data is flushed. -/
def flushedRow (k : Nat) : List (Op Nat) :=
  [.insert "t" [rowA k 7] none 2, .ingestionTake, .ingestionRow true, .ingestionDone, .flush, .ingestionTake,
    .compressionTake, .compressionDone, .compressionTake, .write, .write]

/-- The engine after `k` times `flushedRow`. -/
def afterRows (k : Nat) : Engine Nat :=
  { Engine.new 6 64 20 with
    u := ⟨k, [], [], [], 64, [], 0⟩
    c := ⟨[], [], 20 + k, (List.range k).map fun (i : Nat) => ⟨"t", ["a"], [((i : Int), 7)], [1, 1], []⟩, []⟩
    results := List.range' 1 k
    received := (List.range k).map fun (i : Nat) => rowA i 7 }

/-- Each row leaves one byte more than before. -/
theorem flushedRow_run (k : Nat) : (afterRows k).run twoFields (flushedRow k) = some (afterRows (k + 1)) := by
  have h2 : 2 ≤ 20 + (k : Int) := by omega
  simp [Engine.run, Engine.step, afterRows, flushedRow, Engine.new, insertDataPoint, reserve, computeMemorySize, twoFields, smallEnv, putMemory,
    finishBatch, finishUnusedBuffers, flushUncompressed, compressFinishedBuffer, insertCompressedSegments, appendChunk, CompressedBuffer.append,
    appendSizes, flushCompressed, saveCompressedData, MemoryBuffer.new, MemoryBuffer.insert, MemoryBuffer.isUnused, rowA, List.range_succ,
    List.range'_concat, h2]
  omega

/-- Any number of rows. -/
theorem afterRows_run (n : Nat) : (Engine.new 6 64 20).run twoFields ((List.range n).flatMap flushedRow) = some (afterRows n) := by
  induction n with
  | zero => decide +kernel
  | succ n ih =>
    have happend : ∀ (l l' : List (Op Nat)) (e : Engine Nat), e.run twoFields (l ++ l') = (e.run twoFields l).bind fun e => e.run twoFields l' := by
      intro l l'
      induction l with
      | nil => exact fun _ => rfl
      | cons op l ihl =>
        intro e
        simp only [List.cons_append, Engine.run, Option.bind_assoc]
        exact congrArg _ (funext ihl)
    rw [List.range_succ, List.flatMap_append, happend, ih]
    simp [flushedRow_run]

/-- How much more is available than configured is not bounded: for every number there is a history after which everything is saved and this many
bytes more are available. Each row that is saved with two fields adds one byte, so with time the configured amount does not limit anything. -/
theorem C24_compressed_unbounded (n : Nat) : ∃ ops : List (Op Nat), (∀ op ∈ ops, Op.ioOk op) ∧
    ∃ e : Engine Nat, (Engine.new 6 64 20).run twoFields ops = some e ∧ Good twoFields e.received ∧ allRows e = savedRows e ∧
      e.compressedBudget = 20 ∧ e.c.remaining = 20 + n := by
  refine ⟨(List.range n).flatMap flushedRow, ?_, afterRows n, afterRows_run n, ⟨?_, ?_⟩, ?_, rfl, rfl⟩
  · intro op hop
    obtain ⟨k, _, hk⟩ := List.mem_flatMap.mp hop
    simp only [flushedRow, List.mem_cons, List.not_mem_nil, or_false] at hk
    rcases hk with rfl | rfl | rfl | rfl | rfl | rfl | rfl | rfl | rfl | rfl | rfl <;> simp [Op.ioOk]
  · intro r hr r' hr' _
    obtain ⟨i, _, rfl⟩ := List.mem_map.mp hr
    obtain ⟨j, _, rfl⟩ := List.mem_map.mp hr'
    exact ⟨rfl, rfl⟩
  · simp only [afterRows, List.map_map]
    refine List.Nodup.map (fun i j h => ?_) List.nodup_range
    simp only [Function.comp, key, rowA, Prod.mk.injEq, true_and] at h
    omega
  · simp [allRows, compressedRows, finishedRows, openRows, queuedRows, afterRows, Engine.new]

end ModelarDB.Props
