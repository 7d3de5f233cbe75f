import Verif.Lemmas.StorageIdle
import Verif.Spec.StorageExample
/-
C22: Buffering loses and duplicates nothing.

All theorems are about every sequence of steps of the engine (`Engine.run`): batches of any rows for any tables, flush requests,
steps of the ingestion, compression and writer threads in any order, any iteration order of the maps and configuration changes.
-/
namespace ModelarDB.Props
open Model.Storage Spec.Storage Lemmas.Storage

variable {α : Type}

/-- C22, first part. At any moment the rows in the queue to the ingestion thread, in open buffers, in finished buffers, in compressed
segments and in the tables in the local data folder together are exactly the rows received, each once and with its own table and
tags. Missing: engines in which two series have the same hash (`C21_not_separate`), repeated timestamps
(`C22_not_exact_repeated`) and spills that fail (`C22_not_exact_failed_spill`). -/
theorem C22_exact_partial {env : Env α} (hs : Sorts env) (hcap : 2 ≤ env.capacity) {i u c : Nat} {ops : List (Op α)}
    (hio : ∀ op ∈ ops, Op.ioOk op) {e : Engine α} (hrun : (Engine.new i u c).run env ops = some e) (hg : Good env e.received) :
    (allRows e).Perm e.received := by
  classical
  have h := inv_run hs hcap ops hio (fun _ => inv_new i u c) hrun hg
  rw [List.perm_iff_count]
  intro r
  have h1 := h.count fun x => x == r
  have hdisk : ∀ d ∈ live e.u (extraOf e.compressing), diskRows e.u.files d = ghostRows d := fun d hd => (h.u.disk d hd).diskRows
  have h2 : e.u.onDisk.flatMap (diskRows e.u.files) = e.u.onDisk.flatMap ghostRows :=
    List.flatMap_congr fun d hd => hdisk d (by simp [live, hd])
  have h3 : e.u.channel.flatMap (messageRows (bufferRows e.u.files)) = e.u.channel.flatMap (messageRows ghostBufferRows) := by
    refine List.flatMap_congr fun m hm => ?_
    rcases m with (b | d) | _ | _
    · rfl
    · refine hdisk d ?_
      simp only [live, List.mem_append]
      exact Or.inl (Or.inr (List.mem_flatMap.mpr ⟨_, hm, by simp [diskRefs]⟩))
    · rfl
    · rfl
  have h4 : e.compressing.toList.flatMap (bufferRows e.u.files) = e.compressing.toList.flatMap ghostBufferRows := by
    refine List.flatMap_congr fun b hb => ?_
    rw [Option.mem_toList] at hb
    rcases b with b | d
    · rfl
    · refine hdisk d ?_
      rw [show e.compressing = some (.onDisk d) from hb]
      simp [live, extraOf]
  have h5 : ∀ l : List (String × CompressedBuffer α), l.flatMap (fun b => b.2.chunks.flatMap chunkRows) = l.flatMap compressedBufferRows :=
    fun _ => rfl
  unfold allRows savedRows compressedRows finishedRows openRows queuedRows
  rw [h2, h3, h4, h5]
  unfold ecount ccount ucount at h1
  simp only [List.count_append]
  unfold List.count
  omega

/-- C22, second part. A buffer is handed over to the compression thread only when it is full, when no row was added to it by the
batch that just ended, or for a flush or stop request. -/
theorem C22_handed_over_when {env : Env α} {e e' : Engine α} {op : Op α} (h : e.step env op = some e') (b : Buffer α)
    (hb : .data b ∈ e'.u.channel) (hnew : .data b ∉ e.u.channel) :
    (∃ io m, op = .ingestionRow io ∧ b = .inMemory m ∧ m.points.length = env.capacity) ∨
      (op = .ingestionDone ∧ b ∈ openBuffers e ∧
        match b with
        | .inMemory m => m.updatedBy < e.u.batchIndex
        | .onDisk d => d.updatedBy < e.u.batchIndex) ∨
      (op = .ingestionTake ∧ b ∈ openBuffers e ∧ ∃ n, e.ingested.head? = some (.flush n) ∨ e.ingested.head? = some (.stop n)) := by
  have habs : ∀ {P : Prop}, .data b ∈ e.u.channel → P := fun hb => absurd hb hnew
  cases op with
  | ingestionRow io =>
    simp only [Engine.step] at h
    split at h
    · split at h
      · split at h
        · next u hu =>
          cases h
          rcases insertDataPoint_channel hu with h1 | ⟨m, h1, h2⟩
          · rw [h1] at hb
            exact habs hb
          · rw [h2, List.mem_append, List.mem_singleton] at hb
            rcases hb with hb | hb
            · exact habs hb
            · cases hb
              exact Or.inl ⟨io, m, rfl, rfl, h1⟩
        · cases h; exact habs hb
        · next u hu =>
          cases h
          rw [insertDataPoint_failed_channel hu] at hb
          exact habs hb
        · cases h
      · cases h
    · cases h
  | ingestionDone =>
    simp only [Engine.step] at h
    split at h
    · split at h
      · cases h
        refine Or.inr (Or.inl ⟨rfl, ?_⟩)
        simp only [finishBatch, finishUnusedBuffers, List.mem_append, List.mem_map, List.mem_filter, MemoryBuffer.isUnused,
          DiskBuffer.isUnused, decide_eq_true_eq] at hb
        rcases hb with (hb | ⟨m, ⟨h1, h2⟩, h3⟩) | ⟨m, ⟨h1, h2⟩, h3⟩
        · exact habs hb
        · cases h3
          exact ⟨by simp [openBuffers, h1], h2⟩
        · cases h3
          exact ⟨by simp [openBuffers, h1], h2⟩
      · cases h
    · cases h
  | ingestionTake =>
    simp only [Engine.step] at h
    split at h
    · split at h
      · cases h
      · cases h; exact habs hb
      all_goals
        next n rest hq =>
        cases h
        refine Or.inr (Or.inr ⟨rfl, ?_, n, by simp [hq]⟩)
        simp only [flushUncompressed, List.mem_append, List.mem_map, List.mem_singleton, reduceCtorEq, or_false] at hb
        rcases hb with (hb | ⟨m, h1, h3⟩) | ⟨m, h1, h3⟩
        · exact habs hb
        · cases h3
          simp [openBuffers, h1]
        · cases h3
          simp [openBuffers, h1]
    · cases h
  | compressionTake =>
    simp only [Engine.step] at h
    split at h
    · split at h
      · cases h
      all_goals
        next hq =>
        cases h
        refine habs ?_
        rw [hq]
        exact List.mem_cons_of_mem _ hb
    · cases h
  | adjustUncompressed io change =>
    simp only [Engine.step] at h
    split at h
    · next hu =>
      cases h
      rw [adjustUncompressed_channel (Or.inl hu)] at hb
      exact habs hb
    · next hu =>
      cases h
      rw [adjustUncompressed_channel (Or.inr hu)] at hb
      exact habs hb
    · cases h
  | insert table rows batchId size =>
    simp only [Engine.step] at h
    split at h
    · cases h; exact habs hb
    · cases h
  | compressionDone =>
    simp only [Engine.step] at h
    split at h
    · split at h
      · cases h
      · split at h <;> cases h <;> exact habs hb
    · cases h
  | write =>
    simp only [Engine.step] at h
    split at h
    · split at h
      · cases h
      all_goals
        obtain ⟨c, _, rfl⟩ := Option.map_eq_some_iff.mp h
        exact habs hb
    · cases h
  | adjustCompressed change =>
    obtain ⟨c, _, rfl⟩ := Option.map_eq_some_iff.mp h
    exact habs hb
  | flush => cases h; exact habs hb
  | stop => cases h; exact habs hb
  | touchMemory i => cases h; exact habs hb
  | touchDisk i => cases h; exact habs hb
  | adjustIngested change => cases h; exact habs hb

/-- C22, second part. A batch is taken (to `e₁`), its rows are inserted while anything else may happen (`ops`, to `e₂`) and the
batch ends (`e₃`). Then exactly the idle buffers have been handed over: every buffer that is still open has received a row
of the batch, and a buffer handed over at the end of the batch has not. -/
theorem C22_idle_buffers_finished {env : Env α} (hs : Sorts env) (hcap : 2 ≤ env.capacity) {i u c : Nat} {before ops : List (Op α)}
    (hio : ∀ op ∈ before ++ ops, Op.ioOk op) (hin : ∀ op ∈ ops, Op.inside op) {e₀ e₁ e₂ e₃ : Engine α}
    (h0 : (Engine.new i u c).run env before = some e₀) (h1 : e₀.step env .ingestionTake = some e₁) {batch : Ingested α}
    (hbatch : e₁.current = some batch) (h2 : e₁.run env ops = some e₂) (h3 : e₂.step env .ingestionDone = some e₃)
    (hg : Good env e₃.received) :
    (∀ b ∈ openBuffers e₃, ∃ r ∈ batch.rows, bufferSeries b = (r.table, r.tags)) ∧
      (∀ b, .data b ∈ e₃.u.channel → .data b ∉ e₂.u.channel → ∀ r ∈ batch.rows, bufferSeries b ≠ (r.table, r.tags)) := by
  have hg2 : Good env e₂.received := by
    obtain ⟨l, hl⟩ := received_mono h3
    rw [hl] at hg
    exact hg.mono
  have hg1 := run_good h2 hg2
  have hg0 : Good env e₀.received := by
    obtain ⟨l, hl⟩ := received_mono h1
    rw [hl] at hg1
    exact hg1.mono
  have hio0 : ∀ op ∈ before, Op.ioOk op := fun o ho => hio o (List.mem_append_left _ ho)
  have hi0 := inv_run hs hcap before hio0 (fun _ => inv_new i u c) h0 hg0
  have ht0 := touched_run hs hcap before hio0 (fun _ => inv_new i u c) h0 hg0
    ⟨[], ⟨fun b hb => (nomatch hb), fun b hb => (nomatch hb)⟩, fun _ => rfl⟩
  have hi1 := inv_step hs hcap (op := .ingestionTake) trivial hi0 h1 hg1
  have ht1 : Touched env e₁.u [] := by
    obtain ⟨done, ht, hd⟩ := ht0
    simp only [Engine.step] at h1
    split at h1
    · next halive =>
      have hcur : e₀.current = none := by simpa using (Bool.and_eq_true_iff.mp halive).2
      have := hd hcur
      subst this
      split at h1
      · cases h1
      · cases h1; exact ht
      all_goals cases h1; rw [hcur] at hbatch; cases hbatch
    · cases h1
  obtain ⟨hi2, done, b', ht2, hb', he⟩ := touched_inside hs hcap ops (fun o ho => hio o (List.mem_append_right _ ho)) hin hi1 h2 hg2 ht1 hbatch
  rw [List.nil_append] at he
  have hi3 := inv_step hs hcap (op := .ingestionDone) trivial hi2 h3 hg
  simp only [Engine.step] at h3
  split at h3
  · split at h3
    · next batchId size hcur =>
      cases h3
      rw [hcur] at hb'
      cases hb'
      rw [List.append_nil] at he
      subst he
      have hall : ∀ r ∈ batch.rows, r ∈ e₂.received := by
        intro r hr
        obtain ⟨l, hl⟩ := run_received h2
        rw [hl]
        exact List.mem_append_left _ (hi1.current hbatch hr)
      have hk := hi2.known
      have hmem : ∀ b ∈ e₂.u.inMemory, ∃ x ∈ e₂.received, (b.table, b.tags) = (x.table, x.tags) ∧
          b.hash = calculateTagHash env x.table x.tags := by
        intro b hb
        have hbo := hi2.u.memory b hb
        obtain ⟨x, hx⟩ := List.exists_mem_of_ne_nil _ hbo.nonempty
        exact ⟨_, hk.memory hb (mem_memoryRows hx), rfl, hbo.hash⟩
      have hdisk : ∀ d ∈ e₂.u.onDisk, ∃ x ∈ e₂.received, (d.table, d.ghost.tags) = (x.table, x.tags) ∧
          d.hash = calculateTagHash env x.table x.tags := by
        intro d hd
        have hd' : d ∈ live e₂.u (extraOf e₂.compressing) := by simp [live, hd]
        obtain ⟨x, hx, _⟩ := (hi2.u.disk d hd').head
        exact ⟨_, hk.disk hd' hx, rfl, (hi2.u.disk d hd').hash⟩
      have hsame : ∀ x ∈ e₂.received, ∀ r ∈ batch.rows, calculateTagHash env x.table x.tags = calculateTagHash env r.table r.tags →
          (x.table, x.tags) = (r.table, r.tags) := by
        intro x hx r hr he
        obtain ⟨h4, h5⟩ := hg2.hash x hx r (hall r hr) he
        rw [h4, h5]
      constructor
      · intro b hb
        simp only [openBuffers, finishBatch, finishUnusedBuffers, List.mem_append, List.mem_map, List.mem_filter] at hb
        rcases hb with ⟨m, ⟨hm, hu⟩, rfl⟩ | ⟨m, ⟨hm, hu⟩, rfl⟩
        · obtain ⟨x, hx, hser, hh⟩ := hmem m hm
          rcases ht2.memory m hm with ⟨_, r, hr, hrh⟩ | ⟨hlt, _⟩
          · exact ⟨r, hr, hser.trans (hsame x hx r hr (hh.symm.trans hrh))⟩
          · simp only [MemoryBuffer.isUnused, Bool.not_eq_true', decide_eq_false_iff_not] at hu
            omega
        · obtain ⟨x, hx, hser, hh⟩ := hdisk m hm
          rcases ht2.disk m hm with ⟨_, r, hr, hrh⟩ | ⟨hlt, _⟩
          · exact ⟨r, hr, hser.trans (hsame x hx r hr (hh.symm.trans hrh))⟩
          · simp only [DiskBuffer.isUnused, Bool.not_eq_true', decide_eq_false_iff_not] at hu
            omega
      · intro b hb hnew r hr he
        simp only [finishBatch, finishUnusedBuffers, List.mem_append, List.mem_map, List.mem_filter] at hb
        rcases hb with (hb | ⟨m, ⟨hm, hu⟩, h5⟩) | ⟨m, ⟨hm, hu⟩, h5⟩
        · exact hnew hb
        · cases h5
          rcases ht2.memory m hm with ⟨heq, _⟩ | ⟨_, hno⟩
          · simp only [MemoryBuffer.isUnused, decide_eq_true_eq] at hu
            omega
          · refine hno r hr ?_
            rw [(hi2.u.memory m hm).hash]
            simp only [bufferSeries, Prod.mk.injEq] at he
            rw [he.1, he.2]
        · cases h5
          rcases ht2.disk m hm with ⟨heq, _⟩ | ⟨_, hno⟩
          · simp only [DiskBuffer.isUnused, decide_eq_true_eq] at hu
            omega
          · refine hno r hr ?_
            rw [(hi2.u.disk m (by simp [live, hm])).hash]
            simp only [bufferSeries, Prod.mk.injEq] at he
            rw [he.1, he.2]
    · cases h3
  · cases h3

/-- C22, third part. Every batch of rows that was handed over by the compression thread is sorted by timestamp, is not empty
and does not exceed the capacity of a buffer, and no open buffer exceeds it either: a buffer with as many rows as its
capacity is not open. -/
theorem C22_sorted_and_bounded {env : Env α} (hs : Sorts env) (hcap : 2 ≤ env.capacity) {i u c : Nat} {ops : List (Op α)}
    (hio : ∀ op ∈ ops, Op.ioOk op) {e : Engine α} (hrun : (Engine.new i u c).run env ops = some e) (hg : Good env e.received) :
    (∀ x ∈ handedOver e, x.points.Pairwise (fun a b => a.1 ≤ b.1) ∧ x.points ≠ [] ∧ x.points.length ≤ env.capacity) ∧
      ∀ b ∈ openBuffers e, (bufferRows e.u.files b).length < env.capacity := by
  have h := inv_run hs hcap ops hio (fun _ => inv_new i u c) hrun hg
  constructor
  · intro x hx
    have hrefs : (messageData : Message (Chunk α) → List (Chunk α)) = chunkRefs := funext fun m => by cases m <;> rfl
    unfold handedOver at hx
    rw [hrefs] at hx
    have := h.chunks x hx
    exact ⟨this.sorted, this.nonempty, this.len⟩
  · intro b hb
    simp only [openBuffers, List.mem_append, List.mem_map] at hb
    rcases hb with ⟨m, hm, rfl⟩ | ⟨m, hm, rfl⟩
    · simpa [bufferRows, memoryRows, rowsOf] using h.u.memoryLen m hm
    · have := (h.u.disk m (by simp [live, hm])).diskRows
      simp only [bufferRows, this, ghostRows, rowsOf, List.length_map]
      exact h.u.diskLen m hm

/-- Two series. -/
def rowA (ts : Int) (val : Nat) : Row Nat := ⟨"t", ["a"], ts, val⟩
def rowB (ts : Int) (val : Nat) : Row Nat := ⟨"t", ["b"], ts, val⟩
def rowC (ts : Int) (val : Nat) : Row Nat := ⟨"u", ["c"], ts, val⟩

/-- Memory for one buffer: a buffer is spilled and read back, buffers are finished because they are full, idle or flushed, compressed
and saved. -/
def busy : List (Op Nat) :=
  [.insert "t" [rowA 2 0, rowB 1 0, rowA 1 1] (some 0) 3, .ingestionTake, .ingestionRow true, .ingestionRow true, .ingestionRow true,
    .ingestionDone, .insert "t" [rowB 6 2, rowB 5 3] (some 1) 2, .ingestionTake, .ingestionRow true, .ingestionRow true,
    .ingestionDone, .compressionTake, .compressionDone, .write, .insert "u" [rowC 1 1] (some 0) 1, .flush, .ingestionTake,
    .ingestionRow true, .ingestionDone]

example : ∃ e, (Engine.new 6 36 20).run (smallEnv 3) busy = some e ∧ Good (smallEnv 3) e.received ∧ (∀ op ∈ busy, Op.ioOk op) ∧
    savedRows e = [] ∧ compressedRows e = [rowB 1 0, rowB 5 3, rowB 6 2] ∧ finishedRows e = [rowA 2 0, rowA 1 1] ∧
    openRows e = [rowC 1 1] ∧ queuedRows e = [] := by
  refine ⟨((Engine.new 6 36 20).run (smallEnv 3) busy).get (by decide +kernel), (Option.some_get _).symm, by decide +kernel,
    by simp [busy, Op.ioOk], ?_⟩
  decide +kernel

/-- The second batch of `busy` leaves only the buffer of the series it has rows for, unless it is full. -/
example : ∃ e₀ e₁ e₂ e₃ : Engine Nat, (Engine.new 6 48 20).run (smallEnv 4) (busy.take 7) = some e₀ ∧
    e₀.step (smallEnv 4) .ingestionTake = some e₁ ∧ e₁.current = some ⟨[rowB 6 2, rowB 5 3], some 1, 2⟩ ∧
    e₁.run (smallEnv 4) [.ingestionRow true, .ingestionRow true] = some e₂ ∧ e₂.step (smallEnv 4) .ingestionDone = some e₃ ∧
    (openBuffers e₂).map bufferSeries = [("t", ["a"]), ("t", ["b"])] ∧ (openBuffers e₃).map bufferSeries = [("t", ["b"])] ∧
    Good (smallEnv 4) e₃.received := by
  refine ⟨((Engine.new 6 48 20).run (smallEnv 4) (busy.take 7)).get (by decide +kernel),
    ((Engine.new 6 48 20).run (smallEnv 4) (busy.take 8)).get (by decide +kernel),
    ((Engine.new 6 48 20).run (smallEnv 4) (busy.take 10)).get (by decide +kernel),
    ((Engine.new 6 48 20).run (smallEnv 4) (busy.take 11)).get (by decide +kernel), ?_⟩
  decide +kernel

/-- C22 is false when a buffer cannot be spilled: the points are taken out of the buffer before the file is written and the buffer
is put back without them (uncompressed_data_buffer.rs:174-209 and 226-243). -/
theorem C22_not_exact_failed_spill : ∃ (ops : List (Op Nat)) (e : Engine Nat), (Engine.new 6 24 20).run (smallEnv 2) ops = some e ∧
    Good (smallEnv 2) e.received ∧ e.received = [rowA 1 7, rowB 1 8] ∧ rowA 1 7 ∉ allRows e := by
  refine ⟨[.insert "t" [rowA 1 7, rowB 1 8] none 2, .ingestionTake, .ingestionRow true, .ingestionRow false],
    ((Engine.new 6 24 20).run (smallEnv 2) [.insert "t" [rowA 1 7, rowB 1 8] none 2, .ingestionTake, .ingestionRow true,
      .ingestionRow false]).get (by decide +kernel), (Option.some_get _).symm, ?_⟩
  decide +kernel

/-- Two rows of one series with the same timestamp in different batches. The file of the first is being read when the second is
spilled to a file with the same name. -/
def overwriting : List (Op Nat) :=
  [.insert "t" [rowA 1 7] none 1, .ingestionTake, .ingestionRow true, .ingestionDone,
    .insert "t" [rowB 1 8] none 1, .ingestionTake, .ingestionRow true, .ingestionDone, .compressionTake,
    .insert "t" [rowA 1 9, rowC 1 8] none 1, .ingestionTake, .ingestionRow true, .touchMemory 1, .ingestionRow true]

/-- C22 is false for repeated timestamps even if everything can be written and no hashes collide: the file with the first row is
overwritten. -/
theorem C22_not_exact_repeated : ∃ e : Engine Nat, (Engine.new 6 24 20).run (smallEnv 2) overwriting = some e ∧
    (∀ op ∈ overwriting, Op.ioOk op) ∧ rowA 1 7 ∈ e.received ∧ rowA 1 7 ∉ allRows e := by
  refine ⟨((Engine.new 6 24 20).run (smallEnv 2) overwriting).get (by decide +kernel), (Option.some_get _).symm,
    by simp [overwriting, Op.ioOk], ?_⟩
  decide +kernel

/-- A full buffer is being compressed when a row of another series arrives and there is memory for one buffer. -/
def lastBuffer : List (Op Nat) :=
  [.insert "t" [rowA 1 7, rowA 2 7] none 1, .ingestionTake, .ingestionRow true, .ingestionRow true, .ingestionDone, .compressionTake,
    .insert "t" [rowB 1 8] none 1, .ingestionTake, .ingestionRow true]

/-- The ingestion thread does not survive that, although no I/O failed and nobody asked it to stop
(uncompressed_data_manager.rs:324-350: it does not check if the last buffer has been read from the channel but is not yet compressed):
no row received from then on is ever put in a buffer. -/
theorem C22_ingestion_thread_ends : ∃ e : Engine Nat, (Engine.new 6 24 20).run (smallEnv 2) lastBuffer = some e ∧
    (∀ op ∈ lastBuffer, Op.ioOk op) ∧ Good (smallEnv 2) e.received ∧ e.ingestionAlive = false := by
  refine ⟨((Engine.new 6 24 20).run (smallEnv 2) lastBuffer).get (by decide +kernel), (Option.some_get _).symm,
    by simp [lastBuffer, Op.ioOk], ?_⟩
  decide +kernel

end ModelarDB.Props
