import Verif.Lemmas.StorageEngine
/-
When buffers are handed over to the compression thread.
-/
namespace ModelarDB.Lemmas.Storage
open Model.Storage Spec.Storage

variable {α : Type}

/-- `done` are the rows of the current batch that are inserted already: exactly the open buffers of their series were updated by
the current batch. -/
structure Touched (env : Env α) (u : Uncompressed α) (done : List (Row α)) : Prop where
  memory : ∀ b ∈ u.inMemory, (b.updatedBy = u.batchIndex ∧ ∃ r ∈ done, b.hash = calculateTagHash env r.table r.tags) ∨
    (b.updatedBy < u.batchIndex ∧ ∀ r ∈ done, b.hash ≠ calculateTagHash env r.table r.tags)
  disk : ∀ b ∈ u.onDisk, (b.updatedBy = u.batchIndex ∧ ∃ r ∈ done, b.hash = calculateTagHash env r.table r.tags) ∨
    (b.updatedBy < u.batchIndex ∧ ∀ r ∈ done, b.hash ≠ calculateTagHash env r.table r.tags)

theorem Touched.spilled {env : Env α} {u u' : Uncompressed α} {b done} (h : Touched env u done) (hs : Spilled env u u' b) :
    Touched env u' done := by
  obtain ⟨d, h1, h2, h3, h4, _⟩ := hs.disk
  constructor
  · intro x hx
    rw [hs.batchIndex]
    exact h.memory x (by rw [hs.inMemory]; exact List.mem_cons_of_mem _ hx)
  · intro x hx
    rw [hs.batchIndex]
    rw [h1, List.mem_append, List.mem_singleton] at hx
    rcases hx with hx | rfl
    · exact h.disk x hx
    · rw [h2, h4]
      exact h.memory b (by rw [hs.inMemory]; exact List.mem_cons_self ..)

theorem Touched.congr {env : Env α} {u u' : Uncompressed α} {done} (h : Touched env u done) (h1 : ∀ b ∈ u'.inMemory, b ∈ u.inMemory)
    (h2 : ∀ b ∈ u'.onDisk, b ∈ u.onDisk) (h3 : u'.batchIndex = u.batchIndex) : Touched env u' done :=
  ⟨fun b hb => by rw [h3]; exact h.memory b (h1 b hb), fun b hb => by rw [h3]; exact h.disk b (h2 b hb)⟩

theorem Touched.reserved {env : Env α} {u u' : Uncompressed α} {table done} (h : Touched env u done) (hr : Reserved env table u u') :
    Touched env u' done := by
  cases hr with
  | counter => exact h.congr (fun _ h => h) (fun _ h => h) rfl
  | spilled hs => exact (h.spilled hs).congr (fun _ h => h) (fun _ h => h) rfl

/-- Buffers of other series after a row is inserted. -/
theorem other {env : Env α} {hash x i : Nat} {done : List (Row α)} {r : Row α}
    (h : (x = i ∧ ∃ r ∈ done, hash = calculateTagHash env r.table r.tags) ∨ (x < i ∧ ∀ r ∈ done, hash ≠ calculateTagHash env r.table r.tags))
    (hne : hash ≠ calculateTagHash env r.table r.tags) :
    (x = i ∧ ∃ r' ∈ done ++ [r], hash = calculateTagHash env r'.table r'.tags) ∨
      (x < i ∧ ∀ r' ∈ done ++ [r], hash ≠ calculateTagHash env r'.table r'.tags) := by
  rcases h with ⟨h1, r', h2, h3⟩ | ⟨h1, h2⟩
  · exact Or.inl ⟨h1, r', List.mem_append_left _ h2, h3⟩
  · refine Or.inr ⟨h1, fun r' hr' => ?_⟩
    rcases List.mem_append.mp hr' with hr' | hr'
    · exact h2 r' hr'
    · rw [List.mem_singleton] at hr'
      exact hr' ▸ hne

theorem Touched.place {env : Env α} {u : Uncompressed α} {done} {r : Row α} {b : MemoryBuffer α}
    (h : Touched env u done) (hb : b.hash = calculateTagHash env r.table r.tags) (hu : b.updatedBy = u.batchIndex)
    (hd : calculateTagHash env r.table r.tags ∉ u.onDisk.map (·.hash)) : Touched env (placeBuffer env u b) (done ++ [r]) := by
  obtain ⟨h1, _, _, _, h2⟩ := placeBuffer_rest env u b
  constructor
  · intro x hx
    rw [h2]
    rw [placeBuffer_inMemory, List.mem_append] at hx
    rcases hx with hx | hx
    · rw [List.mem_filter] at hx
      exact other (h.memory x hx.1) (by rw [← hb]; simpa using hx.2)
    · split at hx
      · cases hx
      · rw [List.mem_singleton] at hx
        subst hx
        exact Or.inl ⟨hu, r, by simp, hb⟩
  · intro x hx
    rw [h2]
    rw [h1] at hx
    exact other (h.disk x hx) fun he => hd (he ▸ List.mem_map_of_mem hx)

theorem Touched.inserted {env : Env α} {extra} {u u' : Uncompressed α} {r : Row α} {batchId done} (hi : UInv env u extra)
    (h : Touched env u done) (hr : Inserted env extra u r batchId u') : Touched env u' (done ++ [r]) := by
  cases hr with
  | @existing b hb hh =>
    obtain ⟨hf1, _, _, _, hf2, _⟩ := insertBatchId_fields (b.insert u.batchIndex r.ts r.val) batchId
    refine h.place (hf1.trans hh) hf2 ?_
    have := List.nodup_append.mp hi.hashes
    intro hm
    exact this.2.2 _ (List.mem_map_of_mem hb) _ hm hh
  | @readBack u' d hr hi' hm hd hh =>
    generalize hb0 : (⟨d.hash, d.table, d.ghost.tags, u'.batchIndex, d.ghost.points, d.batchIds⟩ : MemoryBuffer α) = b0
    obtain ⟨hf1, _, _, _, hf2, _⟩ := insertBatchId_fields (b0.insert u'.batchIndex r.ts r.val) batchId
    have hT : Touched env { u' with
        files := u'.files.filter (fun f => f.path ≠ d.path)
        onDisk := u'.onDisk.filter (fun x => x.hash ≠ calculateTagHash env r.table r.tags) } done :=
      (h.reserved hr).congr (fun _ h => h) (fun b hb => (List.mem_filter.mp hb).1) rfl
    refine hT.place (hf1.trans ?_) hf2 ?_
    · rw [← hb0]; exact hh
    · intro hx
      obtain ⟨x, hx, he⟩ := List.mem_map.mp hx
      have := (List.mem_filter.mp hx).2
      simp [he] at this
  | @created u' hr hi' hm hd =>
    have hT := h.reserved hr
    constructor
    · intro x hx
      dsimp only [putMemory] at hx
      rcases List.mem_append.mp hx with hx | hx
      · rw [List.mem_filter] at hx
        exact other (hT.memory x hx.1) (by simpa using hx.2)
      · rw [List.mem_singleton] at hx
        subst hx
        exact Or.inl ⟨rfl, r, by simp, rfl⟩
    · intro x hx
      exact other (hT.disk x hx) fun he => hd (he ▸ List.mem_map_of_mem hx)

theorem Touched.spillWhileNegative {env : Env α} (hs : Sorts env) {R : List (Row α)} (hg : Good env R) {extra done} (fuel : Nat)
    (u : Uncompressed α) (hk : Known R u extra) (hi : UInv env u extra) (h : Touched env u done) (u' : Uncompressed α)
    (ho : Model.Storage.spillWhileNegative env true fuel u = .ok u' ∨ Model.Storage.spillWhileNegative env true fuel u = .failed u') :
    Touched env u' done := by
  induction fuel generalizing u with
  | zero =>
    unfold Model.Storage.spillWhileNegative at ho
    rcases ho with ho | ho <;> cases ho
    exact h
  | succ fuel ih =>
    unfold Model.Storage.spillWhileNegative at ho
    by_cases hr : u.remaining < 0
    · rw [if_pos hr] at ho
      cases hm : u.inMemory with
      | nil =>
        have : spill env true u = .failed u := by unfold spill; rw [hm]
        rw [this] at ho
        rcases ho with ho | ho <;> cases ho
        exact h
      | cons b rest =>
        obtain ⟨u', h1, h2, h3⟩ := spill_ok hs hi (fresh_of_known hg hk hi) hm
        rw [h1] at ho
        exact ih u' (fun p => by rw [h2.ucount p]; exact hk p) h3 (h.spilled h2) ho
    · rw [if_neg hr] at ho
      rcases ho with ho | ho <;> cases ho
      exact h

theorem touched_step {env : Env α} (hs : Sorts env) {e e' : Engine α} {op : Op α} (hio : Op.ioOk op)
    (h : Inv env e) (hstep : e.step env op = some e') (hg : Good env e'.received) (hop : Op.inside op) {done} (ht : Touched env e.u done) :
    ∃ done', Touched env e'.u done' ∧ (e.current = none → e'.current = none ∧ done' = done) ∧
      ∀ b, e.current = some b → ∃ b', e'.current = some b' ∧ done' ++ b'.rows = done ++ b.rows := by
  have hg0 : Good env e.received := by
    obtain ⟨l, hl⟩ := received_mono hstep
    rw [hl] at hg
    exact hg.mono
  have hsame : ∀ e' : Engine α, (∀ b ∈ e'.u.inMemory, b ∈ e.u.inMemory) → (∀ b ∈ e'.u.onDisk, b ∈ e.u.onDisk) →
      e'.u.batchIndex = e.u.batchIndex → e'.current = e.current →
      ∃ done', Touched env e'.u done' ∧ (e.current = none → e'.current = none ∧ done' = done) ∧
      ∀ b, e.current = some b → ∃ b', e'.current = some b' ∧ done' ++ b'.rows = done ++ b.rows := by
    intro e' h1 h2 h3 h4
    exact ⟨done, ht.congr h1 h2 h3, fun hn => ⟨h4.trans hn, rfl⟩, fun b hb => ⟨b, h4.trans hb, rfl⟩⟩
  cases op with
  | insert table rows batchId size =>
    simp only [Engine.step] at hstep
    split at hstep
    · cases hstep
      exact hsame _ (fun _ h => h) (fun _ h => h) rfl rfl
    · cases hstep
  | flush => cases hstep; exact hsame _ (fun _ h => h) (fun _ h => h) rfl rfl
  | stop => cases hstep; exact hsame _ (fun _ h => h) (fun _ h => h) rfl rfl
  | touchMemory i => cases hstep; exact hsame _ (fun _ h => (toFront_perm _ _).subset h) (fun _ h => h) rfl rfl
  | touchDisk i => cases hstep; exact hsame _ (fun _ h => h) (fun _ h => (toFront_perm _ _).subset h) rfl rfl
  | ingestionTake => exact hop.elim
  | ingestionDone => exact hop.elim
  | ingestionRow io =>
    obtain rfl : io = true := hio
    simp only [Engine.step] at hstep
    split at hstep
    · split at hstep
      · next r rows batchId size hcur =>
        have hr : r ∈ e.received := h.current hcur (by simp)
        rcases insertDataPoint_cases hs h.u (fresh_of_known hg0 h.known h.u) r batchId with ⟨u', h1, h2⟩ | ⟨h1, _⟩ | ⟨h1, _⟩
        · rw [h1] at hstep
          cases hstep
          refine ⟨_, ht.inserted h.u h2, fun hn => ?_, fun b hb => ⟨_, rfl, ?_⟩⟩
          · rw [hcur] at hn; cases hn
          · rw [hcur] at hb; cases hb; simp
        · rw [h1] at hstep
          cases hstep
          exact hsame _ (fun _ h => h) (fun _ h => h) rfl rfl
        · rw [h1] at hstep
          cases hstep
          exact hsame _ (fun _ h => h) (fun _ h => h) rfl rfl
      · cases hstep
    · cases hstep
  | compressionTake =>
    simp only [Engine.step] at hstep
    split at hstep
    · split at hstep <;> cases hstep <;> exact hsame _ (fun _ h => h) (fun _ h => h) rfl rfl
    · cases hstep
  | compressionDone =>
    simp only [Engine.step] at hstep
    split at hstep
    · split at hstep
      · cases hstep
      · split at hstep <;> cases hstep <;> exact hsame _ (fun _ h => h) (fun _ h => h) rfl rfl
    · cases hstep
  | write =>
    simp only [Engine.step] at hstep
    split at hstep
    · split at hstep
      · cases hstep
      all_goals
        obtain ⟨c, _, rfl⟩ := Option.map_eq_some_iff.mp hstep
        exact hsame _ (fun _ h => h) (fun _ h => h) rfl rfl
    · cases hstep
  | adjustIngested change => cases hstep; exact hsame _ (fun _ h => h) (fun _ h => h) rfl rfl
  | adjustUncompressed io change =>
    obtain rfl : io = true := hio
    simp only [Engine.step] at hstep
    have key : ∀ u', (spillWhileNegative env true (e.u.inMemory.length + 1) { e.u with remaining := e.u.remaining + change } = .ok u' ∨
        spillWhileNegative env true (e.u.inMemory.length + 1) { e.u with remaining := e.u.remaining + change } = .failed u') →
        Touched env u' done := fun u' hu' =>
      Touched.spillWhileNegative hs hg0 _ { e.u with remaining := e.u.remaining + change } h.known (h.u.congr rfl rfl rfl rfl)
        (ht.congr (fun _ h => h) (fun _ h => h) rfl) u' hu'
    split at hstep
    · next u hu =>
      cases hstep
      refine ⟨done, ?_, fun hn => ⟨hn, rfl⟩, fun b hb => ⟨b, hb, rfl⟩⟩
      unfold Model.Storage.adjustUncompressed at hu
      split at hu
      · cases hu
      · exact key _ (Or.inl hu)
    · next u hu =>
      cases hstep
      refine ⟨done, ?_, fun hn => ⟨hn, rfl⟩, fun b hb => ⟨b, hb, rfl⟩⟩
      unfold Model.Storage.adjustUncompressed at hu
      split at hu
      · next u' hu' =>
        cases hu
        exact (key _ (Or.inr hu')).congr (fun _ h => h) (fun _ h => h) rfl
      · exact key _ (Or.inr hu)
    · cases hstep
  | adjustCompressed change =>
    simp only [Engine.step] at hstep
    obtain ⟨c, hc, rfl⟩ := Option.map_eq_some_iff.mp hstep
    exact hsame _ (fun _ h => h) (fun _ h => h) rfl rfl

/-- Between two batches. -/
theorem touched_always {env : Env α} (hs : Sorts env) {e e' : Engine α} {op : Op α} (hio : Op.ioOk op)
    (h : Inv env e) (hstep : e.step env op = some e') (hg : Good env e'.received)
    (ht : ∃ done, Touched env e.u done ∧ (e.current = none → done = [])) :
    ∃ done, Touched env e'.u done ∧ (e'.current = none → done = []) := by
  obtain ⟨done, ht, hc⟩ := ht
  by_cases hop : Op.inside op
  · obtain ⟨done', h1, h2, h3⟩ := touched_step hs hio h hstep hg hop ht
    refine ⟨done', h1, fun hn => ?_⟩
    cases hcur : e.current with
    | none => rw [(h2 hcur).2]; exact hc hcur
    | some b =>
      obtain ⟨b', hb', _⟩ := h3 b hcur
      rw [hn] at hb'; cases hb'
  · cases op <;> simp only [Op.inside, not_true_eq_false] at hop
    · simp only [Engine.step] at hstep
      split at hstep
      · next halive =>
        have hcur : e.current = none := by simpa using (Bool.and_eq_true_iff.mp halive).2
        split at hstep
        · cases hstep
        · cases hstep
          exact ⟨[], hc hcur ▸ ht, fun _ => rfl⟩
        all_goals
          cases hstep
          refine ⟨[], ⟨fun b hb => ?_, fun b hb => ?_⟩, fun _ => rfl⟩
          · simp [flushUncompressed] at hb
          · simp [flushUncompressed] at hb
      · cases hstep
    · simp only [Engine.step] at hstep
      split at hstep
      · split at hstep
        · cases hstep
          refine ⟨[], ⟨fun b hb => ?_, fun b hb => ?_⟩, fun _ => rfl⟩
          · simp only [finishBatch, finishUnusedBuffers, List.mem_filter, MemoryBuffer.isUnused] at hb ⊢
            refine Or.inr ⟨?_, by simp⟩
            rcases ht.memory b hb.1 with h1 | h1 <;> omega
          · simp only [finishBatch, finishUnusedBuffers, List.mem_filter, DiskBuffer.isUnused] at hb ⊢
            refine Or.inr ⟨?_, by simp⟩
            rcases ht.disk b hb.1 with h1 | h1 <;> omega
        · cases hstep
      · cases hstep

theorem run_received {env : Env α} {ops : List (Op α)} {e e' : Engine α} (h : e.run env ops = some e') :
    ∃ l, e'.received = e.received ++ l := by
  induction ops generalizing e with
  | nil => cases h; exact ⟨[], by simp⟩
  | cons op ops ih =>
    simp only [Engine.run] at h
    obtain ⟨e₃, h3, h4⟩ := Option.bind_eq_some_iff.mp h
    obtain ⟨l, hl⟩ := ih h4
    obtain ⟨l', hl'⟩ := received_mono h3
    exact ⟨l' ++ l, by rw [hl, hl', List.append_assoc]⟩

theorem run_good {env : Env α} {ops : List (Op α)} {e e' : Engine α} (h : e.run env ops = some e') (hg : Good env e'.received) :
    Good env e.received := by
  obtain ⟨l, hl⟩ := run_received h
  rw [hl] at hg
  exact hg.mono

theorem touched_run {env : Env α} (hs : Sorts env) (hcap : 2 ≤ env.capacity) (ops : List (Op α)) (hio : ∀ op ∈ ops, Op.ioOk op)
    {e e' : Engine α} (h : Good env e.received → Inv env e) (hrun : e.run env ops = some e') (hg : Good env e'.received)
    (ht : ∃ done, Touched env e.u done ∧ (e.current = none → done = [])) :
    ∃ done, Touched env e'.u done ∧ (e'.current = none → done = []) := by
  induction ops generalizing e with
  | nil => cases hrun; exact ht
  | cons op ops ih =>
    simp only [Engine.run] at hrun
    obtain ⟨e₁, h1, h2⟩ := Option.bind_eq_some_iff.mp hrun
    have hg1 := run_good h2 hg
    have hg0 : Good env e.received := by
      obtain ⟨l, hl⟩ := received_mono h1
      rw [hl] at hg1
      exact hg1.mono
    exact ih (fun o ho => hio o (List.mem_cons_of_mem _ ho))
      (fun _ => inv_step hs hcap (hio op (List.mem_cons_self ..)) (h hg0) h1 hg1) h2
      (touched_always hs (hio op (List.mem_cons_self ..)) (h hg0) h1 hg1 ht)

/-- A batch from its first row to its last. -/
theorem touched_inside {env : Env α} (hs : Sorts env) (hcap : 2 ≤ env.capacity) (ops : List (Op α)) (hio : ∀ op ∈ ops, Op.ioOk op)
    (hin : ∀ op ∈ ops, Op.inside op) {e e' : Engine α} (h : Inv env e) (hrun : e.run env ops = some e') (hg : Good env e'.received)
    {done} (ht : Touched env e.u done) {b} (hb : e.current = some b) :
    Inv env e' ∧ ∃ done' b', Touched env e'.u done' ∧ e'.current = some b' ∧ done' ++ b'.rows = done ++ b.rows := by
  induction ops generalizing e done b with
  | nil => cases hrun; exact ⟨h, done, b, ht, hb, rfl⟩
  | cons op ops ih =>
    simp only [Engine.run] at hrun
    obtain ⟨e₁, h1, h2⟩ := Option.bind_eq_some_iff.mp hrun
    have hg1 := run_good h2 hg
    have hio1 := hio op (List.mem_cons_self ..)
    obtain ⟨done', h3, _, h4⟩ := touched_step hs hio1 h h1 hg1 (hin op (List.mem_cons_self ..)) ht
    obtain ⟨b', hb', he⟩ := h4 b hb
    rw [← he]
    exact ih (fun o ho => hio o (List.mem_cons_of_mem _ ho)) (fun o ho => hin o (List.mem_cons_of_mem _ ho))
      (inv_step hs hcap hio1 h h1 hg1) h2 h3 hb'

/-- Spilling does not change the channel. -/
theorem spill_channel {env : Env α} {io : Bool} {u u' : Uncompressed α} (h : spill env io u = .ok u' ∨ spill env io u = .failed u') :
    u'.channel = u.channel := by
  unfold spill at h
  split at h
  · rcases h with h | h <;> cases h
    rfl
  · split at h
    · rcases h with h | h <;> cases h
    · dsimp only at h
      split at h <;> rcases h with h | h <;> cases h <;> rfl

/-- Reserving memory does not change the channel. -/
theorem reserve_channel {env : Env α} {io : Bool} {u u' : Uncompressed α} {table : String}
    (h : reserve env io u table = .ok u' ∨ reserve env io u table = .failed u') : u'.channel = u.channel := by
  unfold reserve at h
  split at h
  · rcases h with h | h <;> cases h
    rfl
  · split at h
    · split at h
      · next u'' hu'' =>
        rcases h with h | h <;> cases h
        exact spill_channel (u' := u'') (Or.inl hu'')
      · exact spill_channel h
    · rcases h with h | h <;> cases h

theorem spillWhileNegative_channel {env : Env α} {io : Bool} (fuel : Nat) {u u' : Uncompressed α}
    (h : spillWhileNegative env io fuel u = .ok u' ∨ spillWhileNegative env io fuel u = .failed u') : u'.channel = u.channel := by
  induction fuel generalizing u with
  | zero =>
    unfold spillWhileNegative at h
    rcases h with h | h <;> cases h
    rfl
  | succ fuel ih =>
    unfold spillWhileNegative at h
    split at h
    · split at h
      · next u'' hu =>
        exact (ih h).trans (spill_channel (Or.inl hu))
      · exact spill_channel h
    · rcases h with h | h <;> cases h
      rfl

theorem adjustUncompressed_channel {env : Env α} {io : Bool} {u u' : Uncompressed α} {change : Int}
    (h : adjustUncompressed env io u change = .ok u' ∨ adjustUncompressed env io u change = .failed u') : u'.channel = u.channel := by
  unfold adjustUncompressed at h
  split at h
  · next u'' hu =>
    rcases h with h | h <;> cases h
    exact spillWhileNegative_channel (u := { u with remaining := u.remaining + change }) (u' := u'') _ (Or.inr hu)
  · exact spillWhileNegative_channel (u := { u with remaining := u.remaining + change }) _ h

theorem insertDataPoint_failed_channel {env : Env α} {io : Bool} {u u' : Uncompressed α} {r : Row α} {batchId}
    (h : insertDataPoint env io u r batchId = .failed u') : u'.channel = u.channel := by
  unfold insertDataPoint at h
  dsimp only at h
  split at h
  · cases h
  · split at h
    · next u'' hu =>
      split at h
      · split at h
        · cases h; exact reserve_channel (Or.inl hu)
        · cases h
      · cases h
    · exact reserve_channel (Or.inr h)

/-- Inserting a row sends nothing but a full buffer. -/
theorem insertDataPoint_channel {env : Env α} {io : Bool} {u u' : Uncompressed α} {r : Row α} {batchId}
    (h : insertDataPoint env io u r batchId = .ok u') :
    u'.channel = u.channel ∨ ∃ b, b.points.length = env.capacity ∧ u'.channel = u.channel ++ [.data (.inMemory b)] := by
  have hplace : ∀ (u : Uncompressed α) b, (placeBuffer env u b).channel = u.channel ∨
      ∃ b' : MemoryBuffer α, b'.points.length = env.capacity ∧ (placeBuffer env u b).channel = u.channel ++ [.data (.inMemory b')] := by
    intro u b
    rw [placeBuffer_channel]
    cases hf : b.isFull env
    · simp
    · exact Or.inr ⟨b, by simpa [MemoryBuffer.isFull] using hf, rfl⟩
  unfold insertDataPoint at h
  dsimp only at h
  split at h
  · cases h
    exact hplace ..
  · split at h
    · next u'' hu =>
      rw [← reserve_channel (Or.inl hu)]
      split at h
      · split at h
        · cases h
        · cases h
          exact hplace { u'' with files := _, onDisk := _ } _
      · cases h
        exact Or.inl rfl
    · next hne => exact absurd h (hne _)

end ModelarDB.Lemmas.Storage
