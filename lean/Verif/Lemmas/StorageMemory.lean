import Verif.Lemmas.StorageFlush
/-
Memory accounting.
-/
namespace ModelarDB.Lemmas.Storage
open Model.Storage Spec.Storage

variable {α : Type}

theorem computeMemorySize_eq (env : Env α) (table : String) : computeMemorySize env table = tableMemory env table := by
  unfold computeMemorySize tableMemory
  rw [Nat.mul_add, Nat.mul_left_comm, Nat.mul_comm 4]

/-! Uncompressed memory. -/

/-- The memory of buffers. -/
def sizes (env : Env α) (l : List (MemoryBuffer α)) : Nat := (l.map fun b => computeMemorySize env b.table).sum

theorem sizes_append (env : Env α) (l l' : List (MemoryBuffer α)) : sizes env (l ++ l') = sizes env l + sizes env l' := by
  simp [sizes]

theorem sizes_cons (env : Env α) (b : MemoryBuffer α) (l : List (MemoryBuffer α)) :
    sizes env (b :: l) = computeMemorySize env b.table + sizes env l := by
  simp [sizes]

theorem sizes_nil (env : Env α) : sizes env ([] : List (MemoryBuffer α)) = 0 := rfl

theorem sizes_filter_hash (env : Env α) {l : List (MemoryBuffer α)} {b : MemoryBuffer α} (hn : (l.map (·.hash)).Nodup) (hb : b ∈ l) :
    sizes env (l.filter (fun y => decide (y.hash ≠ b.hash))) + computeMemorySize env b.table = sizes env l := by
  induction l with
  | nil => cases hb
  | cons y l ih =>
    rw [List.map_cons, List.nodup_cons] at hn
    rcases List.mem_cons.mp hb with rfl | hb
    · rw [List.filter_cons_of_neg (by simp), filter_key_ne (fun b : MemoryBuffer α => b.hash) hn.1, sizes_cons]
      omega
    · have hne : y.hash ≠ b.hash := fun he => hn.1 (he ▸ List.mem_map_of_mem hb)
      rw [List.filter_cons_of_pos (by simpa using hne), sizes_cons, sizes_cons, ← ih hn.2 hb]
      omega

theorem sizes_filter_partition (env : Env α) (l : List (MemoryBuffer α)) (q : MemoryBuffer α → Bool) :
    sizes env (l.filter q) + sizes env (l.filter fun b => !q b) = sizes env l := by
  induction l with
  | nil => rfl
  | cons y l ih => cases hq : q y <;> simp [hq, sizes_cons] <;> omega

theorem sizes_perm (env : Env α) {l l' : List (MemoryBuffer α)} (h : l.Perm l') : sizes env l = sizes env l' :=
  (h.map _).sum_nat

/-- The memory of the manager. -/
def umem (env : Env α) (u : Uncompressed α) : Nat := sizes env u.inMemory + sizes env (u.channel.flatMap memoryRefs)

/-- The difference between what is available or used and what was given without reserving it. -/
def balance (env : Env α) (u : Uncompressed α) : Int := u.remaining + umem env u - u.unreserved

theorem spill_balance {env : Env α} {io : Bool} {u u' : Uncompressed α} (h : spill env io u = .ok u' ∨ spill env io u = .failed u') :
    balance env u' = balance env u := by
  unfold spill at h
  split at h
  · rcases h with h | h <;> cases h; rfl
  · next b rest hb =>
    split at h
    · rcases h with h | h <;> cases h
    · split at h
      · rcases h with h | h <;> cases h
        unfold balance umem
        rw [hb, sizes_cons]
        push_cast
        omega
      · rcases h with h | h <;> cases h
        unfold balance umem
        rw [hb, sizes_cons, sizes_cons]

theorem spillWhileNegative_balance {env : Env α} {io : Bool} (fuel : Nat) {u u' : Uncompressed α}
    (h : spillWhileNegative env io fuel u = .ok u' ∨ spillWhileNegative env io fuel u = .failed u') : balance env u' = balance env u := by
  induction fuel generalizing u with
  | zero => rcases h with h | h <;> cases h; rfl
  | succ fuel ih =>
    unfold spillWhileNegative at h
    split at h
    · cases ho : spill env io u with
      | ok u₁ =>
        rw [ho] at h
        rw [ih h, spill_balance (Or.inl ho)]
      | failed u₁ =>
        rw [ho] at h
        rcases h with h | h <;> cases h
        exact spill_balance (Or.inr ho)
      | wait => rw [ho] at h; rcases h with h | h <;> cases h
      | panic => rw [ho] at h; rcases h with h | h <;> cases h
    · rcases h with h | h <;> cases h; rfl

theorem adjustUncompressed_balance {env : Env α} {io : Bool} {u u' : Uncompressed α} {change : Int} :
    (adjustUncompressed env io u change = .ok u' → balance env u' = balance env u + change) ∧
      (adjustUncompressed env io u change = .failed u' → balance env u' = balance env u) := by
  have hc : balance env { u with remaining := u.remaining + change } = balance env u + change := by
    unfold balance umem; dsimp only; omega
  unfold adjustUncompressed
  cases ho : spillWhileNegative env io (u.inMemory.length + 1) { u with remaining := u.remaining + change } with
  | ok u₁ =>
    refine ⟨fun h => ?_, fun h => by cases h⟩
    cases h
    rw [spillWhileNegative_balance _ (Or.inl ho), hc]
  | failed u₁ =>
    refine ⟨fun h => (by cases h), fun h => ?_⟩
    cases h
    have := spillWhileNegative_balance _ (Or.inr ho)
    rw [hc] at this
    unfold balance umem at this ⊢
    dsimp only at this ⊢
    omega
  | wait => exact ⟨fun h => (by cases h), fun h => by cases h⟩
  | panic => exact ⟨fun h => (by cases h), fun h => by cases h⟩

theorem Reserved.balance {env : Env α} {table} {u u' : Uncompressed α} (h : Reserved env table u u') :
    balance env u' = balance env u - computeMemorySize env table := by
  cases h with
  | counter h => unfold Lemmas.Storage.balance umem; dsimp only; omega
  | @spilled u₁ b h hr hc =>
    have h1 : Lemmas.Storage.balance env u₁ = Lemmas.Storage.balance env u := by
      unfold Lemmas.Storage.balance umem
      rw [h.inMemory, h.channel, sizes_cons, h.remaining, h.unreserved]
      push_cast
      omega
    rw [← h1]
    unfold Lemmas.Storage.balance umem
    dsimp only
    push_cast
    omega

theorem placeBuffer_balance (env : Env α) (u : Uncompressed α) (b : MemoryBuffer α) :
    balance env (placeBuffer env u b) =
      balance env { u with inMemory := u.inMemory.filter (fun x => x.hash ≠ b.hash) } + computeMemorySize env b.table := by
  obtain ⟨_, _, h1, h2, _⟩ := placeBuffer_rest env u b
  unfold balance umem
  rw [h1, h2, placeBuffer_inMemory, placeBuffer_channel]
  cases b.isFull env <;>
    simp only [Bool.false_eq_true, if_true, if_false, List.append_nil, List.flatMap_append, List.flatMap_cons, List.flatMap_nil,
      sizes_append, sizes_cons, sizes_nil, memoryRefs] <;> push_cast <;> omega

theorem Inserted.balance {env : Env α} {extra} {u u' : Uncompressed α} {r : Row α} {batchId} (h : Inserted env extra u r batchId u')
    (hi : UInv env u extra) (hnc : NoCollision env u r) : balance env u' = balance env u := by
  cases h with
  | @existing b hb hh =>
    obtain ⟨h1, h2, _⟩ := insertBatchId_fields (b.insert u.batchIndex r.ts r.val) batchId
    rw [placeBuffer_balance, h1, h2]
    have := sizes_filter_hash env hi.memoryHashes hb
    have ht : (b.insert u.batchIndex r.ts r.val).table = b.table := rfl
    rw [show (b.insert u.batchIndex r.ts r.val).hash = b.hash from rfl, ht]
    unfold Lemmas.Storage.balance umem
    dsimp only
    omega
  | @readBack u₁ d hr hi' hm hd hh =>
    obtain ⟨h1, h2, _⟩ := insertBatchId_fields ((⟨d.hash, d.table, d.ghost.tags, u₁.batchIndex, d.ghost.points, d.batchIds⟩ :
      MemoryBuffer α).insert u₁.batchIndex r.ts r.val) batchId
    obtain ⟨ht, _⟩ := (hnc.reserved hr).disk d hd hh
    have hm' : d.hash ∉ u₁.inMemory.map (·.hash) := by
      rw [hh]
      intro h
      obtain ⟨b, hb, he⟩ := List.mem_map.mp h
      exact hm (he ▸ List.mem_map_of_mem (hr.memory b hb))
    have := hr.balance
    rw [placeBuffer_balance, h1, h2]
    simp only [MemoryBuffer.insert, ht]
    rw [filter_key_ne (fun b : MemoryBuffer α => b.hash) hm']
    unfold Lemmas.Storage.balance umem at this ⊢
    dsimp only at this ⊢
    omega
  | @created u₁ hr hi' hm hd =>
    have hm' : calculateTagHash env r.table r.tags ∉ u₁.inMemory.map (·.hash) := by
      intro h
      obtain ⟨b, hb, he⟩ := List.mem_map.mp h
      exact hm (he ▸ List.mem_map_of_mem (hr.memory b hb))
    have := hr.balance
    unfold Lemmas.Storage.balance umem at this ⊢
    unfold putMemory
    dsimp only at this ⊢
    rw [filter_key_ne (fun b : MemoryBuffer α => b.hash) hm', sizes_append, sizes_cons, sizes_nil]
    push_cast
    omega

theorem send_balance (env : Env α) (u : Uncompressed α) (qm : MemoryBuffer α → Bool) (disk sent : List (DiskBuffer α)) (batchIndex : Nat) :
    balance env { u with
      batchIndex := batchIndex
      inMemory := u.inMemory.filter (fun b => !qm b)
      onDisk := disk
      channel := u.channel ++ (u.inMemory.filter qm).map (fun b => .data (.inMemory b)) ++ sent.map (fun d => .data (.onDisk d)) } =
      balance env u := by
  unfold balance umem
  dsimp only
  have := sizes_filter_partition env u.inMemory qm
  rw [List.flatMap_append, List.flatMap_append, (flatMap_data_memory _).2.2, (flatMap_data_disk _).2.2, sizes_append, sizes_append, sizes_nil]
  omega

theorem flushUncompressed_balance (env : Env α) (u : Uncompressed α) : balance env (flushUncompressed u) = balance env u := by
  have := send_balance env u (fun _ => true) [] u.onDisk u.batchIndex
  simp only [filter_false, List.filter_true] at this
  exact this

theorem finishBatch_balance (env : Env α) (u : Uncompressed α) : balance env (finishBatch u) = balance env u :=
  send_balance env u (fun b => b.isUnused u.batchIndex) _ _ _

/-- The buffer in memory that is being compressed. -/
def memoryOf : Option (Buffer α) → List (MemoryBuffer α)
  | some (.inMemory b) => [b]
  | _ => []

/-- Uncompressed memory is accounted for except for what was given without reserving it. -/
def UAcc (env : Env α) (e : Engine α) : Prop := balance env e.u + sizes env (memoryOf e.compressing) = e.uncompressedBudget

theorem uacc_new (env : Env α) (i u c : Nat) : UAcc env (Engine.new i u c) := by
  simp [UAcc, Engine.new, balance, umem, sizes, memoryOf]

theorem uacc_step {env : Env α} (hs : Sorts env) {e e' : Engine α} {op : Op α} (hio : Op.ioOk op)
    (h : Inv env e) (hstep : e.step env op = some e') (hg : Good env e'.received) (ha : UAcc env e) : UAcc env e' := by
  have hg0 : Good env e.received := by
    obtain ⟨l, hl⟩ := received_mono hstep
    rw [hl] at hg
    exact hg.mono
  unfold UAcc at ha ⊢
  cases op with
  | insert table rows batchId size =>
    simp only [Engine.step] at hstep
    split at hstep
    · cases hstep; exact ha
    · cases hstep
  | flush => cases hstep; exact ha
  | stop => cases hstep; exact ha
  | adjustIngested change => cases hstep; exact ha
  | touchMemory i =>
    cases hstep
    rw [← ha]
    unfold balance umem
    dsimp only
    rw [sizes_perm env (toFront_perm e.u.inMemory i)]
  | touchDisk i => cases hstep; exact ha
  | ingestionTake =>
    simp only [Engine.step] at hstep
    split at hstep
    · split at hstep
      · cases hstep
      · cases hstep; exact ha
      all_goals
        cases hstep
        rw [← ha, ← flushUncompressed_balance env e.u]
        unfold balance umem
        simp [memoryRefs]
    · cases hstep
  | ingestionRow io =>
    obtain rfl : io = true := hio
    simp only [Engine.step] at hstep
    split at hstep
    · split at hstep
      · next r rows batchId size hcur =>
        have hr : r ∈ e.received := h.current hcur (by simp)
        have hnc := noCollision_of_known hg0 h.known h.u hr
        rcases insertDataPoint_cases hs h.u (fresh_of_known hg0 h.known h.u) r batchId with ⟨u', h1, h2⟩ | ⟨h1, _⟩ | ⟨h1, _⟩
        · rw [h1] at hstep
          cases hstep
          dsimp only
          rw [h2.balance h.u hnc]
          exact ha
        · rw [h1] at hstep
          cases hstep
          exact ha
        · rw [h1] at hstep
          cases hstep
          exact ha
      · cases hstep
    · cases hstep
  | ingestionDone =>
    simp only [Engine.step] at hstep
    split at hstep
    · split at hstep
      · cases hstep
        dsimp only
        rw [finishBatch_balance]
        exact ha
      · cases hstep
    · cases hstep
  | compressionTake =>
    simp only [Engine.step] at hstep
    split at hstep
    · next halive =>
      have hcomp : e.compressing = none := by simpa using (Bool.and_eq_true_iff.mp halive).2
      split at hstep
      · cases hstep
      all_goals
        next hq =>
        cases hstep
        rw [← ha]
        unfold balance umem
        rw [hq, List.flatMap_cons, sizes_append, hcomp]
        dsimp only
        first
        | next b _ => cases b <;> simp [memoryOf, memoryRefs, sizes_nil, sizes_cons] <;> omega
    · cases hstep
  | compressionDone =>
    simp only [Engine.step] at hstep
    split at hstep
    · split at hstep
      · cases hstep
      · next b hcomp =>
        rw [hcomp] at ha
        split at hstep
        · cases hstep
          dsimp only
          rw [hcomp]
          exact ha
        · next chunk files memory hf =>
          cases hstep
          rcases b with b | d
          · cases hf
            unfold balance umem at ha ⊢
            simp only [memoryOf, sizes_nil, sizes_cons] at ha ⊢
            push_cast at ha ⊢
            omega
          · simp only [compressFinishedBuffer] at hf
            split at hf
            · cases hf
            · cases hf
              unfold balance umem at ha ⊢
              simp only [memoryOf, sizes_nil] at ha ⊢
              push_cast at ha ⊢
              omega
    · cases hstep
  | write =>
    simp only [Engine.step] at hstep
    split at hstep
    · split at hstep
      · cases hstep
      all_goals
        obtain ⟨c, hc, rfl⟩ := Option.map_eq_some_iff.mp hstep
        exact ha
    · cases hstep
  | adjustUncompressed io change =>
    simp only [Engine.step] at hstep
    split at hstep
    · next hu =>
      cases hstep
      dsimp only
      rw [adjustUncompressed_balance.1 hu, ← ha]
      omega
    · next hu =>
      cases hstep
      dsimp only
      rw [adjustUncompressed_balance.2 hu]
      exact ha
    · cases hstep
  | adjustCompressed change =>
    obtain ⟨c, hc, rfl⟩ := Option.map_eq_some_iff.mp hstep
    exact ha

theorem uacc_run {env : Env α} (hs : Sorts env) (hcap : 2 ≤ env.capacity) (ops : List (Op α)) (hio : ∀ op ∈ ops, Op.ioOk op)
    {e e' : Engine α} (h : Inv env e) (ha : UAcc env e) (hrun : e.run env ops = some e') (hg : Good env e'.received) : UAcc env e' := by
  induction ops generalizing e with
  | nil => cases hrun; exact ha
  | cons op ops ih =>
    simp only [Engine.run] at hrun
    obtain ⟨e₁, h1, h2⟩ := Option.bind_eq_some_iff.mp hrun
    have hg1 := run_good h2 hg
    have hio1 := hio op (List.mem_cons_self ..)
    exact ih (fun o ho => hio o (List.mem_cons_of_mem _ ho)) (inv_step hs hcap hio1 h h1 hg1)
      (uacc_step hs hio1 h h1 hg1 ha) h2

theorem uncompressedMemory_eq (env : Env α) (e : Engine α) :
    uncompressedMemory env e = umem env e.u + sizes env (memoryOf e.compressing) := by
  have hm : ∀ l : List (MemoryBuffer α), ((l.map Buffer.inMemory).map (bufferMemory env)).sum = sizes env l := by
    intro l
    rw [List.map_map]
    unfold sizes
    refine congrArg _ (List.map_congr_left fun b _ => ?_)
    rw [computeMemorySize_eq]; rfl
  have hd : ∀ l : List (DiskBuffer α), ((l.map Buffer.onDisk).map (bufferMemory env)).sum = 0 := by
    intro l
    induction l with
    | nil => rfl
    | cons d l ih => simpa [bufferMemory] using ih
  have hc : ∀ l : List (Message (Buffer α)), ((l.flatMap messageData).map (bufferMemory env)).sum = sizes env (l.flatMap memoryRefs) := by
    intro l
    induction l with
    | nil => rfl
    | cons m l ih =>
      rw [List.flatMap_cons, List.flatMap_cons, List.map_append, List.sum_append_nat, ih, sizes_append]
      congr 1
      rcases m with (b | d) | _ | _ <;> simp [messageData, memoryRefs, sizes, bufferMemory, computeMemorySize_eq]
  have hx : (e.compressing.toList.map (bufferMemory env)).sum = sizes env (memoryOf e.compressing) := by
    rcases e.compressing with _ | b | d <;> simp [memoryOf, sizes, bufferMemory, computeMemorySize_eq]
  unfold uncompressedMemory umem openBuffers finishedBuffers
  rw [List.map_append, List.map_append, List.map_append, List.sum_append_nat, List.sum_append_nat, List.sum_append_nat, hm, hd, hx]
  have := hc e.u.channel
  omega

/-! Ingested memory. -/

theorem iacc_step {env : Env α} {e e' : Engine α} {op : Op α} (hstep : e.step env op = some e')
    (h : e.ingestedRemaining + ingestedMemory e = e.ingestedBudget) : e'.ingestedRemaining + ingestedMemory e' = e'.ingestedBudget := by
  unfold ingestedMemory at h ⊢
  cases op with
  | insert table rows batchId size =>
    simp only [Engine.step] at hstep
    split at hstep
    · cases hstep
      simp only [List.flatMap_append, List.flatMap_cons, List.flatMap_nil, messageData, List.map_append, List.sum_append_nat, List.map_cons,
        List.map_nil, List.sum_cons, List.sum_nil, List.append_nil] at h ⊢
      push_cast at h ⊢
      omega
    · cases hstep
  | flush => cases hstep; simpa [messageData] using h
  | stop => cases hstep; simpa [messageData] using h
  | adjustIngested change => cases hstep; dsimp only at h ⊢; omega
  | touchMemory i => cases hstep; exact h
  | touchDisk i => cases hstep; exact h
  | ingestionTake =>
    simp only [Engine.step] at hstep
    split at hstep
    · next halive =>
      have hcur : e.current = none := by simpa using (Bool.and_eq_true_iff.mp halive).2
      split at hstep
      · cases hstep
      all_goals
        next hq =>
        cases hstep
        rw [hq, hcur] at h
        simpa [messageData, hcur] using h
    · cases hstep
  | ingestionRow io =>
    simp only [Engine.step] at hstep
    split at hstep
    · split at hstep
      · next hcur =>
        rw [hcur] at h
        split at hstep <;> cases hstep
        · exact h
        · dsimp only; rw [hcur]; exact h
        · dsimp only; rw [hcur]; exact h
      · cases hstep
    · cases hstep
  | ingestionDone =>
    simp only [Engine.step] at hstep
    split at hstep
    · split at hstep
      · next hcur =>
        cases hstep
        rw [hcur] at h
        simp only [Option.toList_some, List.cons_append, List.nil_append, List.map_cons, List.sum_cons, Option.toList_none] at h ⊢
        push_cast at h
        omega
      · cases hstep
    · cases hstep
  | compressionTake =>
    simp only [Engine.step] at hstep
    split at hstep
    · split at hstep <;> cases hstep <;> exact h
    · cases hstep
  | compressionDone =>
    simp only [Engine.step] at hstep
    split at hstep
    · split at hstep
      · cases hstep
      · split at hstep <;> cases hstep <;> exact h
    · cases hstep
  | write =>
    simp only [Engine.step] at hstep
    split at hstep
    · split at hstep
      · cases hstep
      all_goals
        obtain ⟨c, hc, rfl⟩ := Option.map_eq_some_iff.mp hstep
        exact h
    · cases hstep
  | adjustUncompressed io change =>
    simp only [Engine.step] at hstep
    split at hstep <;> cases hstep <;> exact h
  | adjustCompressed change =>
    obtain ⟨c, hc, rfl⟩ := Option.map_eq_some_iff.mp hstep
    exact h

/-! Compressed memory. -/

/-- The memory of segments. -/
def chunkSizes (l : List (Chunk α)) : Nat := (l.map fun c => c.sizes.sum).sum

/-- The memory of segments in buffers. -/
def trueSize (bs : List (String × CompressedBuffer α)) : Nat := (bs.map fun b => chunkSizes b.2.chunks).sum

theorem chunkSizes_append (l l' : List (Chunk α)) : chunkSizes (l ++ l') = chunkSizes l + chunkSizes l' := by simp [chunkSizes]

theorem trueSize_append (l l' : List (String × CompressedBuffer α)) : trueSize (l ++ l') = trueSize l + trueSize l' := by
  simp [trueSize]

theorem trueSize_eq (e : Engine α) : compressedMemory e = trueSize e.c.buffers := by
  unfold compressedMemory trueSize
  induction e.c.buffers with
  | nil => rfl
  | cons b bs ih =>
    rw [List.flatMap_cons, List.map_append, List.sum_append_nat, ih, List.map_cons, List.sum_cons]
    rfl

/-- The recorded size of a buffer is at least its size and, if `single`, its size. -/
def SizesOk (single : Prop) (bs : List (String × CompressedBuffer α)) : Prop :=
  ∀ b ∈ bs, chunkSizes b.2.chunks ≤ b.2.size ∧ (single → b.2.size = chunkSizes b.2.chunks)

theorem SizesOk.total {single : Prop} {bs : List (String × CompressedBuffer α)} (h : SizesOk single bs) :
    trueSize bs ≤ sizeOf bs ∧ (single → sizeOf bs = trueSize bs) := by
  induction bs with
  | nil => exact ⟨Nat.le_refl _, fun _ => rfl⟩
  | cons b bs ih =>
    obtain ⟨h1, h2⟩ := h b (List.mem_cons_self ..)
    obtain ⟨h3, h4⟩ := ih fun x hx => h x (List.mem_cons_of_mem _ hx)
    simp only [trueSize, sizeOf, List.map_cons, List.sum_cons] at h3 h4 ⊢
    refine ⟨by omega, fun hs => ?_⟩
    have := h2 hs
    have := h4 hs
    omega

theorem SizesOk.sub {single : Prop} {bs bs' : List (String × CompressedBuffer α)} (h : SizesOk single bs) (hs : ∀ b ∈ bs', b ∈ bs) :
    SizesOk single bs' := fun b hb => h b (hs b hb)

theorem append_size {b : CompressedBuffer α} {x : Chunk α} {single : Prop} (hx : single → x.sizes.length ≤ 1)
    (hb : chunkSizes b.chunks ≤ b.size ∧ (single → b.size = chunkSizes b.chunks)) :
    chunkSizes (b.append x).1.chunks = chunkSizes b.chunks + x.sizes.sum ∧
      (chunkSizes (b.append x).1.chunks ≤ (b.append x).1.size ∧ (single → (b.append x).1.size = chunkSizes (b.append x).1.chunks)) := by
  have h1 : chunkSizes (b.append x).1.chunks = chunkSizes b.chunks + x.sizes.sum := by
    simp [CompressedBuffer.append, chunkSizes]
  refine ⟨h1, ?_, fun hs => ?_⟩
  · rw [h1]
    have := appendSizes_snd x.sizes b.size
    simp only [CompressedBuffer.append]
    omega
  · rw [h1]
    simp only [CompressedBuffer.append]
    rw [appendSizes_single (hx hs), hb.2 hs]

theorem Appended.sizes {single : Prop} {c c' : Compressed α} {x : Chunk α} (h : Appended c x c') (hx : single → x.sizes.length ≤ 1)
    (hs : SizesOk single c.buffers) : trueSize c'.buffers = trueSize c.buffers + x.sizes.sum ∧ SizesOk single c'.buffers ∧
      c'.remaining = c.remaining := by
  cases h with
  | @existing bs₁ bs₂ b hb =>
    obtain ⟨h1, h2⟩ := append_size hx (hs (x.table, b) (by simp [hb]))
    refine ⟨?_, ?_, rfl⟩
    · simp only [hb, trueSize, List.map_append, List.map_cons, List.sum_append_nat, List.sum_cons, h1]
      omega
    · intro y hy
      simp only [List.mem_append, List.mem_cons] at hy
      rcases hy with hy | rfl | hy
      · exact hs y (by simp [hb, hy])
      · exact h2
      · exact hs y (by simp [hb, hy])
  | created hb =>
    obtain ⟨h1, h2⟩ := append_size (b := (⟨[], 0, []⟩ : CompressedBuffer α)) hx ⟨Nat.le_refl _, fun _ => rfl⟩
    refine ⟨?_, ?_, rfl⟩
    · simp only [trueSize, List.map_append, List.map_cons, List.sum_append_nat, List.sum_cons, h1, List.map_nil, List.sum_nil]
      simp [chunkSizes]
    · intro y hy
      simp only [List.mem_append, List.mem_singleton] at hy
      rcases hy with hy | rfl
      · exact hs y hy
      · exact h2

theorem saveFirst_sizes {single : Prop} {c : Compressed α} (hs : SizesOk single c.buffers) (k : Nat) :
    SizesOk single (saveFirst k c).buffers ∧
      c.remaining + trueSize c.buffers ≤ (saveFirst k c).remaining + trueSize (saveFirst k c).buffers ∧
      (single → (saveFirst k c).remaining + trueSize (saveFirst k c).buffers = c.remaining + trueSize c.buffers) := by
  have h1 : SizesOk single (c.buffers.take k) := hs.sub fun b hb => List.mem_of_mem_take hb
  obtain ⟨h2, h3⟩ := h1.total
  have h4 : trueSize c.buffers = trueSize (c.buffers.take k) + trueSize (c.buffers.drop k) := by
    rw [← trueSize_append, List.take_append_drop]
  refine ⟨hs.sub fun b hb => List.mem_of_mem_drop hb, ?_, fun hsi => ?_⟩
  · simp only [saveFirst]
    rw [h4]
    push_cast
    omega
  · simp only [saveFirst]
    have := h3 hsi
    rw [h4]
    push_cast
    omega

/-- Compressed memory is accounted for except that too much is returned, unless no table has several field columns (`single`). -/
structure CAcc (single : Prop) (e : Engine α) : Prop where
  inv : CInv e.c
  sizes : SizesOk single e.c.buffers
  sent : single → ∀ x ∈ e.compressed.flatMap messageData, x.sizes.length ≤ 1
  ge : e.compressedBudget ≤ e.c.remaining + trueSize e.c.buffers
  eq : single → e.c.remaining + trueSize e.c.buffers = e.compressedBudget

theorem cacc_new (single : Prop) (i u c : Nat) : CAcc single (Engine.new (α := α) i u c) := by
  refine ⟨⟨rfl, List.nodup_nil⟩, fun b hb => (by cases hb), fun _ x hx => (by cases hx), ?_, fun _ => ?_⟩ <;>
    simp [Engine.new, trueSize]

theorem CAcc.congr {single : Prop} {e e' : Engine α} (h : CAcc single e) (h1 : e'.c = e.c) (h2 : e'.compressed = e.compressed)
    (h3 : e'.compressedBudget = e.compressedBudget) : CAcc single e' :=
  ⟨by rw [h1]; exact h.inv, by rw [h1]; exact h.sizes, by rw [h2]; exact h.sent, by rw [h1, h3]; exact h.ge, by rw [h1, h3]; exact h.eq⟩

theorem cacc_write {single : Prop} {e e' : Engine α} (h : CAcc single e) (k : Nat) (h1 : e'.c = saveFirst k e.c)
    (h2 : ∀ x ∈ e'.compressed.flatMap messageData, x ∈ e.compressed.flatMap messageData) (h3 : e'.compressedBudget = e.compressedBudget) :
    CAcc single e' := by
  obtain ⟨h4, h5, h6⟩ := saveFirst_sizes h.sizes k
  have := h.ge
  refine ⟨by rw [h1]; exact saveFirst_cinv h.inv k, by rw [h1]; exact h4, fun hs x hx => h.sent hs x (h2 x hx), ?_, fun hs => ?_⟩
  · rw [h1, h3]; omega
  · rw [h1, h3, h6 hs, h.eq hs]

/-- Segments can always be added and written, if the budget is not negative. -/
theorem CAcc.insert {single : Prop} {e : Engine α} (h : CAcc single e) {x : Chunk α} (hx : single → x.sizes.length ≤ 1) :
    ∃ c₁ k, Appended e.c x c₁ ∧ (insertCompressedSegments e.c x =
      some { saveFirst k c₁ with remaining := (saveFirst k c₁).remaining - x.sizes.sum } ∨
        (insertCompressedSegments e.c x = none ∧ e.compressedBudget < 0)) := by
  obtain ⟨c₁, h1, ⟨k, _, h2, _⟩ | ⟨h2, h3⟩⟩ := insertCompressedSegments_spec h.inv x
  · exact ⟨c₁, k, h1, Or.inl h2⟩
  · refine ⟨c₁, 0, h1, Or.inr ⟨h2, ?_⟩⟩
    obtain ⟨h4, h5, h6⟩ := h1.sizes hx h.sizes
    have := h5.total.1
    have := h.ge
    omega

theorem cacc_step {single : Prop} {env : Env α} (hsi : single → ∀ t points, (env.segmentSizes t points).length ≤ 1) {e e' : Engine α}
    {op : Op α} (hstep : e.step env op = some e') (h : CAcc single e) : CAcc single e' := by
  cases op with
  | insert table rows batchId size =>
    simp only [Engine.step] at hstep
    split at hstep
    · cases hstep; exact h.congr rfl rfl rfl
    · cases hstep
  | flush => cases hstep; exact h.congr rfl rfl rfl
  | stop => cases hstep; exact h.congr rfl rfl rfl
  | adjustIngested change => cases hstep; exact h.congr rfl rfl rfl
  | touchMemory i => cases hstep; exact h.congr rfl rfl rfl
  | touchDisk i => cases hstep; exact h.congr rfl rfl rfl
  | ingestionTake =>
    simp only [Engine.step] at hstep
    split at hstep
    · split at hstep <;> cases hstep <;> exact h.congr rfl rfl rfl
    · cases hstep
  | ingestionRow io =>
    simp only [Engine.step] at hstep
    split at hstep
    · split at hstep
      · split at hstep <;> cases hstep <;> exact h.congr rfl rfl rfl
      · cases hstep
    · cases hstep
  | ingestionDone =>
    simp only [Engine.step] at hstep
    split at hstep
    · split at hstep <;> cases hstep; exact h.congr rfl rfl rfl
    · cases hstep
  | compressionTake =>
    simp only [Engine.step] at hstep
    split at hstep
    · split at hstep <;> cases hstep
      · exact h.congr rfl rfl rfl
      · exact ⟨h.inv, h.sizes, fun hs x hx => h.sent hs x (by simpa [messageData] using hx), h.ge, h.eq⟩
      · exact ⟨h.inv, h.sizes, fun hs x hx => h.sent hs x (by simpa [messageData] using hx), h.ge, h.eq⟩
    · cases hstep
  | compressionDone =>
    simp only [Engine.step] at hstep
    split at hstep
    · split at hstep
      · cases hstep
      · next b hb =>
        split at hstep
        · cases hstep; exact h.congr rfl rfl rfl
        · next chunk files memory hf =>
          cases hstep
          refine ⟨h.inv, h.sizes, fun hs x hx => ?_, h.ge, h.eq⟩
          simp only [List.flatMap_append, List.mem_append, List.flatMap_cons, List.flatMap_nil, messageData, List.append_nil,
            List.mem_singleton] at hx
          rcases hx with hx | rfl
          · exact h.sent hs x hx
          · rcases b with b | d
            · cases hf
              exact hsi hs _ _
            · simp only [compressFinishedBuffer] at hf
              split at hf
              · cases hf
              · cases hf
                exact hsi hs _ _
    · cases hstep
  | write =>
    simp only [Engine.step] at hstep
    split at hstep
    · split at hstep
      · cases hstep
      · next chunk rest hq =>
        obtain ⟨c, hc, rfl⟩ := Option.map_eq_some_iff.mp hstep
        have hsent := h.sent
        rw [hq] at hsent
        have hx : single → chunk.sizes.length ≤ 1 := fun hs => hsent hs chunk (by simp [messageData])
        obtain ⟨c₁, k, h1, h2 | ⟨h2, _⟩⟩ := h.insert hx
        · rw [h2] at hc
          cases hc
          obtain ⟨h3, h4, h5⟩ := h1.sizes hx h.sizes
          obtain ⟨h6, h7, h8⟩ := saveFirst_sizes h4 k
          have hge := h.ge
          have hci := saveFirst_cinv (h1.cinv h.inv) k
          refine ⟨⟨hci.queue, hci.nodup⟩, h6, fun hs x hx => hsent hs x (by simp [hx]), ?_, fun hs => ?_⟩
          · dsimp only
            omega
          · have := h8 hs
            have := h.eq hs
            dsimp only
            omega
        · rw [h2] at hc; cases hc
      all_goals
        next n rest hq =>
        obtain ⟨c, hc, rfl⟩ := Option.map_eq_some_iff.mp hstep
        rw [flushCompressed_spec _ _ rfl h.inv] at hc
        cases hc
        exact cacc_write h _ rfl (fun x hx => by rw [hq]; simpa [messageData] using hx) rfl
    · cases hstep
  | adjustUncompressed io change =>
    simp only [Engine.step] at hstep
    split at hstep <;> cases hstep <;> exact h.congr rfl rfl rfl
  | adjustCompressed change =>
    obtain ⟨c, hc, rfl⟩ := Option.map_eq_some_iff.mp hstep
    have h' : CAcc single { e with c := { e.c with remaining := e.c.remaining + change }, compressedBudget := e.compressedBudget + change } := by
      refine ⟨⟨h.inv.queue, h.inv.nodup⟩, h.sizes, h.sent, ?_, fun hs => ?_⟩
      · have := h.ge
        dsimp only
        omega
      · have := h.eq hs
        dsimp only
        omega
    unfold Model.Storage.adjustCompressed at hc
    rcases saveToFreeMemory_spec 0 _ _ rfl h'.inv with ⟨k, _, h1, _⟩ | ⟨h1, _⟩
    · dsimp only at h1
      rw [h1] at hc
      cases hc
      exact cacc_write h' k rfl (fun x hx => hx) rfl
    · dsimp only at h1
      rw [h1] at hc
      cases hc

theorem run_induction {env : Env α} {P : Engine α → Prop} (hstep : ∀ e e' op, e.step env op = some e' → P e → P e')
    {ops : List (Op α)} {e e' : Engine α} (h : P e) (hrun : e.run env ops = some e') : P e' := by
  induction ops generalizing e with
  | nil => cases hrun; exact h
  | cons op ops ih =>
    simp only [Engine.run] at hrun
    obtain ⟨e₁, h1, h2⟩ := Option.bind_eq_some_iff.mp hrun
    exact ih (hstep e e₁ op h1 h) h2

end ModelarDB.Lemmas.Storage
