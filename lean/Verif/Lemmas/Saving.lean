import Verif.Model.Saving
import Verif.Lemmas.StorageCompressed
/-
The compressed data manager when saving fails.
-/
namespace ModelarDB.Lemmas.Saving
open Model.Storage Model.Saving Lemmas.Storage

variable {α : Type}

/-! If every save succeeds, the functions are those of `Model.Storage`. -/

/-- The result of a function that has no errors. -/
def ofOption (lost : List (Chunk α)) : Option (Compressed α) → End (Manager α)
  | some c => .ok ⟨c, [], lost⟩
  | none => .panic

theorem save_ok (c : Compressed α) (lost : List (Chunk α)) (table : String) :
    save ⟨c, [], lost⟩ table = ofOption lost (saveCompressedData c table) := by
  unfold save saveCompressedData
  cases h : c.buffers.find? (fun b => decide (b.1 = table)) <;> simp [ofOption]

theorem freeMemory_ok (size : Nat) (queue : List String) (c : Compressed α) (lost : List (Chunk α)) :
    freeMemory size queue ⟨c, [], lost⟩ = ofOption lost (saveToFreeMemory size queue c) := by
  induction queue generalizing c with
  | nil => unfold freeMemory saveToFreeMemory; dsimp only; split <;> rfl
  | cons table queue ih =>
    unfold freeMemory saveToFreeMemory
    dsimp only
    split
    · rw [save_ok]
      cases saveCompressedData { c with queue := queue } table with
      | none => rfl
      | some c => exact ih c
    · rfl

theorem insert_ok (c : Compressed α) (lost : List (Chunk α)) (x : Chunk α) :
    insertSegments ⟨c, [], lost⟩ x = ofOption lost (insertCompressedSegments c x) := by
  unfold insertSegments insertCompressedSegments
  generalize appendChunk c x = r
  obtain ⟨c', size⟩ := r
  dsimp only
  split
  · rfl
  · rw [freeMemory_ok]
    cases saveToFreeMemory size c'.queue c' <;> rfl

theorem flush_ok (queue : List String) (c : Compressed α) (lost : List (Chunk α)) :
    flush queue ⟨c, [], lost⟩ = ofOption lost (flushCompressed queue c) := by
  induction queue generalizing c with
  | nil => rfl
  | cons table queue ih =>
    unfold flush flushCompressed
    rw [save_ok]
    cases saveCompressedData { c with queue := queue } table with
    | none => rfl
    | some c => exact ih c

/-! What holds whatever fails. -/

/-- The segments in buffers. -/
def buffered (c : Compressed α) : List (Chunk α) := c.buffers.flatMap fun b => b.2.chunks

structure SInv (first : List SaveResult) (m : Manager α) (received : List (Chunk α)) : Prop where
  cinv : CInv m.c
  count : ∀ p : Chunk α → Bool, m.c.saved.countP p + (buffered m.c).countP p + m.lost.countP p = received.countP p
  next : ∀ r ∈ m.next, r ∈ first
  lost : m.lost ≠ [] → .writeFails ∈ first
  names : ∀ b ∈ m.c.buffers, (∀ x ∈ b.2.chunks, x.table = b.1) ∧ b.2.batchIds = b.2.chunks.flatMap (·.batchIds)
  commits : ∀ t id, (t, id) ∈ m.c.commits ↔ ∃ x ∈ m.c.saved, x.table = t ∧ id ∈ x.batchIds

/-- A manager in which a function that ends with an error or success leaves it. -/
def EndInv (first : List SaveResult) (received : List (Chunk α)) : End (Manager α) → Prop
  | .ok m => SInv first m received
  | .error m => SInv first m received
  | .panic => True

theorem SInv.save {first : List SaveResult} {m : Manager α} {received : List (Chunk α)} (h : SInv first m received) {t : String}
    {q : List String} (hq : m.c.queue = t :: q) : EndInv first received (save { m with c := { m.c with queue := q } } t) := by
  have hqueue := h.cinv.queue
  rw [hq] at hqueue
  obtain ⟨⟨t', b⟩, bs, hb, ht, hbs⟩ := List.map_eq_cons_iff.mp hqueue.symm
  obtain rfl : t' = t := ht
  have hn := h.cinv.nodup
  rw [hb, List.map_cons, List.nodup_cons] at hn
  have hfilter : m.c.buffers.filter (fun b => decide (b.1 ≠ t')) = bs := by
    rw [hb, List.filter_cons_of_neg (by simp)]
    exact filter_key_ne Prod.fst hn.1
  have hcinv : ∀ saved commits remaining, CInv (⟨bs, q, remaining, saved, commits⟩ : Compressed α) :=
    fun _ _ _ => ⟨hbs.symm, hn.2⟩
  have hnames : ∀ b ∈ bs, (∀ x ∈ b.2.chunks, x.table = b.1) ∧ b.2.batchIds = b.2.chunks.flatMap (·.batchIds) :=
    fun b' hb' => h.names b' (by rw [hb]; exact List.mem_cons_of_mem _ hb')
  obtain ⟨hb1, hb2⟩ := h.names (t', b) (by rw [hb]; exact List.mem_cons_self ..)
  have hnext : ∀ r ∈ m.next.tail, r ∈ first := fun r hr => h.next r (List.mem_of_mem_tail hr)
  have hcommits : ∀ t id, (t, id) ∈ m.c.commits ++ b.batchIds.map (fun id => (t', id)) ↔
      ∃ x ∈ m.c.saved ++ b.chunks, x.table = t ∧ id ∈ x.batchIds := by
    intro t id
    rw [List.mem_append, h.commits, List.mem_map]
    constructor
    · rintro (⟨x, hx, h1⟩ | ⟨id', hid, he⟩)
      · exact ⟨x, List.mem_append_left _ hx, h1⟩
      · cases he
        rw [hb2, List.mem_flatMap] at hid
        obtain ⟨x, hx, hid⟩ := hid
        exact ⟨x, List.mem_append_right _ hx, hb1 x hx, hid⟩
    · rintro ⟨x, hx, h1, h2⟩
      rcases List.mem_append.mp hx with hx | hx
      · exact Or.inl ⟨x, hx, h1, h2⟩
      · refine Or.inr ⟨id, ?_, ?_⟩
        · rw [hb2, List.mem_flatMap]
          exact ⟨x, hx, h2⟩
        · rw [← h1, hb1 x hx]
  unfold Model.Saving.save
  dsimp only
  rw [hfilter, hb]
  simp only [List.find?_cons, decide_true]
  split
  · next hhead =>
    refine ⟨hcinv _ _ _, fun p => ?_, hnext, fun _ => ?_, hnames, h.commits⟩
    · have := h.count p
      simp only [buffered, hb, List.flatMap_cons, List.countP_append] at this ⊢
      omega
    · cases hm : m.next with
      | nil => rw [hm] at hhead; cases hhead
      | cons r rs =>
        rw [hm] at hhead
        cases (hhead : r = _)
        exact h.next _ (by rw [hm]; exact List.mem_cons_self ..)
  · refine ⟨hcinv _ _ _, fun p => ?_, hnext, h.lost, hnames, hcommits⟩
    have := h.count p
    simp only [buffered, hb, List.flatMap_cons, List.countP_append] at this ⊢
    omega
  · refine ⟨hcinv _ _ _, fun p => ?_, hnext, h.lost, hnames, hcommits⟩
    have := h.count p
    simp only [buffered, hb, List.flatMap_cons, List.countP_append] at this ⊢
    omega

theorem save_queue {m m' : Manager α} {t : String} (h : save m t = .ok m') : m'.c.queue = m.c.queue := by
  unfold save at h
  split at h
  · cases h
  · dsimp only at h
    split at h <;> cases h
    rfl

theorem SInv.freeMemory {first : List SaveResult} {received : List (Chunk α)} (size : Nat) (q : List String) {m : Manager α}
    (h : SInv first m received) (hq : m.c.queue = q) : EndInv first received (freeMemory size q m) := by
  induction q generalizing m with
  | nil =>
    unfold Model.Saving.freeMemory
    split
    · trivial
    · rw [← hq]; exact h
  | cons t q ih =>
    unfold Model.Saving.freeMemory
    split
    · have := h.save hq
      cases hs : Model.Saving.save { m with c := { m.c with queue := q } } t with
      | ok m' =>
        rw [hs] at this
        exact ih this (save_queue hs)
      | error m' => rw [hs] at this; exact this
      | panic => trivial
    · rw [← hq]; exact h

theorem SInv.flush {first : List SaveResult} {received : List (Chunk α)} (q : List String) {m : Manager α}
    (h : SInv first m received) (hq : m.c.queue = q) : EndInv first received (flush q m) := by
  induction q generalizing m with
  | nil =>
    unfold Model.Saving.flush
    rw [← hq]; exact h
  | cons t q ih =>
    unfold Model.Saving.flush
    have := h.save hq
    cases hs : Model.Saving.save { m with c := { m.c with queue := q } } t with
    | ok m' =>
      rw [hs] at this
      exact ih this (save_queue hs)
    | error m' => rw [hs] at this; exact this
    | panic => trivial

theorem SInv.append {first : List SaveResult} {received : List (Chunk α)} {m : Manager α} (h : SInv first m received) (x : Chunk α) :
    SInv first { m with c := (appendChunk m.c x).1 } (received ++ [x]) := by
  obtain ⟨happ, _⟩ := appendChunk_spec h.cinv x
  have hc := happ.cinv h.cinv
  generalize (appendChunk m.c x).1 = c' at happ hc
  cases happ with
  | @existing bs₁ bs₂ b hb =>
    refine ⟨hc, fun p => ?_, h.next, h.lost, ?_, h.commits⟩
    · have := h.count p
      simp only [buffered, hb, List.flatMap_append, List.flatMap_cons, List.countP_append, CompressedBuffer.append] at this ⊢
      omega
    · intro b' hb'
      have hn := h.names
      rw [hb] at hn
      rw [List.mem_append, List.mem_cons] at hb'
      rcases hb' with hb' | rfl | hb'
      · exact hn b' (List.mem_append_left _ hb')
      · obtain ⟨h1, h2⟩ := hn (x.table, b) (List.mem_append_right _ (List.mem_cons_self ..))
        refine ⟨fun y hy => ?_, ?_⟩
        · simp only [CompressedBuffer.append, List.mem_append, List.mem_singleton] at hy
          rcases hy with hy | rfl
          · exact h1 y hy
          · rfl
        · simp only [CompressedBuffer.append, List.flatMap_append, List.flatMap_cons, List.flatMap_nil, List.append_nil]
          exact congrArg (· ++ x.batchIds) h2
      · exact hn b' (List.mem_append_right _ (List.mem_cons_of_mem _ hb'))
  | created hb =>
    refine ⟨hc, fun p => ?_, h.next, h.lost, ?_, h.commits⟩
    · have := h.count p
      simp only [buffered, List.flatMap_append, List.flatMap_cons, List.countP_append, CompressedBuffer.append, List.flatMap_nil,
        List.append_nil, List.nil_append] at this ⊢
      omega
    · intro b' hb'
      rw [List.mem_append, List.mem_singleton] at hb'
      rcases hb' with hb' | rfl
      · exact h.names b' hb'
      · refine ⟨fun y hy => ?_, ?_⟩
        · simp only [CompressedBuffer.append, List.nil_append, List.mem_singleton] at hy
          rw [hy]
        · simp [CompressedBuffer.append]

theorem SInv.remaining {first : List SaveResult} {received : List (Chunk α)} {m : Manager α} (h : SInv first m received) (r : Int) :
    SInv first { m with c := { m.c with remaining := r } } received :=
  ⟨⟨h.cinv.queue, h.cinv.nodup⟩, h.count, h.next, h.lost, h.names, h.commits⟩

theorem SInv.insert {first : List SaveResult} {received : List (Chunk α)} {m : Manager α} (h : SInv first m received) (x : Chunk α) :
    EndInv first (received ++ [x]) (insertSegments m x) := by
  have ha := h.append x
  unfold Model.Saving.insertSegments
  generalize appendChunk m.c x = r at ha
  obtain ⟨c', size⟩ := r
  dsimp only at ha ⊢
  split
  · exact ha.remaining _
  · have := ha.freeMemory size c'.queue rfl
    cases hs : Model.Saving.freeMemory size c'.queue { m with c := c' } with
    | ok m' => rw [hs] at this; exact SInv.remaining this _
    | error m' => rw [hs] at this; exact this
    | panic => trivial

theorem sinv_step {first : List SaveResult} {w w' : Writer α} {op : Model.Saving.Op α} (h : SInv first w.m w.received)
    (hstep : w.step op = some w') : SInv first w'.m w'.received := by
  cases op with
  | data x =>
    simp only [Writer.step] at hstep
    split at hstep
    · cases hstep
    · have := h.insert x
      split at hstep <;> cases hstep
      all_goals next hi => rw [hi] at this; exact this
  | flush =>
    simp only [Writer.step] at hstep
    split at hstep
    · cases hstep
    · have := h.flush _ rfl
      split at hstep <;> cases hstep
      all_goals next hi => rw [hi] at this; exact this
  | adjust change =>
    simp only [Writer.step] at hstep
    have := (h.remaining (w.m.c.remaining + change)).freeMemory 0 w.m.c.queue rfl
    split at hstep <;> cases hstep
    all_goals next hi => rw [hi] at this; exact this

theorem sinv_run {first : List SaveResult} {ops : List (Model.Saving.Op α)} {w w' : Writer α} (h : SInv first w.m w.received)
    (hrun : w.run ops = some w') : SInv first w'.m w'.received := by
  induction ops generalizing w with
  | nil => cases hrun; exact h
  | cons op ops ih =>
    simp only [Writer.run] at hrun
    obtain ⟨w₁, h1, h2⟩ := Option.bind_eq_some_iff.mp hrun
    exact ih (sinv_step h h1) h2

theorem sinv_new (memory : Nat) (next : List SaveResult) : SInv next (Writer.new (α := α) memory next).m [] :=
  ⟨⟨rfl, List.nodup_nil⟩, fun p => by simp [Writer.new, buffered], fun r hr => hr, fun h => absurd rfl h,
    fun b hb => by simp [Writer.new] at hb, fun t id => by simp [Writer.new]⟩

end ModelarDB.Lemmas.Saving
