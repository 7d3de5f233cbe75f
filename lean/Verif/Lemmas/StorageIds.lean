import Verif.Lemmas.StorageEngine
import Verif.Lemmas.StorageIdle
/-
The ids of the batches travel with the rows of the batches.
-/
namespace ModelarDB.Lemmas.Storage
open Model.Storage Spec.Storage

variable {α : Type}

/-- A table, rows of the table and ids of batches. -/
structure Item (α : Type) where
  table : String
  rows : List (Row α)
  ids : List Nat

/-- The batches given to the write-ahead log. -/
abbrev Batches (α : Type) := List (String × Nat × List (Row α))

def memoryItem (b : MemoryBuffer α) : Item α := ⟨b.table, memoryRows b, b.batchIds⟩

def diskItem (d : DiskBuffer α) : Item α := ⟨d.table, ghostRows d, d.batchIds⟩

def bufferItem : Buffer α → Item α
  | .inMemory b => memoryItem b
  | .onDisk d => diskItem d

def chunkItem (c : Chunk α) : Item α := ⟨c.table, chunkRows c, c.batchIds⟩

/-- The ids are the ids of the batches the rows are from. -/
structure ItemOk (B : Batches α) (x : Item α) : Prop where
  rows : ∀ r ∈ x.rows, ∀ b ∈ B, r ∈ b.2.2 → b.1 = x.table ∧ b.2.1 ∈ x.ids
  ids : ∀ id ∈ x.ids, ∃ b ∈ B, b.1 = x.table ∧ b.2.1 = id ∧ ∃ r ∈ x.rows, r ∈ b.2.2

/-- The id of rows that are not inserted is the id of the batch they are from. -/
structure IngestedOk (B : Batches α) (i : Ingested α) : Prop where
  rows : ∀ r ∈ i.rows, ∀ b ∈ B, r ∈ b.2.2 → i.batchId = some b.2.1
  ids : ∀ id, i.batchId = some id → ∃ b ∈ B, b.2.1 = id ∧ ∀ r ∈ i.rows, r ∈ b.2.2

theorem ItemOk.congr {B : Batches α} {x y : Item α} (h : ItemOk B x) (ht : y.table = x.table) (hr : ∀ r, r ∈ y.rows ↔ r ∈ x.rows)
    (hi : ∀ i, i ∈ y.ids ↔ i ∈ x.ids) : ItemOk B y := by
  constructor
  · intro r hr' b hb hrb
    rw [ht, hi]
    exact h.rows r ((hr r).mp hr') b hb hrb
  · intro id hid
    obtain ⟨b, hb, h1, h2, r, h3, h4⟩ := h.ids id ((hi id).mp hid)
    exact ⟨b, hb, h1.trans ht.symm, h2, r, (hr r).mpr h3, h4⟩

theorem ItemOk.mono {B B' : Batches α} {x : Item α} (h : ItemOk B x) (hn : ∀ r ∈ x.rows, ∀ b ∈ B', r ∉ b.2.2) : ItemOk (B ++ B') x := by
  constructor
  · intro r hr b hb hrb
    rcases List.mem_append.mp hb with hb | hb
    · exact h.rows r hr b hb hrb
    · exact absurd hrb (hn r hr b hb)
  · intro id hid
    obtain ⟨b, hb, h1⟩ := h.ids id hid
    exact ⟨b, List.mem_append_left _ hb, h1⟩

theorem IngestedOk.mono {B B' : Batches α} {x : Ingested α} (h : IngestedOk B x) (hn : ∀ r ∈ x.rows, ∀ b ∈ B', r ∉ b.2.2) :
    IngestedOk (B ++ B') x := by
  constructor
  · intro r hr b hb hrb
    rcases List.mem_append.mp hb with hb | hb
    · exact h.rows r hr b hb hrb
    · exact absurd hrb (hn r hr b hb)
  · intro id hid
    obtain ⟨b, hb, h1⟩ := h.ids id hid
    exact ⟨b, List.mem_append_left _ hb, h1⟩

/-- The uncompressed data manager. -/
structure UIds (B : Batches α) (u : Uncompressed α) : Prop where
  memory : ∀ b ∈ u.inMemory, ItemOk B (memoryItem b)
  disk : ∀ d ∈ u.onDisk, ItemOk B (diskItem d)
  channel : ∀ b, .data b ∈ u.channel → ItemOk B (bufferItem b)

/-- The compressed data manager. -/
structure CIds (B : Batches α) (c : Compressed α) : Prop where
  saved : ∀ x ∈ c.saved, ItemOk B (chunkItem x)
  buffers : ∀ b ∈ c.buffers, ∀ x ∈ b.2.chunks, x.table = b.1 ∧ ItemOk B (chunkItem x)
  bufferIds : ∀ b ∈ c.buffers, ∀ id, id ∈ b.2.batchIds ↔ ∃ x ∈ b.2.chunks, id ∈ x.batchIds
  commits : ∀ t id, (t, id) ∈ c.commits ↔ ∃ x ∈ c.saved, x.table = t ∧ id ∈ x.batchIds

structure Ids (e : Engine α) : Prop where
  u : UIds e.batches e.u
  c : CIds e.batches e.c
  compressing : ∀ b, e.compressing = some b → ItemOk e.batches (bufferItem b)
  compressed : ∀ x, .data x ∈ e.compressed → ItemOk e.batches (chunkItem x)
  current : ∀ i, e.current = some i → IngestedOk e.batches i
  ingested : ∀ i, .data i ∈ e.ingested → IngestedOk e.batches i
  batches : ∀ b ∈ e.batches, ∀ r ∈ b.2.2, r ∈ e.received ∧ r.table = b.1

theorem ids_new (i u c : Nat) : Ids (Engine.new (α := α) i u c) := by
  refine ⟨⟨?_, ?_, ?_⟩, ⟨?_, ?_, ?_, ?_⟩, ?_, ?_, ?_, ?_, ?_⟩ <;> simp [Engine.new]

/-! The uncompressed data manager. -/

theorem UIds.spilled {env : Env α} {B : Batches α} {u u' : Uncompressed α} {b} (h : UIds B u) (hs : Spilled env u u' b) : UIds B u' := by
  refine ⟨fun x hx => h.memory x (by rw [hs.inMemory]; exact List.mem_cons_of_mem _ hx), fun d hd => ?_, by rw [hs.channel]; exact h.channel⟩
  obtain ⟨d', h1, _, h3, _, h4, h5, h6, _⟩ := hs.disk
  rw [h1, List.mem_append, List.mem_singleton] at hd
  rcases hd with hd | rfl
  · exact h.disk d hd
  · refine (h.memory b (by rw [hs.inMemory]; exact List.mem_cons_self ..)).congr h3 (fun r => ?_) (fun i => ?_)
    · simp only [diskItem, memoryItem, ghostRows, memoryRows, rowsOf, h3, h5, (h6.map _).mem_iff]
    · simp only [diskItem, memoryItem, h4]

theorem UIds.reserved {env : Env α} {B : Batches α} {u u' : Uncompressed α} {table} (h : UIds B u) (hr : Reserved env table u u') : UIds B u' := by
  cases hr with
  | counter => exact ⟨h.memory, h.disk, h.channel⟩
  | spilled hs =>
    have := h.spilled hs
    exact ⟨this.memory, this.disk, this.channel⟩

theorem UIds.place {env : Env α} {B : Batches α} {u : Uncompressed α} {b : MemoryBuffer α} (h : UIds B u) (hb : ItemOk B (memoryItem b)) :
    UIds B (placeBuffer env u b) := by
  obtain ⟨h1, _⟩ := placeBuffer_rest env u b
  refine ⟨fun x hx => ?_, by rw [h1]; exact h.disk, fun x hx => ?_⟩
  · rw [placeBuffer_inMemory, List.mem_append] at hx
    rcases hx with hx | hx
    · exact h.memory x (List.mem_filter.mp hx).1
    · cases hf : b.isFull env <;> simp [hf] at hx
      subst hx
      exact hb
  · rw [placeBuffer_channel, List.mem_append] at hx
    rcases hx with hx | hx
    · exact h.channel x hx
    · cases hf : b.isFull env <;> simp [hf] at hx
      subst hx
      exact hb

/-- A row is added to a buffer. -/
theorem ItemOk.insert {B : Batches α} (hB : ∀ b ∈ B, ∀ r ∈ b.2.2, r.table = b.1) {b : MemoryBuffer α} (h : ItemOk B (memoryItem b))
    {r : Row α} {rows batchId size} (hi : IngestedOk B ⟨r :: rows, batchId, size⟩) (ht : b.table = r.table) (hg : b.tags = r.tags) (ix : Nat) :
    ItemOk B (memoryItem ((b.insert ix r.ts r.val).insertBatchId batchId)) := by
  obtain ⟨_, h2, h3, h4, _, h5⟩ := insertBatchId_fields (b.insert ix r.ts r.val) batchId
  have hrows : ∀ x, x ∈ (memoryItem ((b.insert ix r.ts r.val).insertBatchId batchId)).rows ↔ x ∈ memoryRows b ∨ x = r := by
    intro x
    simp only [memoryItem, memoryRows, rowsOf, h2, h3, h4]
    simp only [MemoryBuffer.insert, List.map_append, List.mem_append, List.map_cons, List.map_nil, List.mem_singleton, ht, hg]
  constructor
  · intro x hx c hc hxc
    simp only [memoryItem, h2, h5]
    rw [hrows] at hx
    rcases hx with hx | rfl
    · exact ⟨(h.rows x hx c hc hxc).1, Or.inl (h.rows x hx c hc hxc).2⟩
    · exact ⟨by rw [← hB c hc x hxc]; exact ht.symm, Or.inr (hi.rows x (List.mem_cons_self ..) c hc hxc)⟩
  · intro id hid
    simp only [memoryItem, h5] at hid
    rcases hid with hid | hid
    · obtain ⟨c, hc, h6, h7, x, h8, h9⟩ := h.ids id hid
      exact ⟨c, hc, by simp only [memoryItem, h2]; exact h6, h7, x, (hrows x).mpr (Or.inl h8), h9⟩
    · obtain ⟨c, hc, h6, h7⟩ := hi.ids id hid
      have h8 := h7 r (List.mem_cons_self ..)
      exact ⟨c, hc, by simp only [memoryItem, h2]; rw [← hB c hc r h8]; exact ht.symm, h6, r, (hrows r).mpr (Or.inr rfl), h8⟩

theorem UIds.inserted {env : Env α} {B : Batches α} (hB : ∀ b ∈ B, ∀ r ∈ b.2.2, r.table = b.1) {extra} {u u' : Uncompressed α}
    {r : Row α} {rows batchId size} (h : UIds B u) (hi : IngestedOk B ⟨r :: rows, batchId, size⟩) (hn : NoCollision env u r)
    (hu : Inserted env extra u r batchId u') : UIds B u' := by
  cases hu with
  | existing hb hh =>
    obtain ⟨h1, h2⟩ := hn.memory _ hb hh
    exact h.place ((h.memory _ hb).insert hB hi h1 h2 _)
  | @readBack u' d hr hi' hm hd hh =>
    obtain ⟨h1, h2⟩ := (hn.reserved hr).disk d hd hh
    have h3 := h.reserved hr
    have h4 : UIds B { u' with
        files := u'.files.filter (fun f => f.path ≠ d.path)
        onDisk := u'.onDisk.filter (fun x => x.hash ≠ calculateTagHash env r.table r.tags) } :=
      ⟨h3.memory, fun x hx => h3.disk x (List.mem_filter.mp hx).1, h3.channel⟩
    refine h4.place (ItemOk.insert hB (b := ⟨d.hash, d.table, d.ghost.tags, u'.batchIndex, d.ghost.points, d.batchIds⟩) ?_ hi h1 h2 _)
    exact h3.disk d hd
  | @created u' hr hi' hm hd =>
    have h3 := h.reserved hr
    refine ⟨fun x hx => ?_, h3.disk, h3.channel⟩
    dsimp only [putMemory] at hx
    rcases List.mem_append.mp hx with hx | hx
    · exact h3.memory x (List.mem_filter.mp hx).1
    · rw [List.mem_singleton] at hx
      subst hx
      constructor
      · intro x hx c hc hxc
        simp only [memoryItem, memoryRows, rowsOf, List.map_cons, List.map_nil, List.mem_singleton] at hx ⊢
        subst hx
        refine ⟨(hB c hc _ hxc).symm, ?_⟩
        have := hi.rows _ (List.mem_cons_self ..) c hc hxc
        dsimp only at this
        simp [this]
      · intro id hid
        simp only [memoryItem, Option.mem_toList] at hid
        obtain ⟨c, hc, h6, h7⟩ := hi.ids id hid
        have h8 := h7 r (List.mem_cons_self ..)
        exact ⟨c, hc, (hB c hc r h8).symm, h6, r, by simp [memoryItem, memoryRows, rowsOf], h8⟩

theorem UIds.spillWhileNegative {env : Env α} (hs : Sorts env) {B : Batches α} {R : List (Row α)} (hg : Good env R) {extra} (fuel : Nat)
    (u : Uncompressed α) (hk : Known R u extra) (hi : UInv env u extra) (h : UIds B u) (u' : Uncompressed α)
    (ho : Model.Storage.spillWhileNegative env true fuel u = .ok u' ∨ Model.Storage.spillWhileNegative env true fuel u = .failed u') :
    UIds B u' := by
  induction fuel generalizing u with
  | zero =>
    unfold Model.Storage.spillWhileNegative at ho
    rcases ho with ho | ho <;> cases ho
    exact h
  | succ fuel ih =>
    unfold Model.Storage.spillWhileNegative at ho
    by_cases hr : u.remaining < 0
    · rw [if_pos hr] at ho
      cases hm : u.inMemory with
      | nil =>
        have : spill env true u = .failed u := by unfold spill; rw [hm]
        rw [this] at ho
        rcases ho with ho | ho <;> cases ho
        exact h
      | cons b rest =>
        obtain ⟨u', h1, h2, h3⟩ := spill_ok hs hi (fresh_of_known hg hk hi) hm
        rw [h1] at ho
        exact ih u' (fun p => by rw [h2.ucount p]; exact hk p) h3 (h.spilled h2) ho
    · rw [if_neg hr] at ho
      rcases ho with ho | ho <;> cases ho
      exact h

theorem UIds.adjust {env : Env α} (hs : Sorts env) {B : Batches α} {R : List (Row α)} (hg : Good env R) {extra}
    {u u' : Uncompressed α} (hk : Known R u extra) (hi : UInv env u extra) (h : UIds B u) {change : Int}
    (ho : adjustUncompressed env true u change = .ok u' ∨ adjustUncompressed env true u change = .failed u') : UIds B u' := by
  have key : ∀ u', (Model.Storage.spillWhileNegative env true (u.inMemory.length + 1) { u with remaining := u.remaining + change } = .ok u' ∨
      Model.Storage.spillWhileNegative env true (u.inMemory.length + 1) { u with remaining := u.remaining + change } = .failed u') →
      UIds B u' :=
    UIds.spillWhileNegative hs hg _ { u with remaining := u.remaining + change } hk (hi.congr rfl rfl rfl rfl) ⟨h.memory, h.disk, h.channel⟩
  unfold adjustUncompressed at ho
  split at ho
  · next u₁ hu =>
    rcases ho with ho | ho <;> cases ho
    have := key u₁ (Or.inr hu)
    exact ⟨this.memory, this.disk, this.channel⟩
  · exact key u' ho

theorem UIds.flush {B : Batches α} {u : Uncompressed α} (h : UIds B u) (m : Message (Buffer α)) (hm : ∀ x, m ≠ .data x) :
    UIds B { flushUncompressed u with channel := (flushUncompressed u).channel ++ [m] } := by
  refine ⟨fun b hb => (by cases hb), fun b hb => (by cases hb), fun b hb => ?_⟩
  simp only [flushUncompressed, List.mem_append, List.mem_map, List.mem_singleton] at hb
  rcases hb with ((hb | ⟨x, hx, he⟩) | ⟨x, hx, he⟩) | hb
  · exact h.channel b hb
  · cases he; exact h.memory x hx
  · cases he; exact h.disk x hx
  · exact absurd hb.symm (hm b)

theorem UIds.finishBatch {B : Batches α} {u : Uncompressed α} (h : UIds B u) : UIds B (Model.Storage.finishBatch u) := by
  refine ⟨fun b hb => ?_, fun b hb => ?_, fun b hb => ?_⟩
  · exact h.memory b (List.mem_filter.mp hb).1
  · exact h.disk b (List.mem_filter.mp hb).1
  · simp only [Model.Storage.finishBatch, finishUnusedBuffers, List.mem_append, List.mem_map] at hb
    rcases hb with (hb | ⟨x, hx, he⟩) | ⟨x, hx, he⟩
    · exact h.channel b hb
    · cases he; exact h.memory x (List.mem_filter.mp hx).1
    · cases he; exact h.disk x (List.mem_filter.mp hx).1

/-- Compressing a buffer. -/
theorem compressFinishedBuffer_item {env : Env α} (hs : Sorts env) {u : Uncompressed α} {b : Buffer α} (hi : UInv env u (extraOf (some b)))
    {B : Batches α} (hb : ItemOk B (bufferItem b)) {chunk files memory}
    (h : compressFinishedBuffer env u.files b = some (chunk, files, memory)) : ItemOk B (chunkItem chunk) := by
  rcases b with b | d
  · cases h
    refine hb.congr rfl (fun r => ?_) (fun i => Iff.rfl)
    simp only [chunkItem, bufferItem, memoryItem, chunkRows, memoryRows, rowsOf, ((hs b.points).1.map _).mem_iff]
  · have hd : DiskOk env u.files d := hi.disk d (by simp [live, extraOf])
    unfold compressFinishedBuffer at h
    dsimp only at h
    unfold readFile at h
    rw [hd.file] at h
    cases h
    exact hb.congr rfl (fun r => Iff.rfl) (fun i => Iff.rfl)

/-! The compressed data manager. -/

theorem CIds.saveFirst {B : Batches α} {c : Compressed α} (h : CIds B c) (k : Nat) : CIds B (saveFirst k c) := by
  have htake : ∀ b ∈ c.buffers.take k, b ∈ c.buffers := fun b hb => List.mem_of_mem_take hb
  refine ⟨fun x hx => ?_, fun b hb => h.buffers b (List.mem_of_mem_drop hb), fun b hb => h.bufferIds b (List.mem_of_mem_drop hb), fun t id => ?_⟩
  · simp only [Lemmas.Storage.saveFirst, List.mem_append, List.mem_flatMap] at hx
    rcases hx with hx | ⟨b, hb, hx⟩
    · exact h.saved x hx
    · exact (h.buffers b (htake b hb) x hx).2
  · simp only [Lemmas.Storage.saveFirst, List.mem_append, List.mem_flatMap, commitsOf, List.mem_map, Prod.mk.injEq]
    constructor
    · rintro (hc | ⟨b, hb, i, hi, rfl, rfl⟩)
      · obtain ⟨x, hx, h1⟩ := (h.commits t id).mp hc
        exact ⟨x, Or.inl hx, h1⟩
      · obtain ⟨x, hx, h1⟩ := (h.bufferIds b (htake b hb) i).mp hi
        exact ⟨x, Or.inr ⟨b, hb, hx⟩, (h.buffers b (htake b hb) x hx).1, h1⟩
    · rintro ⟨x, hx | ⟨b, hb, hx⟩, rfl, hid⟩
      · exact Or.inl ((h.commits _ _).mpr ⟨x, hx, rfl, hid⟩)
      · exact Or.inr ⟨b, hb, id, (h.bufferIds b (htake b hb) id).mpr ⟨x, hx, hid⟩, (h.buffers b (htake b hb) x hx).1.symm, rfl⟩

theorem CIds.appended {B : Batches α} {c c' : Compressed α} {x : Chunk α} (h : CIds B c) (hx : ItemOk B (chunkItem x)) (ha : Appended c x c') :
    CIds B c' := by
  have happ : ∀ b : CompressedBuffer α, (∀ y ∈ b.chunks, y.table = x.table ∧ ItemOk B (chunkItem y)) →
      (∀ id, id ∈ b.batchIds ↔ ∃ y ∈ b.chunks, id ∈ y.batchIds) →
      (∀ y ∈ (b.append x).1.chunks, y.table = x.table ∧ ItemOk B (chunkItem y)) ∧
      ∀ id, id ∈ (b.append x).1.batchIds ↔ ∃ y ∈ (b.append x).1.chunks, id ∈ y.batchIds := by
    intro b h1 h2
    constructor
    · intro y hy
      simp only [CompressedBuffer.append, List.mem_append, List.mem_singleton] at hy
      rcases hy with hy | rfl
      · exact h1 y hy
      · exact ⟨rfl, hx⟩
    · intro id
      simp only [CompressedBuffer.append, List.mem_append, List.mem_singleton, h2]
      constructor
      · rintro (⟨y, hy, hid⟩ | hid)
        · exact ⟨y, Or.inl hy, hid⟩
        · exact ⟨x, Or.inr rfl, hid⟩
      · rintro ⟨y, hy | rfl, hid⟩
        · exact Or.inl ⟨y, hy, hid⟩
        · exact Or.inr hid
  cases ha with
  | @existing bs₁ bs₂ b hb =>
    have hmem : (x.table, b) ∈ c.buffers := by rw [hb]; simp
    obtain ⟨h1, h2⟩ := happ b (h.buffers _ hmem) (h.bufferIds _ hmem)
    have hall : ∀ y ∈ bs₁ ++ (x.table, (b.append x).1) :: bs₂, y ∈ c.buffers ∨ y = (x.table, (b.append x).1) := by
      intro y hy
      rw [hb]
      simp only [List.mem_append, List.mem_cons] at hy ⊢
      tauto
    refine ⟨h.saved, fun y hy => ?_, fun y hy => ?_, h.commits⟩
    · rcases hall y hy with hy | rfl
      · exact h.buffers y hy
      · exact h1
    · rcases hall y hy with hy | rfl
      · exact h.bufferIds y hy
      · exact h2
  | created hn =>
    obtain ⟨h1, h2⟩ := happ ⟨[], 0, []⟩ (fun y hy => by cases hy) (fun id => by simp)
    refine ⟨h.saved, fun y hy => ?_, fun y hy => ?_, h.commits⟩
    · dsimp only at hy
      rw [List.mem_append, List.mem_singleton] at hy
      rcases hy with hy | rfl
      · exact h.buffers y hy
      · exact h1
    · dsimp only at hy
      rw [List.mem_append, List.mem_singleton] at hy
      rcases hy with hy | rfl
      · exact h.bufferIds y hy
      · exact h2

/-! All rows that are somewhere were received. -/

theorem Inv.mem_received {env : Env α} {e : Engine α} (h : Inv env e) {l : List (Row α)} (hl : ∀ p, l.countP p ≤ ecount p e) {r : Row α}
    (hr : r ∈ l) : r ∈ e.received :=
  countP_mem (fun p => by rw [← h.count p]; exact hl p) hr

theorem countP_flatMap_le {τ : Type} (p : Row α → Bool) (f : τ → List (Row α)) {l : List τ} {x : τ} (hx : x ∈ l) :
    (f x).countP p ≤ (l.flatMap f).countP p := by
  induction l with
  | nil => cases hx
  | cons y l ih =>
    rw [List.flatMap_cons, List.countP_append]
    rcases List.mem_cons.mp hx with rfl | hx
    · omega
    · have := ih hx; omega

/-- A property of items that follows if their rows were received. -/
theorem Ids.mono {env : Env α} {e : Engine α} (hi : Inv env e) (h : Ids e) {B' : Batches α}
    (hn : ∀ r ∈ e.received, ∀ b ∈ B', r ∉ b.2.2) :
    UIds (e.batches ++ B') e.u ∧ CIds (e.batches ++ B') e.c ∧ (∀ b, e.compressing = some b → ItemOk (e.batches ++ B') (bufferItem b)) ∧
      (∀ x, .data x ∈ e.compressed → ItemOk (e.batches ++ B') (chunkItem x)) ∧
      (∀ i, e.current = some i → IngestedOk (e.batches ++ B') i) ∧ (∀ i, .data i ∈ e.ingested → IngestedOk (e.batches ++ B') i) := by
  have key : ∀ l : List (Row α), (∀ p, l.countP p ≤ ecount p e) → ∀ r ∈ l, ∀ b ∈ B', r ∉ b.2.2 :=
    fun l hl r hr => hn r (hi.mem_received hl hr)
  have hbuf : ∀ b : Buffer α, (bufferItem b).rows = ghostBufferRows b := by rintro (b | d) <;> rfl
  refine ⟨⟨?_, ?_, ?_⟩, ⟨?_, ?_, h.c.bufferIds, h.c.commits⟩, ?_, ?_, ?_, ?_⟩
  · intro b hb
    refine (h.u.memory b hb).mono (key _ fun p => ?_)
    have := countP_flatMap_le p memoryRows hb
    unfold ecount ucount
    simp only [memoryItem]
    omega
  · intro b hb
    refine (h.u.disk b hb).mono (key _ fun p => ?_)
    have := countP_flatMap_le p ghostRows hb
    unfold ecount ucount
    simp only [diskItem]
    omega
  · intro b hb
    refine (h.u.channel b hb).mono (key _ fun p => ?_)
    have := countP_flatMap_le p (messageRows ghostBufferRows) hb
    unfold ecount ucount
    rw [hbuf]
    simp only [messageRows] at this
    omega
  · intro b hb
    refine (h.c.saved b hb).mono (key _ fun p => ?_)
    have := countP_flatMap_le p chunkRows hb
    unfold ecount ccount
    simp only [chunkItem]
    omega
  · intro b hb x hx
    refine ⟨(h.c.buffers b hb x hx).1, (h.c.buffers b hb x hx).2.mono (key _ fun p => ?_)⟩
    have h1 := countP_flatMap_le p compressedBufferRows hb
    have h2 := countP_flatMap_le p chunkRows hx
    unfold ecount ccount
    simp only [chunkItem, compressedBufferRows] at h1 ⊢
    omega
  · intro b hb
    refine (h.compressing b hb).mono (key _ fun p => ?_)
    unfold ecount
    rw [hb, hbuf]
    simp only [Option.toList_some, List.flatMap_cons, List.flatMap_nil, List.append_nil]
    omega
  · intro b hb
    refine (h.compressed b hb).mono (key _ fun p => ?_)
    have := countP_flatMap_le p (messageRows chunkRows) hb
    unfold ecount
    simp only [chunkItem, messageRows] at this ⊢
    omega
  · intro b hb
    refine (h.current b hb).mono (key _ fun p => ?_)
    unfold ecount
    rw [hb]
    simp only [Option.toList_some, List.flatMap_cons, List.flatMap_nil, List.append_nil]
    omega
  · intro b hb
    refine (h.ingested b hb).mono (key _ fun p => ?_)
    have := countP_flatMap_le p (messageRows Ingested.rows) hb
    unfold ecount
    simp only [messageRows] at this
    omega

theorem keys_disjoint {env : Env α} {l l' : List (Row α)} (h : Good env (l ++ l')) {r : Row α} (hr : r ∈ l) : r ∉ l' := by
  intro hr'
  have := h.keys
  rw [List.map_append, List.nodup_append] at this
  exact this.2.2 _ (List.mem_map_of_mem hr) _ (List.mem_map_of_mem hr') rfl

theorem ids_step {env : Env α} (hs : Sorts env) {e e' : Engine α} {op : Op α} (hio : Op.ioOk op) (ht : Op.tableOk op) (hi : Inv env e)
    (hstep : e.step env op = some e') (hg : Good env e'.received) (h : Ids e) : Ids e' := by
  have hg0 : Good env e.received := by
    obtain ⟨l, hl⟩ := received_mono hstep
    rw [hl] at hg
    exact hg.mono
  obtain ⟨hu, hc, hcing, hced, hcur, hing, hb⟩ := h
  have hB : ∀ b ∈ e.batches, ∀ r ∈ b.2.2, r.table = b.1 := fun b hb' r hr => (hb b hb' r hr).2
  cases op with
  | insert table rows batchId size =>
    simp only [Engine.step] at hstep
    split at hstep
    · cases hstep
      dsimp only at hg
      have hdis : ∀ r ∈ e.received, ∀ b ∈ batchId.toList.map (fun id => (table, id, rows)), r ∉ b.2.2 := by
        intro r hr b hb
        obtain ⟨id, _, rfl⟩ := List.mem_map.mp hb
        exact keys_disjoint hg hr
      obtain ⟨h1, h2, h3, h4, h5, h6⟩ := Ids.mono hi ⟨hu, hc, hcing, hced, hcur, hing, hb⟩ hdis
      refine ⟨h1, h2, h3, h4, h5, fun i hm => ?_, fun b hb' r hr => ?_⟩
      · rw [List.mem_append, List.mem_singleton] at hm
        rcases hm with hm | hm
        · exact h6 i hm
        · cases hm
          constructor
          · intro r hr b hb' hrb
            rcases List.mem_append.mp hb' with hb' | hb'
            · exact absurd hr (keys_disjoint hg (hb b hb' r hrb).1)
            · obtain ⟨id, hid, rfl⟩ := List.mem_map.mp hb'
              exact (Option.mem_toList.mp hid)
          · intro id hid
            dsimp only at hid
            subst hid
            exact ⟨(table, id, rows), by simp, rfl, fun r hr => hr⟩
      · rcases List.mem_append.mp hb' with hb' | hb'
        · exact ⟨List.mem_append_left _ (hb b hb' r hr).1, (hb b hb' r hr).2⟩
        · obtain ⟨id, _, rfl⟩ := List.mem_map.mp hb'
          exact ⟨List.mem_append_right _ hr, ht r hr⟩
    · cases hstep
  | flush =>
    cases hstep
    refine ⟨hu, hc, hcing, hced, hcur, fun i hm => hing i ?_, hb⟩
    simpa using hm
  | stop =>
    cases hstep
    refine ⟨hu, hc, hcing, hced, hcur, fun i hm => hing i ?_, hb⟩
    simpa using hm
  | touchMemory i =>
    cases hstep
    exact ⟨⟨fun b hb => hu.memory b ((toFront_perm _ i).mem_iff.mp hb), hu.disk, hu.channel⟩, hc, hcing, hced, hcur, hing, hb⟩
  | touchDisk i =>
    cases hstep
    exact ⟨⟨hu.memory, fun b hb => hu.disk b ((toFront_perm _ i).mem_iff.mp hb), hu.channel⟩, hc, hcing, hced, hcur, hing, hb⟩
  | ingestionTake =>
    simp only [Engine.step] at hstep
    split at hstep
    · split at hstep
      · cases hstep
      · next b rest hq =>
        cases hstep
        refine ⟨hu, hc, hcing, hced, fun i hi' => ?_, fun i hm => hing i (by rw [hq]; exact List.mem_cons_of_mem _ hm), hb⟩
        cases hi'
        exact hing b (by rw [hq]; exact List.mem_cons_self ..)
      all_goals
        next n rest hq =>
        cases hstep
        exact ⟨hu.flush _ (by simp), hc, hcing, hced, hcur, fun i hm => hing i (by rw [hq]; exact List.mem_cons_of_mem _ hm), hb⟩
    · cases hstep
  | ingestionRow io =>
    obtain rfl : io = true := hio
    simp only [Engine.step] at hstep
    split at hstep
    · split at hstep
      · next r rows batchId size hcu =>
        have hok := hcur _ hcu
        rcases insertDataPoint_cases hs hi.u (fresh_of_known hg0 hi.known hi.u) r batchId with ⟨u', h1, h2⟩ | ⟨h1, _⟩ | ⟨h1, _⟩
        · rw [h1] at hstep
          cases hstep
          refine ⟨hu.inserted hB hok (noCollision_of_known hg0 hi.known hi.u (hi.current hcu (List.mem_cons_self ..))) h2, hc, hcing, hced,
            fun i hi' => ?_, hing, hb⟩
          cases hi'
          refine ⟨fun x hx => hok.rows x (List.mem_cons_of_mem _ hx), fun id hid => ?_⟩
          obtain ⟨b, hb', h3, h4⟩ := hok.ids id hid
          exact ⟨b, hb', h3, fun x hx => h4 x (List.mem_cons_of_mem _ hx)⟩
        · rw [h1] at hstep
          cases hstep
          exact ⟨hu, hc, hcing, hced, hcur, hing, hb⟩
        · rw [h1] at hstep
          cases hstep
          exact ⟨hu, hc, hcing, hced, hcur, hing, hb⟩
      · cases hstep
    · cases hstep
  | ingestionDone =>
    simp only [Engine.step] at hstep
    split at hstep
    · split at hstep
      · cases hstep
        exact ⟨hu.finishBatch, hc, hcing, hced, fun i hi' => (by cases hi'), hing, hb⟩
      · cases hstep
    · cases hstep
  | compressionTake =>
    simp only [Engine.step] at hstep
    split at hstep
    · split at hstep
      · cases hstep
      · next b rest hq =>
        cases hstep
        refine ⟨⟨hu.memory, hu.disk, fun x hx => hu.channel x (by rw [hq]; exact List.mem_cons_of_mem _ hx)⟩, hc, fun x hx => ?_, hced, hcur, hing, hb⟩
        cases hx
        exact hu.channel b (by rw [hq]; exact List.mem_cons_self ..)
      all_goals
        next n rest hq =>
        cases hstep
        refine ⟨⟨hu.memory, hu.disk, fun x hx => hu.channel x (by rw [hq]; exact List.mem_cons_of_mem _ hx)⟩, hc, hcing, fun x hx => hced x ?_, hcur, hing, hb⟩
        simpa using hx
    · cases hstep
  | compressionDone =>
    simp only [Engine.step] at hstep
    split at hstep
    · split at hstep
      · cases hstep
      · next b hbc =>
        have hu' := hi.u
        rw [hbc] at hu'
        split at hstep
        · cases hstep
          exact ⟨hu, hc, hcing, hced, hcur, hing, hb⟩
        · next chunk files memory h1 =>
          cases hstep
          refine ⟨⟨hu.memory, hu.disk, hu.channel⟩, hc, fun x hx => (by cases hx), fun x hx => ?_, hcur, hing, hb⟩
          rw [List.mem_append, List.mem_singleton] at hx
          rcases hx with hx | hx
          · exact hced x hx
          · cases hx
            exact compressFinishedBuffer_item hs hu' (hcing b hbc) h1
    · cases hstep
  | write =>
    simp only [Engine.step] at hstep
    split at hstep
    · split at hstep
      · cases hstep
      · next chunk rest hq =>
        obtain ⟨c, h1, rfl⟩ := Option.map_eq_some_iff.mp hstep
        have hck : ItemOk e.batches (chunkItem chunk) := hced chunk (by rw [hq]; exact List.mem_cons_self ..)
        refine ⟨hu, ?_, hcing, fun x hx => hced x (by rw [hq]; exact List.mem_cons_of_mem _ hx), hcur, hing, hb⟩
        obtain ⟨c₁, h2, ⟨k, _, h3, _⟩ | ⟨h3, _⟩⟩ := insertCompressedSegments_spec hi.c chunk
        · rw [h3] at h1
          cases h1
          have := (hc.appended hck h2).saveFirst k
          exact ⟨this.saved, this.buffers, this.bufferIds, this.commits⟩
        · rw [h3] at h1; cases h1
      all_goals
        next n rest hq =>
        obtain ⟨c, h1, rfl⟩ := Option.map_eq_some_iff.mp hstep
        rw [flushCompressed_spec _ _ rfl hi.c] at h1
        cases h1
        exact ⟨hu, hc.saveFirst _, hcing, fun x hx => hced x (by rw [hq]; exact List.mem_cons_of_mem _ hx), hcur, hing, hb⟩
    · cases hstep
  | adjustIngested change => cases hstep; exact ⟨hu, hc, hcing, hced, hcur, hing, hb⟩
  | adjustUncompressed io change =>
    obtain rfl : io = true := hio
    simp only [Engine.step] at hstep
    split at hstep
    · next u' h1 =>
      cases hstep
      exact ⟨hu.adjust hs hg0 hi.known hi.u (Or.inl h1), hc, hcing, hced, hcur, hing, hb⟩
    · next u' h1 =>
      cases hstep
      exact ⟨hu.adjust hs hg0 hi.known hi.u (Or.inr h1), hc, hcing, hced, hcur, hing, hb⟩
    · cases hstep
  | adjustCompressed change =>
    obtain ⟨c, h1, rfl⟩ := Option.map_eq_some_iff.mp hstep
    refine ⟨hu, ?_, hcing, hced, hcur, hing, hb⟩
    unfold adjustCompressed at h1
    have hci : CInv { e.c with remaining := e.c.remaining + change } := ⟨hi.c.queue, hi.c.nodup⟩
    rcases saveToFreeMemory_spec 0 _ _ rfl hci with ⟨k, _, h2, _⟩ | ⟨h2, _⟩
    · dsimp only at h2
      rw [h2] at h1
      cases h1
      exact CIds.saveFirst (c := { e.c with remaining := e.c.remaining + change }) ⟨hc.saved, hc.buffers, hc.bufferIds, hc.commits⟩ k
    · dsimp only at h2
      rw [h2] at h1; cases h1

theorem ids_run {env : Env α} (hs : Sorts env) (hcap : 2 ≤ env.capacity) (ops : List (Op α)) (hio : ∀ op ∈ ops, Op.ioOk op)
    (ht : ∀ op ∈ ops, Op.tableOk op) {e e' : Engine α} (hi : Inv env e) (h : Ids e) (hrun : e.run env ops = some e')
    (hg : Good env e'.received) : Inv env e' ∧ Ids e' := by
  induction ops generalizing e with
  | nil => cases hrun; exact ⟨hi, h⟩
  | cons op ops ih =>
    simp only [Engine.run] at hrun
    obtain ⟨e₁, h1, h2⟩ := Option.bind_eq_some_iff.mp hrun
    have hg1 := run_good h2 hg
    have hio1 := hio op (List.mem_cons_self ..)
    exact ih (fun o ho => hio o (List.mem_cons_of_mem _ ho)) (fun o ho => ht o (List.mem_cons_of_mem _ ho))
      (inv_step hs hcap hio1 hi h1 hg1) (ids_step hs hio1 (ht op (List.mem_cons_self ..)) hi h1 hg1 h) h2

/-- Every batch was received. -/
theorem batches_count {env : Env α} {e e' : Engine α} {op : Op α} (hstep : e.step env op = some e')
    (h : ∀ p : Row α → Bool, (e.batches.flatMap fun b => b.2.2).countP p ≤ e.received.countP p) :
    ∀ p : Row α → Bool, (e'.batches.flatMap fun b => b.2.2).countP p ≤ e'.received.countP p := by
  have same : e'.batches = e.batches → e'.received = e.received →
      ∀ p : Row α → Bool, (e'.batches.flatMap fun b => b.2.2).countP p ≤ e'.received.countP p := by
    intro h1 h2
    rw [h1, h2]
    exact h
  cases op <;> simp only [Engine.step] at hstep
  case insert table rows batchId size =>
    split at hstep
    · cases hstep
      intro p
      have := h p
      cases batchId <;> simp [List.countP_append] <;> omega
    · cases hstep
  case flush => cases hstep; exact h
  case stop => cases hstep; exact h
  case touchMemory => cases hstep; exact h
  case touchDisk => cases hstep; exact h
  case adjustIngested => cases hstep; exact h
  case write =>
    split at hstep
    · split at hstep
      · cases hstep
      all_goals
        obtain ⟨c, _, rfl⟩ := Option.map_eq_some_iff.mp hstep
        exact h
    · cases hstep
  case adjustCompressed =>
    obtain ⟨c, _, rfl⟩ := Option.map_eq_some_iff.mp hstep
    exact h
  all_goals
    repeat' split at hstep
    all_goals cases hstep
    all_goals exact h

end ModelarDB.Lemmas.Storage
