import Verif.Lemmas.Storage
/-
The compressed data manager.
-/
namespace ModelarDB.Lemmas.Storage
open Model.Storage Spec.Storage

variable {α : Type}

/-- The queue holds the tables with a buffer. -/
structure CInv (c : Compressed α) : Prop where
  queue : c.queue = c.buffers.map Prod.fst
  nodup : (c.buffers.map Prod.fst).Nodup

/-- The rows in a compressed buffer. -/
def compressedBufferRows (b : String × CompressedBuffer α) : List (Row α) := b.2.chunks.flatMap chunkRows

/-- How many rows in the manager satisfy `p`. -/
def ccount (p : Row α → Bool) (c : Compressed α) : Nat :=
  (c.saved.flatMap chunkRows).countP p + (c.buffers.flatMap compressedBufferRows).countP p

/-- The commits made when buffers are saved. -/
def commitsOf (bs : List (String × CompressedBuffer α)) : List (String × Nat) :=
  bs.flatMap fun b => b.2.batchIds.map fun id => (b.1, id)

/-- The size of buffers. -/
def sizeOf (bs : List (String × CompressedBuffer α)) : Nat := (bs.map fun b => b.2.size).sum

/-- The manager after the first `k` buffers are saved. -/
def saveFirst (k : Nat) (c : Compressed α) : Compressed α :=
  { buffers := c.buffers.drop k
    queue := c.queue.drop k
    remaining := c.remaining + sizeOf (c.buffers.take k)
    saved := c.saved ++ (c.buffers.take k).flatMap fun b => b.2.chunks
    commits := c.commits ++ commitsOf (c.buffers.take k) }

theorem saveFirst_zero (c : Compressed α) : saveFirst 0 c = c := by
  cases c
  simp [saveFirst, sizeOf, commitsOf]

theorem saveFirst_cinv {c : Compressed α} (h : CInv c) (k : Nat) : CInv (saveFirst k c) := by
  constructor
  · simp only [saveFirst, h.queue, List.map_drop]
  · simp only [saveFirst, List.map_drop]
    exact h.nodup.sublist (List.drop_sublist _ _)

theorem saveFirst_ccount (c : Compressed α) (k : Nat) (p : Row α → Bool) : ccount p (saveFirst k c) = ccount p c := by
  have h : ∀ l : List (String × CompressedBuffer α), (l.flatMap fun b => b.2.chunks).flatMap chunkRows = l.flatMap compressedBufferRows := by
    intro l
    rw [List.flatMap_assoc]
    rfl
  simp only [ccount, saveFirst, List.flatMap_append, List.countP_append, h]
  have : (c.buffers.flatMap compressedBufferRows).countP p =
      ((c.buffers.take k ++ c.buffers.drop k).flatMap compressedBufferRows).countP p := by rw [List.take_append_drop]
  rw [this, List.flatMap_append, List.countP_append]
  omega

theorem save_head {c : Compressed α} {t : String} {b : CompressedBuffer α} {bs} (hn : (c.buffers.map Prod.fst).Nodup)
    (hb : c.buffers = (t, b) :: bs) (q : List String) (hq : c.queue = t :: q) :
    saveCompressedData { c with queue := q } t = some (saveFirst 1 c) := by
  rw [hb, List.map_cons, List.nodup_cons] at hn
  unfold saveCompressedData saveFirst
  simp only [hb, List.find?_cons, decide_true, Option.some.injEq, Compressed.mk.injEq, List.drop_one, List.tail_cons, hq,
    List.take_one, List.head?_cons, Option.toList_some, List.flatMap_cons, List.flatMap_nil, List.append_nil, sizeOf, commitsOf,
    List.map_cons, List.map_nil, List.sum_cons, List.sum_nil, Nat.add_zero, and_true]
  rw [List.filter_cons_of_neg (by simp)]
  exact filter_key_ne Prod.fst hn.1

theorem saveFirst_saveFirst (c : Compressed α) (j k : Nat) : saveFirst k (saveFirst j c) = saveFirst (j + k) c := by
  unfold saveFirst
  simp only [List.drop_drop, Compressed.mk.injEq, true_and, List.take_add, sizeOf, commitsOf,
    List.map_append, List.sum_append_nat, List.flatMap_append, List.append_assoc, and_true]
  omega

theorem saveToFreeMemory_spec (size : Nat) (bs : List (String × CompressedBuffer α)) (c : Compressed α) (hb : c.buffers = bs)
    (h : CInv c) :
    (∃ k ≤ bs.length, saveToFreeMemory size c.queue c = some (saveFirst k c) ∧ (size : Int) ≤ (saveFirst k c).remaining) ∨
      (saveToFreeMemory size c.queue c = none ∧ c.remaining + sizeOf bs < size) := by
  induction bs generalizing c with
  | nil =>
    have hq : c.queue = [] := by rw [h.queue, hb]; rfl
    rw [hq]
    unfold saveToFreeMemory
    by_cases hr : c.remaining < size
    · rw [if_pos hr]
      exact Or.inr ⟨rfl, by simpa [sizeOf] using hr⟩
    · rw [if_neg hr]
      refine Or.inl ⟨0, Nat.le_refl _, ?_, ?_⟩
      · rw [saveFirst_zero, ← hq]
      · rw [saveFirst_zero]; omega
  | cons x bs ih =>
    obtain ⟨t, b⟩ := x
    have hq : c.queue = t :: bs.map Prod.fst := by rw [h.queue, hb]; rfl
    rw [hq]
    unfold saveToFreeMemory
    by_cases hr : c.remaining < size
    · rw [if_pos hr, save_head h.nodup hb _ hq]
      have hb' : (saveFirst 1 c).buffers = bs := by simp [saveFirst, hb]
      have hq' : (saveFirst 1 c).queue = bs.map Prod.fst := by simp [saveFirst, hq]
      have hr' : (saveFirst 1 c).remaining = c.remaining + b.size := by simp [saveFirst, hb, sizeOf]
      rcases ih _ hb' (saveFirst_cinv h 1) with ⟨k, hk, h1, h2⟩ | ⟨h1, h2⟩
      · rw [hq', saveFirst_saveFirst] at h1
        rw [saveFirst_saveFirst] at h2
        exact Or.inl ⟨1 + k, by simp only [List.length_cons]; omega, h1, h2⟩
      · rw [hq'] at h1
        refine Or.inr ⟨h1, ?_⟩
        simp only [sizeOf, List.map_cons, List.sum_cons] at h2 ⊢
        rw [hr'] at h2
        push_cast at h2 ⊢
        omega
    · rw [if_neg hr]
      refine Or.inl ⟨0, Nat.zero_le _, ?_, ?_⟩
      · rw [saveFirst_zero, ← hq]
      · rw [saveFirst_zero]; omega

theorem flushCompressed_spec (bs : List (String × CompressedBuffer α)) (c : Compressed α) (hb : c.buffers = bs)
    (h : CInv c) : flushCompressed c.queue c = some (saveFirst bs.length c) := by
  induction bs generalizing c with
  | nil =>
    have hq : c.queue = [] := by rw [h.queue, hb]; rfl
    rw [hq]
    unfold flushCompressed
    rw [List.length_nil, saveFirst_zero, ← hq]
  | cons x bs ih =>
    obtain ⟨t, b⟩ := x
    have hq : c.queue = t :: bs.map Prod.fst := by rw [h.queue, hb]; rfl
    rw [hq]
    unfold flushCompressed
    rw [save_head h.nodup hb _ hq]
    have hb' : (saveFirst 1 c).buffers = bs := by simp [saveFirst, hb]
    have hq' : (saveFirst 1 c).queue = bs.map Prod.fst := by simp [saveFirst, hq]
    have := ih _ hb' (saveFirst_cinv h 1)
    rw [hq', saveFirst_saveFirst] at this
    dsimp only
    rw [this, List.length_cons, Nat.add_comm]

theorem appendSizes_fst (sizes : List Nat) (size : Nat) : (appendSizes sizes size).1 = sizes.sum := by
  unfold appendSizes
  suffices h : ∀ (l : List Nat) (a b : Nat), (l.foldl (fun (x : Nat × Nat) y => (x.1 + y, x.2 + (x.1 + y))) (a, b)).1 = a + l.sum by
    simpa using h sizes 0 size
  intro l
  induction l with
  | nil => simp
  | cons y l ih => intro a b; simp only [List.foldl_cons, ih, List.sum_cons]; omega

theorem appendSizes_snd (sizes : List Nat) (size : Nat) : size + sizes.sum ≤ (appendSizes sizes size).2 := by
  unfold appendSizes
  suffices h : ∀ (l : List Nat) (a b : Nat), b + l.sum ≤ (l.foldl (fun (x : Nat × Nat) y => (x.1 + y, x.2 + (x.1 + y))) (a, b)).2 by
    simpa using h sizes 0 size
  intro l
  induction l with
  | nil => simp
  | cons y l ih => intro a b; simp only [List.foldl_cons, List.sum_cons]; have := ih (a + y) (b + (a + y)); omega

theorem appendSizes_single {sizes : List Nat} (h : sizes.length ≤ 1) (size : Nat) : (appendSizes sizes size).2 = size + sizes.sum := by
  rcases sizes with _ | ⟨x, _ | ⟨y, l⟩⟩
  · rfl
  · simp [appendSizes]
  · simp at h

/-- How segments are added to the buffer of their table. -/
inductive Appended (c : Compressed α) (x : Chunk α) : Compressed α → Prop
  | existing {bs₁ bs₂ : List (String × CompressedBuffer α)} {b : CompressedBuffer α} (h : c.buffers = bs₁ ++ (x.table, b) :: bs₂) :
      Appended c x { c with buffers := bs₁ ++ (x.table, (b.append x).1) :: bs₂ }
  | created (h : x.table ∉ c.buffers.map Prod.fst) :
      Appended c x { c with
        buffers := c.buffers ++ [(x.table, ((⟨[], 0, []⟩ : CompressedBuffer α).append x).1)], queue := c.queue ++ [x.table] }

theorem map_replace {τ κ : Type} [DecidableEq κ] (f : κ × τ → κ × τ) {l₁ l₂ : List (κ × τ)} {k : κ} {b : τ}
    (hn : ((l₁ ++ (k, b) :: l₂).map Prod.fst).Nodup) :
    (l₁ ++ (k, b) :: l₂).map (fun x => if x.1 = k then f x else x) = l₁ ++ f (k, b) :: l₂ := by
  rw [List.map_append, List.map_cons, List.nodup_middle, List.nodup_cons, List.mem_append, not_or] at hn
  rw [List.map_append, List.map_cons, if_pos rfl]
  have h : ∀ l : List (κ × τ), k ∉ l.map Prod.fst → l.map (fun x => if x.1 = k then f x else x) = l := by
    intro l hl
    conv_rhs => rw [← List.map_id l]
    refine List.map_congr_left fun x hx => ?_
    have : x.1 ≠ k := fun he => hl (he ▸ List.mem_map_of_mem hx)
    rw [if_neg this]
    rfl
  rw [h l₁ hn.1.1, h l₂ hn.1.2]

theorem appendChunk_spec {c : Compressed α} (h : CInv c) (x : Chunk α) :
    Appended c x (appendChunk c x).1 ∧ (appendChunk c x).2 = x.sizes.sum := by
  unfold appendChunk
  cases hf : c.buffers.find? (fun b => decide (b.1 = x.table)) with
  | none =>
    exact ⟨.created (find_hash_none Prod.fst hf), appendSizes_fst _ _⟩
  | some y =>
    obtain ⟨hm, he⟩ := find_hash Prod.fst hf
    obtain ⟨t, b⟩ := y
    obtain rfl : t = x.table := he
    obtain ⟨bs₁, bs₂, hb⟩ := List.append_of_mem hm
    have hn := h.nodup
    rw [hb] at hn
    have := map_replace (fun _ => (x.table, (b.append x).1)) hn
    refine ⟨?_, appendSizes_fst _ _⟩
    dsimp only
    have hmap : c.buffers.map (fun y => if y.1 = x.table then (y.1, (b.append x).1) else y) = bs₁ ++ (x.table, (b.append x).1) :: bs₂ := by
      rw [hb, ← this]
      refine List.map_congr_left fun y _ => ?_
      split
      · next he => rw [he]
      · rfl
    rw [hmap]
    exact .existing hb

theorem Appended.cinv {c c' : Compressed α} {x : Chunk α} (h : Appended c x c') (hi : CInv c) : CInv c' := by
  cases h with
  | @existing bs₁ bs₂ b hb =>
    have h1 := hi.queue
    have h2 := hi.nodup
    rw [hb] at h1 h2
    exact ⟨by simpa using h1, by simpa using h2⟩
  | created hb =>
    refine ⟨by simp [hi.queue], ?_⟩
    rw [List.map_append, List.map_cons, List.map_nil]
    exact (List.perm_append_singleton _ _).nodup_iff.mpr (List.nodup_cons.mpr ⟨hb, hi.nodup⟩)

theorem Appended.ccount {c c' : Compressed α} {x : Chunk α} (h : Appended c x c') (p : Row α → Bool) :
    ccount p c' = ccount p c + (chunkRows x).countP p := by
  cases h with
  | @existing bs₁ bs₂ b hb =>
    simp only [Lemmas.Storage.ccount, hb, CompressedBuffer.append, List.flatMap_append, List.flatMap_cons, List.countP_append,
      compressedBufferRows, List.flatMap_nil, List.append_nil]
    omega
  | created hb =>
    simp only [Lemmas.Storage.ccount, CompressedBuffer.append, List.flatMap_append, List.flatMap_cons, List.countP_append,
      compressedBufferRows, List.flatMap_nil, List.append_nil, List.nil_append]
    omega

/-- Adding segments and saving as many buffers as necessary. -/
theorem insertCompressedSegments_spec {c : Compressed α} (h : CInv c) (x : Chunk α) :
    ∃ c₁, Appended c x c₁ ∧
      ((∃ k ≤ c₁.buffers.length, insertCompressedSegments c x =
          some { saveFirst k c₁ with remaining := (saveFirst k c₁).remaining - x.sizes.sum } ∧
          (x.sizes.sum : Int) ≤ (saveFirst k c₁).remaining) ∨
        (insertCompressedSegments c x = none ∧ c₁.remaining + sizeOf c₁.buffers < x.sizes.sum)) := by
  obtain ⟨h1, h2⟩ := appendChunk_spec h x
  refine ⟨_, h1, ?_⟩
  unfold insertCompressedSegments
  rw [← h2]
  dsimp only
  by_cases hr : ((appendChunk c x).2 : Int) ≤ (appendChunk c x).1.remaining
  · rw [if_pos hr]
    refine Or.inl ⟨0, Nat.zero_le _, ?_, ?_⟩
    · rw [saveFirst_zero]
    · rw [saveFirst_zero]; exact hr
  · rw [if_neg hr]
    rcases saveToFreeMemory_spec (appendChunk c x).2 _ _ rfl (h1.cinv h) with ⟨k, hk, h3, h4⟩ | ⟨h3, h4⟩
    · rw [h3]
      exact Or.inl ⟨k, hk, rfl, h4⟩
    · rw [h3]
      exact Or.inr ⟨rfl, h4⟩

end ModelarDB.Lemmas.Storage
