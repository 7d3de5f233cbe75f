import Verif.Spec.Storage
import Mathlib.Data.List.Nodup
import Mathlib.Data.List.Perm.Basic
/-
The uncompressed data manager neither loses nor duplicates rows.
-/
namespace ModelarDB.Lemmas.Storage
open Model.Storage Spec.Storage

variable {α : Type}

/-! Lists. -/

theorem countP_flatMap_filter {τ : Type} (p : Row α → Bool) (q : τ → Bool) (g : τ → List (Row α)) (l : List τ) :
    ((l.filter q).flatMap g).countP p + ((l.filter (fun x => !q x)).flatMap g).countP p = (l.flatMap g).countP p := by
  induction l with
  | nil => rfl
  | cons x l ih =>
    cases hq : q x <;> simp only [List.filter_cons, hq, Bool.not_true, Bool.not_false, if_true, if_false, List.flatMap_cons,
      List.countP_append, Bool.false_eq_true] <;> omega

theorem filter_key_ne {τ κ : Type} [DecidableEq κ] (k : τ → κ) {l : List τ} {c : κ} (h : c ∉ l.map k) :
    l.filter (fun y => decide (k y ≠ c)) = l := by
  rw [List.filter_eq_self]
  intro y hy
  exact decide_eq_true fun he => h (he ▸ List.mem_map_of_mem hy)

theorem countP_filter_key {τ κ : Type} [DecidableEq κ] (p : Row α → Bool) (g : τ → List (Row α)) (k : τ → κ) {l : List τ}
    {x : τ} (hn : (l.map k).Nodup) (hx : x ∈ l) :
    ((l.filter (fun y => decide (k y ≠ k x))).flatMap g).countP p + (g x).countP p = (l.flatMap g).countP p := by
  induction l with
  | nil => cases hx
  | cons y l ih =>
    rw [List.map_cons, List.nodup_cons] at hn
    rcases List.mem_cons.mp hx with rfl | hx'
    · rw [List.filter_cons_of_neg (by simp), filter_key_ne k hn.1, List.flatMap_cons, List.countP_append]
      omega
    · have : k y ≠ k x := fun he => hn.1 (he ▸ List.mem_map_of_mem hx')
      rw [List.filter_cons_of_pos (by simpa using this), List.flatMap_cons, List.flatMap_cons, List.countP_append,
        List.countP_append]
      have := ih hn.2 hx'
      omega

theorem find_hash {τ κ : Type} [DecidableEq κ] (k : τ → κ) {l : List τ} {c : κ} {x : τ}
    (h : l.find? (fun y => decide (k y = c)) = some x) : x ∈ l ∧ k x = c :=
  ⟨List.mem_of_find?_eq_some h, by simpa using List.find?_some h⟩

theorem find_hash_none {τ κ : Type} [DecidableEq κ] (k : τ → κ) {l : List τ} {c : κ}
    (h : l.find? (fun y => decide (k y = c)) = none) : c ∉ l.map k := by
  intro hc
  obtain ⟨x, hx, rfl⟩ := List.mem_map.mp hc
  have := List.find?_eq_none.mp h x hx
  simp at this

/-! Rows. -/

/-- What was written to the file of a buffer on disk. -/
def ghostRows (d : DiskBuffer α) : List (Row α) := rowsOf d.table d.ghost.tags d.ghost.points

def ghostBufferRows : Buffer α → List (Row α)
  | .inMemory b => memoryRows b
  | .onDisk d => ghostRows d

/-- The buffers on disk in a message. -/
def diskRefs : Message (Buffer α) → List (DiskBuffer α)
  | .data (.onDisk d) => [d]
  | _ => []

/-- The buffers in memory in a message. -/
def memoryRefs : Message (Buffer α) → List (MemoryBuffer α)
  | .data (.inMemory b) => [b]
  | _ => []

/-- All buffers on disk; `extra` are those that are being compressed. -/
def live (u : Uncompressed α) (extra : List (DiskBuffer α)) : List (DiskBuffer α) :=
  u.onDisk ++ u.channel.flatMap diskRefs ++ extra

structure DiskOk (env : Env α) (files : List (SpilledFile α)) (d : DiskBuffer α) : Prop where
  file : files.find? (fun f => f.path = d.path) = some d.ghost
  path : ∃ p ps, d.ghost.points = p :: ps ∧ d.path = ⟨d.table, d.hash, p.1⟩
  hash : d.hash = calculateTagHash env d.table d.ghost.tags
  sorted : d.ghost.points.Pairwise fun a b => a.1 ≤ b.1
  len : d.ghost.points.length ≤ env.capacity

structure MemoryOk (env : Env α) (b : MemoryBuffer α) : Prop where
  hash : b.hash = calculateTagHash env b.table b.tags
  nonempty : b.points ≠ []
  len : b.points.length ≤ env.capacity

structure UInv (env : Env α) (u : Uncompressed α) (extra : List (DiskBuffer α)) : Prop where
  memory : ∀ b ∈ u.inMemory, MemoryOk env b
  memoryLen : ∀ b ∈ u.inMemory, b.points.length < env.capacity
  diskLen : ∀ d ∈ u.onDisk, d.ghost.points.length < env.capacity
  hashes : (u.inMemory.map (·.hash) ++ u.onDisk.map (·.hash)).Nodup
  disk : ∀ d ∈ live u extra, DiskOk env u.files d
  paths : ((live u extra).map (·.path)).Nodup
  sent : ∀ b ∈ u.channel.flatMap memoryRefs, MemoryOk env b

/-- How many rows in the manager satisfy `p`. -/
def ucount (p : Row α → Bool) (u : Uncompressed α) : Nat :=
  (u.inMemory.flatMap memoryRows).countP p + (u.onDisk.flatMap ghostRows).countP p +
    (u.channel.flatMap (messageRows ghostBufferRows)).countP p

theorem UInv.memoryHashes {env : Env α} {u : Uncompressed α} {extra} (h : UInv env u extra) : (u.inMemory.map (·.hash)).Nodup :=
  (List.nodup_append.mp h.hashes).1

theorem UInv.diskHashes {env : Env α} {u : Uncompressed α} {extra} (h : UInv env u extra) : (u.onDisk.map (·.hash)).Nodup :=
  (List.nodup_append.mp h.hashes).2.1

theorem DiskOk.diskRows {env : Env α} {files} {d : DiskBuffer α} (h : DiskOk env files d) : diskRows files d = ghostRows d := by
  unfold Spec.Storage.diskRows
  rw [h.file]
  rfl

/-- Other files do not matter. -/
theorem DiskOk.write {env : Env α} {files} {d : DiskBuffer α} (h : DiskOk env files d) {f : SpilledFile α}
    (hne : d.path ≠ f.path) : DiskOk env (writeFile files f) d := by
  refine ⟨?_, h.path, h.hash, h.sorted, h.len⟩
  unfold writeFile
  rw [List.find?_append, List.find?_filter]
  have : files.find? (fun a => decide (decide (a.path ≠ f.path) = true ∧ decide (a.path = d.path) = true)) = files.find? (fun g => decide (g.path = d.path)) := by
    congr 1
    funext a
    by_cases ha : a.path = d.path
    · simp [ha, hne]
    · simp [ha]
  rw [this, h.file]
  rfl

theorem DiskOk.delete {env : Env α} {files} {d : DiskBuffer α} (h : DiskOk env files d) {path : Path}
    (hne : d.path ≠ path) : DiskOk env (files.filter (fun f => f.path ≠ path)) d := by
  refine ⟨?_, h.path, h.hash, h.sorted, h.len⟩
  rw [List.find?_filter]
  have : files.find? (fun a => decide (decide (a.path ≠ path) = true ∧ decide (a.path = d.path) = true)) = files.find? (fun g => decide (g.path = d.path)) := by
    congr 1
    funext a
    by_cases ha : a.path = d.path
    · simp [ha, hne]
    · simp [ha]
  rw [this, h.file]

theorem DiskOk.read {env : Env α} {files} {d : DiskBuffer α} (h : DiskOk env files d) :
    readFile files d.path = some (d.ghost, files.filter (fun f => f.path ≠ d.path)) := by
  unfold readFile
  rw [h.file]

theorem foldl_insert (batchIndex : Nat) (points : List (Int × α)) (b : MemoryBuffer α) (hb : b.updatedBy = batchIndex) :
    points.foldl (fun b p => b.insert batchIndex p.1 p.2) b = { b with points := b.points ++ points } := by
  induction points generalizing b with
  | nil => simp
  | cons p ps ih =>
    rw [List.foldl_cons, ih _ rfl]
    subst hb
    simp [MemoryBuffer.insert]

theorem DiskOk.readBack {env : Env α} {files} {d : DiskBuffer α} (h : DiskOk env files d) (batchIndex : Nat) :
    readBack d files batchIndex = some (⟨d.hash, d.table, d.ghost.tags, batchIndex, d.ghost.points, d.batchIds⟩,
      files.filter (fun f => f.path ≠ d.path)) := by
  unfold Model.Storage.readBack
  rw [h.read]
  simp only [MemoryBuffer.new]
  rw [foldl_insert batchIndex _ _ rfl]
  rfl

theorem rowsOf_append (t : String) (g : List String) (l l' : List (Int × α)) :
    rowsOf t g (l ++ l') = rowsOf t g l ++ rowsOf t g l' := List.map_append

theorem countP_rowsOf_perm (p : Row α → Bool) (t : String) (g : List String) {l l' : List (Int × α)} (h : l.Perm l') :
    (rowsOf t g l).countP p = (rowsOf t g l').countP p := (h.map _).countP_eq p

/-! Spilling. -/

/-- The path of a new file is not in use. -/
def Fresh (u : Uncompressed α) (extra : List (DiskBuffer α)) : Prop :=
  ∀ b ∈ u.inMemory, ∀ d ∈ live u extra, ∀ x ∈ b.points, d.path ≠ ⟨b.table, b.hash, x.1⟩

/-- The manager after the first buffer is spilled. -/
structure Spilled (env : Env α) (u u' : Uncompressed α) (b : MemoryBuffer α) : Prop where
  inMemory : u.inMemory = b :: u'.inMemory
  disk : ∃ d, u'.onDisk = u.onDisk ++ [d] ∧ d.hash = b.hash ∧ d.table = b.table ∧ d.updatedBy = b.updatedBy ∧
    d.batchIds = b.batchIds ∧ d.ghost.tags = b.tags ∧ d.ghost.points.Perm b.points ∧ u'.files = writeFile u.files d.ghost ∧
    d.ghost.path = d.path ∧ (∃ x ∈ b.points, d.path = ⟨b.table, b.hash, x.1⟩)
  channel : u'.channel = u.channel
  batchIndex : u'.batchIndex = u.batchIndex
  remaining : u'.remaining = u.remaining + computeMemorySize env b.table
  unreserved : u'.unreserved = u.unreserved

theorem find_append_of_not_mem {τ : Type} {q : τ → Bool} {l : List τ} {x : τ} (h : ∀ y ∈ l, q y = false) (hx : q x = true) :
    (l ++ [x]).find? q = some x := by
  rw [List.find?_append, List.find?_eq_none.mpr (by simpa using h)]
  simp [hx]

theorem spill_ok {env : Env α} (hs : Sorts env) {u : Uncompressed α} {extra} (hi : UInv env u extra)
    (hf : Fresh u extra) {b : MemoryBuffer α} {rest : List (MemoryBuffer α)} (hb : u.inMemory = b :: rest) :
    ∃ u', spill env true u = .ok u' ∧ Spilled env u u' b ∧ UInv env u' extra := by
  have hbm : b ∈ u.inMemory := by simp [hb]
  have hbo := hi.memory b hbm
  obtain ⟨hperm, hsorted⟩ := hs b.points
  cases hsort : env.sort b.points with
  | nil =>
    rw [hsort] at hperm
    exact absurd hperm.symm.eq_nil hbo.nonempty
  | cons x xs =>
    rw [hsort] at hperm hsorted
    have hx : x ∈ b.points := hperm.subset (by simp)
    have hnd := hi.hashes
    have hbd : b.hash ∉ u.onDisk.map (·.hash) := by
      rw [hb] at hnd
      simp only [List.map_cons, List.cons_append, List.nodup_cons, List.mem_append, not_or] at hnd
      exact hnd.1.2
    have hput : ∀ d : DiskBuffer α, d.hash = b.hash → putDisk u.onDisk d = u.onDisk ++ [d] := by
      intro d hd
      unfold putDisk
      rw [filter_key_ne (fun x : DiskBuffer α => x.hash) (by rw [hd]; exact hbd)]
    refine ⟨{ u with
          inMemory := rest
          onDisk := putDisk u.onDisk ⟨b.hash, b.table, b.updatedBy, ⟨b.table, b.hash, x.1⟩, b.batchIds,
            ⟨⟨b.table, b.hash, x.1⟩, b.tags, x :: xs⟩⟩
          files := writeFile u.files ⟨⟨b.table, b.hash, x.1⟩, b.tags, x :: xs⟩
          remaining := u.remaining + computeMemorySize env b.table }, ?_, ⟨?_, ⟨⟨b.hash, b.table, b.updatedBy, ⟨b.table, b.hash, x.1⟩, b.batchIds, ⟨⟨b.table, b.hash, x.1⟩, b.tags, x :: xs⟩⟩,
        hput _ rfl, rfl, rfl, rfl, rfl, rfl, hperm, rfl, rfl, x, hx, rfl⟩, rfl, rfl, rfl, rfl⟩, ?_⟩
    · unfold spill
      rw [hb]
      simp only [hsort, if_true]
    · exact hb
    · rw [hput _ rfl]
      have hlive : ∀ d, d ∈ live { u with inMemory := rest, onDisk := u.onDisk ++ [d] } extra := by simp [live]
      constructor
      · intro c hc
        exact hi.memory c (by rw [hb]; exact List.mem_cons_of_mem _ hc)
      · intro c hc
        exact hi.memoryLen c (by rw [hb]; exact List.mem_cons_of_mem _ hc)
      · intro d hd
        rcases List.mem_append.mp hd with hd | hd
        · exact hi.diskLen d hd
        · rw [List.mem_singleton] at hd
          subst hd
          have := hi.memoryLen b hbm
          rw [← hperm.length_eq] at this
          exact this
      · rw [hb] at hnd
        simp only [List.map_append, List.map_cons, List.map_nil, ← List.append_assoc]
        rw [List.map_cons, List.cons_append] at hnd
        exact (List.perm_append_singleton _ _).nodup_iff.mpr hnd
      · intro d hd
        simp only [live, List.mem_append, List.mem_singleton] at hd
        have hold : ∀ d ∈ live u extra, DiskOk env (writeFile u.files ⟨⟨b.table, b.hash, x.1⟩, b.tags, x :: xs⟩) d := by
          intro d hd
          exact (hi.disk d hd).write (hf b hbm d hd x hx)
        rcases hd with ((hd | rfl) | hd) | hd
        · exact hold d (by simp [live, hd])
        · refine ⟨?_, ⟨x, xs, rfl, rfl⟩, hbo.hash, hsorted, ?_⟩
          · unfold writeFile
            exact find_append_of_not_mem (by intro y hy; simpa using (List.mem_filter.mp hy).2) (by simp)
          · rw [hperm.length_eq]
            exact hbo.len
        · exact hold d (by simp only [live, List.mem_append]; exact Or.inl (Or.inr hd))
        · exact hold d (by simp only [live, List.mem_append]; exact Or.inr hd)
      · have hp := hi.paths
        have hnew : (⟨b.table, b.hash, x.1⟩ : Path) ∉ (live u extra).map (·.path) := by
          intro hm
          obtain ⟨d, hd, he⟩ := List.mem_map.mp hm
          exact hf b hbm d hd x hx he
        have : ((⟨b.table, b.hash, x.1⟩ : Path) :: (live u extra).map (·.path)).Nodup := List.nodup_cons.mpr ⟨hnew, hp⟩
        refine (List.Perm.nodup_iff ?_).mpr this
        simp only [live, List.map_append, List.map_cons, List.append_assoc, List.singleton_append]
        exact List.perm_middle
      · exact hi.sent

theorem Spilled.ucount {env : Env α} {u u' : Uncompressed α} {b} (h : Spilled env u u' b) (p : Row α → Bool) :
    ucount p u' = ucount p u := by
  obtain ⟨d, h1, h2, h3, h4, h5, h6, h7, _⟩ := h.disk
  unfold Lemmas.Storage.ucount
  rw [h.inMemory, h1, h.channel]
  have : (ghostRows d).countP p = (memoryRows b).countP p := by
    unfold ghostRows memoryRows
    rw [h3, h6, countP_rowsOf_perm p _ _ h7]
  simp only [List.flatMap_cons, List.flatMap_append, List.flatMap_nil, List.append_nil, List.countP_append, this]
  omega

theorem Spilled.live {env : Env α} {u u' : Uncompressed α} {b} (h : Spilled env u u' b) :
    ∃ d, u'.onDisk = u.onDisk ++ [d] ∧ d.hash = b.hash ∧ d.table = b.table ∧ d.ghost.tags = b.tags := by
  obtain ⟨d, h1, h2, h3, h4, h5, h6, _⟩ := h.disk
  exact ⟨d, h1, h2, h3, h6⟩

/-! Reserving memory. -/

/-- What reserving memory may do: nothing but change the counter, or spill the first buffer. -/
inductive Reserved (env : Env α) (table : String) (u : Uncompressed α) : Uncompressed α → Prop
  | counter (h : (computeMemorySize env table : Int) ≤ u.remaining) :
      Reserved env table u { u with remaining := u.remaining - computeMemorySize env table }
  | spilled {u' : Uncompressed α} {b : MemoryBuffer α} (h : Spilled env u u' b) (hr : u.remaining < computeMemorySize env table)
      (hc : u.channel = []) : Reserved env table u { u' with unreserved := u'.unreserved + computeMemorySize env table }

theorem UInv.congr {env : Env α} {u u' : Uncompressed α} {extra} (h : UInv env u extra) (h1 : u'.inMemory = u.inMemory)
    (h2 : u'.onDisk = u.onDisk) (h3 : u'.files = u.files) (h4 : u'.channel = u.channel) : UInv env u' extra := by
  have hl : live u' extra = live u extra := by unfold live; rw [h2, h4]
  refine ⟨?_, ?_, ?_, ?_, ?_, ?_, ?_⟩
  · rw [h1]; exact h.memory
  · rw [h1]; exact h.memoryLen
  · rw [h2]; exact h.diskLen
  · rw [h1, h2]; exact h.hashes
  · rw [hl, h3]; exact h.disk
  · rw [hl]; exact h.paths
  · rw [h4]; exact h.sent

theorem ucount_congr {u u' : Uncompressed α} (p : Row α → Bool) (h1 : u'.inMemory = u.inMemory)
    (h2 : u'.onDisk = u.onDisk) (h4 : u'.channel = u.channel) : ucount p u' = ucount p u := by
  unfold ucount
  rw [h1, h2, h4]

theorem reserve_spec {env : Env α} (hs : Sorts env) {u : Uncompressed α} {extra} (hi : UInv env u extra) (hf : Fresh u extra)
    (table : String) :
    (∃ u', reserve env true u table = .ok u' ∧ Reserved env table u u' ∧ UInv env u' extra) ∨
      (reserve env true u table = .wait ∧ u.channel ≠ [] ∧ u.remaining < computeMemorySize env table) ∨
      (reserve env true u table = .failed u ∧ u.inMemory = [] ∧ u.channel = [] ∧ u.remaining < computeMemorySize env table) := by
  unfold reserve
  by_cases h1 : (computeMemorySize env table : Int) ≤ u.remaining
  · rw [if_pos h1]
    exact Or.inl ⟨_, rfl, .counter h1, hi.congr rfl rfl rfl rfl⟩
  · rw [if_neg h1]
    by_cases h2 : u.channel.isEmpty = true
    · rw [if_pos h2]
      have hc : u.channel = [] := List.isEmpty_iff.mp h2
      cases hm : u.inMemory with
      | nil =>
        refine Or.inr (Or.inr ⟨?_, rfl, hc, by omega⟩)
        unfold spill
        rw [hm]
      | cons b rest =>
        obtain ⟨u', h3, h4, h5⟩ := spill_ok hs hi hf hm
        rw [h3]
        exact Or.inl ⟨_, rfl, .spilled h4 (by omega) hc, h5.congr rfl rfl rfl rfl⟩
    · rw [if_neg h2]
      exact Or.inr (Or.inl ⟨rfl, fun hc => h2 (by simp [hc]), by omega⟩)

theorem Reserved.ucount {env : Env α} {table} {u u' : Uncompressed α} (h : Reserved env table u u') (p : Row α → Bool) :
    ucount p u' = ucount p u := by
  cases h with
  | counter => exact ucount_congr p rfl rfl rfl
  | spilled h => rw [← h.ucount p]; exact ucount_congr p rfl rfl rfl

/-- The open buffers after memory is reserved. -/
theorem Reserved.memory {env : Env α} {table} {u u' : Uncompressed α} (h : Reserved env table u u') : ∀ b ∈ u'.inMemory, b ∈ u.inMemory := by
  cases h with
  | counter => exact fun _ h => h
  | spilled h => intro b hb; rw [h.inMemory]; exact List.mem_cons_of_mem _ hb

/-- The open buffers after memory is reserved. -/
theorem Reserved.disk {env : Env α} {table} {u u' : Uncompressed α} (h : Reserved env table u u') :
    ∀ d ∈ u'.onDisk, d ∈ u.onDisk ∨ ∃ b ∈ u.inMemory, d.hash = b.hash ∧ d.table = b.table ∧ d.updatedBy = b.updatedBy ∧
      d.batchIds = b.batchIds ∧ d.ghost.tags = b.tags ∧ d.ghost.points.Perm b.points := by
  cases h with
  | counter => exact fun _ h => Or.inl h
  | spilled h =>
    obtain ⟨d', h1, h2, h3, h4, h5, h6, h7, _⟩ := h.disk
    intro d hd
    rw [h1, List.mem_append, List.mem_singleton] at hd
    rcases hd with hd | rfl
    · exact Or.inl hd
    · exact Or.inr ⟨_, by rw [h.inMemory]; exact List.mem_cons_self .., h2, h3, h4, h5, h6, h7⟩

theorem Reserved.rest {env : Env α} {table} {u u' : Uncompressed α} (h : Reserved env table u u') :
    u'.channel = u.channel ∧ u'.batchIndex = u.batchIndex := by
  cases h with
  | counter => exact ⟨rfl, rfl⟩
  | spilled h => exact ⟨h.channel, h.batchIndex⟩

/-! Inserting rows. -/

theorem placeBuffer_inMemory (env : Env α) (u : Uncompressed α) (b : MemoryBuffer α) :
    (placeBuffer env u b).inMemory = u.inMemory.filter (fun x => x.hash ≠ b.hash) ++ (if b.isFull env then [] else [b]) := by
  unfold placeBuffer putMemory
  cases b.isFull env <;> simp

theorem placeBuffer_channel (env : Env α) (u : Uncompressed α) (b : MemoryBuffer α) :
    (placeBuffer env u b).channel = u.channel ++ (if b.isFull env then [.data (.inMemory b)] else []) := by
  unfold placeBuffer
  cases b.isFull env <;> simp

theorem placeBuffer_rest (env : Env α) (u : Uncompressed α) (b : MemoryBuffer α) :
    (placeBuffer env u b).onDisk = u.onDisk ∧ (placeBuffer env u b).files = u.files ∧
      (placeBuffer env u b).remaining = u.remaining ∧ (placeBuffer env u b).unreserved = u.unreserved ∧
      (placeBuffer env u b).batchIndex = u.batchIndex := by
  unfold placeBuffer
  cases b.isFull env <;> simp

theorem placeBuffer_ucount (env : Env α) (u : Uncompressed α) (b : MemoryBuffer α) (p : Row α → Bool) :
    ucount p (placeBuffer env u b) =
      ucount p { u with inMemory := u.inMemory.filter (fun x => x.hash ≠ b.hash) } + (memoryRows b).countP p := by
  unfold ucount
  rw [placeBuffer_inMemory, placeBuffer_channel, (placeBuffer_rest env u b).1]
  cases b.isFull env <;>
    simp only [Bool.false_eq_true, if_true, if_false, List.append_nil, List.flatMap_append, List.flatMap_cons, List.flatMap_nil,
      List.countP_append, messageRows, ghostBufferRows] <;> omega

/-- The open buffers do not contain a buffer with the hash. -/
theorem nodup_place {m : List (MemoryBuffer α)} {l : List Nat} {b : MemoryBuffer α} (h : (m.map (·.hash) ++ l).Nodup)
    (hb : b.hash ∉ l) :
    (((m.filter (fun x => x.hash ≠ b.hash)) ++ [b]).map (·.hash) ++ l).Nodup := by
  have h1 : ((m.filter (fun x => x.hash ≠ b.hash)).map (·.hash) ++ l).Nodup :=
    h.sublist ((List.filter_sublist.map _).append (List.Sublist.refl l))
  have h2 : b.hash ∉ (m.filter (fun x => x.hash ≠ b.hash)).map (·.hash) ++ l := by
    intro hm
    rcases List.mem_append.mp hm with hm | hm
    · obtain ⟨x, hx, he⟩ := List.mem_map.mp hm
      have := (List.mem_filter.mp hx).2
      simp [he] at this
    · exact hb hm
  refine (List.Perm.nodup_iff ?_).mpr (List.nodup_cons.mpr ⟨h2, h1⟩)
  simp only [List.map_append, List.map_cons, List.map_nil, List.append_assoc, List.singleton_append]
  exact List.perm_middle

theorem placeBuffer_inv {env : Env α} {u : Uncompressed α} {extra} (hi : UInv env u extra) {b : MemoryBuffer α}
    (hb : MemoryOk env b) (hd : b.hash ∉ u.onDisk.map (·.hash)) : UInv env (placeBuffer env u b) extra := by
  have h1 := placeBuffer_inMemory env u b
  have h2 := placeBuffer_channel env u b
  obtain ⟨h3, h4, _⟩ := placeBuffer_rest env u b
  have hlive : live (placeBuffer env u b) extra = live u extra := by
    unfold live
    rw [h2, h3]
    cases b.isFull env <;> simp [diskRefs]
  have hmem : ∀ c ∈ (placeBuffer env u b).inMemory, c ∈ u.inMemory ∨ (c = b ∧ b.isFull env = false) := by
    intro c hc
    rw [h1, List.mem_append] at hc
    rcases hc with hc | hc
    · exact Or.inl (List.mem_filter.mp hc).1
    · cases hf : b.isFull env <;> simp_all
  refine ⟨?_, ?_, ?_, ?_, ?_, ?_, ?_⟩
  · intro c hc
    rcases hmem c hc with hc | ⟨rfl, _⟩
    · exact hi.memory c hc
    · exact hb
  · intro c hc
    rcases hmem c hc with hc | ⟨rfl, hf⟩
    · exact hi.memoryLen c hc
    · have := hb.len
      unfold MemoryBuffer.isFull at hf
      rw [beq_eq_false_iff_ne] at hf
      omega
  · rw [h3]
    exact hi.diskLen
  · rw [h1, h3]
    refine (nodup_place hi.hashes hd).sublist (List.Sublist.append (List.Sublist.map _ ?_) (List.Sublist.refl _))
    refine List.Sublist.append (List.Sublist.refl _) ?_
    cases b.isFull env <;> simp
  · rw [hlive, h4]
    exact hi.disk
  · rw [hlive]
    exact hi.paths
  · intro c hc
    rw [h2, List.flatMap_append, List.mem_append] at hc
    rcases hc with hc | hc
    · exact hi.sent c hc
    · cases hf : b.isFull env <;> simp [hf, memoryRefs] at hc
      subst hc
      exact hb

/-- What inserting a row may do: add it to a buffer in memory, read a buffer back or create one. -/
inductive Inserted (env : Env α) (extra : List (DiskBuffer α)) (u : Uncompressed α) (r : Row α) (batchId : Option Nat) : Uncompressed α → Prop
  | existing {b : MemoryBuffer α} (hb : b ∈ u.inMemory) (hh : b.hash = calculateTagHash env r.table r.tags) :
      Inserted env extra u r batchId (placeBuffer env u ((b.insert u.batchIndex r.ts r.val).insertBatchId batchId))
  | readBack {u' : Uncompressed α} {d : DiskBuffer α} (hr : Reserved env r.table u u') (hi : UInv env u' extra)
      (hm : calculateTagHash env r.table r.tags ∉ u.inMemory.map (·.hash)) (hd : d ∈ u'.onDisk)
      (hh : d.hash = calculateTagHash env r.table r.tags) :
      Inserted env extra u r batchId (placeBuffer env { u' with
          files := u'.files.filter (fun f => f.path ≠ d.path)
          onDisk := u'.onDisk.filter (fun x => x.hash ≠ calculateTagHash env r.table r.tags) }
        (((⟨d.hash, d.table, d.ghost.tags, u'.batchIndex, d.ghost.points, d.batchIds⟩ : MemoryBuffer α).insert u'.batchIndex
          r.ts r.val).insertBatchId batchId))
  | created {u' : Uncompressed α} (hr : Reserved env r.table u u') (hi : UInv env u' extra)
      (hm : calculateTagHash env r.table r.tags ∉ u.inMemory.map (·.hash))
      (hd : calculateTagHash env r.table r.tags ∉ u'.onDisk.map (·.hash)) :
      Inserted env extra u r batchId { u' with
        inMemory := putMemory u'.inMemory
          ⟨calculateTagHash env r.table r.tags, r.table, r.tags, u'.batchIndex, [(r.ts, r.val)], batchId.toList⟩ }

theorem insertDataPoint_cases {env : Env α} (hs : Sorts env) {u : Uncompressed α} {extra} (hi : UInv env u extra)
    (hf : Fresh u extra) (r : Row α) (batchId : Option Nat) :
    (∃ u', insertDataPoint env true u r batchId = .ok u' ∧ Inserted env extra u r batchId u') ∨
      (insertDataPoint env true u r batchId = .wait ∧ u.channel ≠ [] ∧ u.remaining < computeMemorySize env r.table) ∨
      (insertDataPoint env true u r batchId = .failed u ∧ u.inMemory = [] ∧ u.channel = [] ∧
        u.remaining < computeMemorySize env r.table) := by
  unfold insertDataPoint
  dsimp only
  cases hfind : u.inMemory.find? (fun b => decide (b.hash = calculateTagHash env r.table r.tags)) with
  | some b =>
    obtain ⟨hb, hh⟩ := find_hash (fun b : MemoryBuffer α => b.hash) hfind
    exact Or.inl ⟨_, rfl, .existing hb hh⟩
  | none =>
    have hm := find_hash_none (fun b : MemoryBuffer α => b.hash) hfind
    rcases reserve_spec hs hi hf r.table with ⟨u', h1, h2, h3⟩ | ⟨h1, h2⟩ | ⟨h1, h2⟩
    · rw [h1]
      dsimp only
      cases hfd : u'.onDisk.find? (fun d => decide (d.hash = calculateTagHash env r.table r.tags)) with
      | some d =>
        obtain ⟨hd, hh⟩ := find_hash (fun d : DiskBuffer α => d.hash) hfd
        dsimp only
        rw [(h3.disk d (by simp [live, hd])).readBack]
        exact Or.inl ⟨_, rfl, .readBack h2 h3 hm hd hh⟩
      | none =>
        exact Or.inl ⟨_, rfl, .created h2 h3 hm (find_hash_none (fun d : DiskBuffer α => d.hash) hfd)⟩
    · rw [h1]
      exact Or.inr (Or.inl ⟨rfl, h2⟩)
    · rw [h1]
      exact Or.inr (Or.inr ⟨rfl, h2⟩)

theorem insertBatchId_fields (b : MemoryBuffer α) (batchId : Option Nat) :
    (b.insertBatchId batchId).hash = b.hash ∧ (b.insertBatchId batchId).table = b.table ∧ (b.insertBatchId batchId).tags = b.tags ∧
      (b.insertBatchId batchId).points = b.points ∧ (b.insertBatchId batchId).updatedBy = b.updatedBy ∧
      ∀ i, i ∈ (b.insertBatchId batchId).batchIds ↔ i ∈ b.batchIds ∨ batchId = some i := by
  cases batchId with
  | none => simp [MemoryBuffer.insertBatchId]
  | some id =>
    simp only [MemoryBuffer.insertBatchId, true_and, Option.some.injEq]
    intro i
    split
    · next h =>
      constructor
      · exact Or.inl
      · rintro (h' | rfl)
        · exact h'
        · exact h
    · simp [eq_comm]

/-- The buffers with the hash of a row belong to the series of the row. -/
structure NoCollision (env : Env α) (u : Uncompressed α) (r : Row α) : Prop where
  memory : ∀ b ∈ u.inMemory, b.hash = calculateTagHash env r.table r.tags → b.table = r.table ∧ b.tags = r.tags
  disk : ∀ d ∈ u.onDisk, d.hash = calculateTagHash env r.table r.tags → d.table = r.table ∧ d.ghost.tags = r.tags

theorem NoCollision.reserved {env : Env α} {u u' : Uncompressed α} {r : Row α} {table : String} (h : NoCollision env u r)
    (hr : Reserved env table u u') : NoCollision env u' r := by
  constructor
  · intro b hb
    exact h.memory b (hr.memory b hb)
  · intro d hd hh
    rcases hr.disk d hd with hd | ⟨b, hb, h1, h2, _, _, h3, _⟩
    · exact h.disk d hd hh
    · rw [h2, h3]
      exact h.memory b hb (by rw [← h1]; exact hh)

/-- A buffer after a row is inserted. -/
theorem insertRow_ok {env : Env α} {b : MemoryBuffer α} (ix : Nat) (r : Row α) (batchId : Option Nat)
    (hh : b.hash = calculateTagHash env b.table b.tags) (hl : b.points.length < env.capacity) :
    MemoryOk env ((b.insert ix r.ts r.val).insertBatchId batchId) := by
  obtain ⟨h1, h2, h3, h4, _⟩ := insertBatchId_fields (b.insert ix r.ts r.val) batchId
  constructor
  · rw [h1, h2, h3]; exact hh
  · rw [h4]; simp [MemoryBuffer.insert]
  · rw [h4]; simp only [MemoryBuffer.insert, List.length_append, List.length_singleton]; omega

theorem insertRow_rows {b : MemoryBuffer α} (ix : Nat) (r : Row α) (batchId : Option Nat) (ht : b.table = r.table)
    (hg : b.tags = r.tags) : memoryRows ((b.insert ix r.ts r.val).insertBatchId batchId) = memoryRows b ++ [r] := by
  obtain ⟨h1, h2, h3, h4, _⟩ := insertBatchId_fields (b.insert ix r.ts r.val) batchId
  unfold memoryRows
  rw [h2, h3, h4]
  simp only [MemoryBuffer.insert, rowsOf_append]
  rw [ht, hg]
  rfl

theorem removeDisk_inv {env : Env α} {u : Uncompressed α} {extra} (hi : UInv env u extra) {d : DiskBuffer α} (hd : d ∈ u.onDisk) :
    UInv env { u with
      files := u.files.filter (fun f => f.path ≠ d.path)
      onDisk := u.onDisk.filter (fun x => x.hash ≠ d.hash) } extra := by
  have hsub : (u.onDisk.filter (fun x => x.hash ≠ d.hash)).Sublist u.onDisk := List.filter_sublist
  have hlive : (live { u with
      files := u.files.filter (fun f => f.path ≠ d.path)
      onDisk := u.onDisk.filter (fun x => x.hash ≠ d.hash) } extra).Sublist (live u extra) :=
    (hsub.append (List.Sublist.refl _)).append (List.Sublist.refl _)
  refine ⟨hi.memory, hi.memoryLen, fun x hx => hi.diskLen x (hsub.subset hx), ?_, ?_, ?_, hi.sent⟩
  · exact hi.hashes.sublist ((List.Sublist.refl _).append (hsub.map _))
  · intro x hx
    refine (hi.disk x (hlive.subset hx)).delete ?_
    have hp := hi.paths
    obtain ⟨l1, l2, hl⟩ := List.append_of_mem hd
    have hfilter : u.onDisk.filter (fun x => x.hash ≠ d.hash) = l1 ++ l2 := by
      have hn := hi.diskHashes
      rw [hl] at hn ⊢
      rw [List.map_append, List.map_cons, List.nodup_middle, List.nodup_cons, ← List.map_append] at hn
      rw [List.filter_append, List.filter_cons_of_neg (by simp), ← List.filter_append, filter_key_ne (fun x : DiskBuffer α => x.hash) hn.1]
    intro he
    simp only [live, hfilter] at hx
    simp only [live, hl, List.map_append, List.map_cons, List.append_assoc, List.cons_append] at hp
    rw [List.nodup_middle, List.nodup_cons] at hp
    apply hp.1
    rw [← he]
    simp only [List.mem_append] at hx ⊢
    rcases hx with ((hx | hx) | hx) | hx
    · exact Or.inl (List.mem_map_of_mem hx)
    · exact Or.inr (Or.inl (List.mem_map_of_mem hx))
    · exact Or.inr (Or.inr (Or.inl (List.mem_map_of_mem hx)))
    · exact Or.inr (Or.inr (Or.inr (List.mem_map_of_mem hx)))
  · exact hi.paths.sublist (hlive.map _)

theorem Inserted.spec {env : Env α} (hcap : 2 ≤ env.capacity) {extra} {u u' : Uncompressed α} {r : Row α} {batchId}
    (h : Inserted env extra u r batchId u') (hi : UInv env u extra) (hnc : NoCollision env u r) :
    UInv env u' extra ∧ ∀ p, ucount p u' = ucount p u + (if p r then 1 else 0) := by
  cases h with
  | @existing b hb hh =>
    obtain ⟨ht, hg⟩ := hnc.memory b hb hh
    obtain ⟨hf1, _⟩ := insertBatchId_fields (b.insert u.batchIndex r.ts r.val) batchId
    have hbh : ((b.insert u.batchIndex r.ts r.val).insertBatchId batchId).hash = b.hash := hf1
    constructor
    · refine placeBuffer_inv hi (insertRow_ok _ _ _ (hi.memory b hb).hash (hi.memoryLen b hb)) ?_
      rw [hbh]
      have := List.nodup_append.mp hi.hashes
      intro hm
      exact this.2.2 _ (List.mem_map_of_mem hb) _ hm rfl
    · intro p
      rw [placeBuffer_ucount, insertRow_rows _ _ _ ht hg, hbh]
      unfold ucount
      have := countP_filter_key p memoryRows (fun b : MemoryBuffer α => b.hash) hi.memoryHashes hb
      rw [List.countP_append, List.countP_singleton]
      dsimp only
      omega
  | @readBack u' d hr hi' hm hd hh =>
    obtain ⟨ht, hg⟩ := (hnc.reserved hr).disk d hd hh
    have hc := hr.ucount
    generalize hb0 : (⟨d.hash, d.table, d.ghost.tags, u'.batchIndex, d.ghost.points, d.batchIds⟩ : MemoryBuffer α) = b0
    obtain ⟨hf1, _⟩ := insertBatchId_fields (b0.insert u'.batchIndex r.ts r.val) batchId
    have hbh : ((b0.insert u'.batchIndex r.ts r.val).insertBatchId batchId).hash = d.hash := by
      rw [hf1, ← hb0]; rfl
    have hdok := hi'.disk d (by simp [live, hd])
    constructor
    · have := removeDisk_inv hi' hd
      rw [hh] at this
      refine placeBuffer_inv this (insertRow_ok _ _ _ ?_ ?_) ?_
      · rw [← hb0]; exact hdok.hash
      · rw [← hb0]; exact hi'.diskLen d hd
      · rw [hbh]
        intro hx
        obtain ⟨x, hx, he⟩ := List.mem_map.mp hx
        have := (List.mem_filter.mp hx).2
        simp [he, hh] at this
    · intro p
      rw [placeBuffer_ucount, insertRow_rows _ _ _ (by rw [← hb0]; exact ht) (by rw [← hb0]; exact hg), hbh, ← hc p]
      unfold ucount
      have h1 := countP_filter_key p ghostRows (fun d : DiskBuffer α => d.hash) hi'.diskHashes hd
      have h2 : memoryRows b0 = ghostRows d := by rw [← hb0]; rfl
      have h3 : u'.inMemory.filter (fun x => x.hash ≠ d.hash) = u'.inMemory := by
        refine filter_key_ne (fun x : MemoryBuffer α => x.hash) ?_
        intro hx
        have := List.nodup_append.mp hi'.hashes
        exact this.2.2 _ hx _ (List.mem_map_of_mem hd) rfl
      rw [List.countP_append, List.countP_singleton, h2]
      dsimp only
      rw [h3, ← hh]
      omega
  | @created u' hr hi' hm hd =>
    have hmem : ∀ b ∈ u'.inMemory, b.hash ≠ calculateTagHash env r.table r.tags := by
      intro b hb he
      exact hm (he ▸ List.mem_map_of_mem (hr.memory b hb))
    have hput : ∀ b : MemoryBuffer α, b.hash = calculateTagHash env r.table r.tags → putMemory u'.inMemory b = u'.inMemory ++ [b] := by
      intro b hb
      unfold putMemory
      rw [filter_key_ne (fun x : MemoryBuffer α => x.hash)]
      intro hx
      obtain ⟨x, hx, he⟩ := List.mem_map.mp hx
      exact hmem x hx (he.trans hb)
    constructor
    · rw [hput _ rfl]
      refine ⟨?_, ?_, hi'.diskLen, ?_, hi'.disk, hi'.paths, hi'.sent⟩
      · intro b hb
        rcases List.mem_append.mp hb with hb | hb
        · exact hi'.memory b hb
        · rw [List.mem_singleton] at hb
          subst hb
          exact ⟨rfl, by simp, by simp only [List.length_singleton]; omega⟩
      · intro b hb
        rcases List.mem_append.mp hb with hb | hb
        · exact hi'.memoryLen b hb
        · rw [List.mem_singleton] at hb
          subst hb
          simp only [List.length_singleton]; omega
      · have := nodup_place (b := ⟨calculateTagHash env r.table r.tags, r.table, r.tags, u'.batchIndex, [(r.ts, r.val)], batchId.toList⟩)
          hi'.hashes hd
        rw [filter_key_ne (fun x : MemoryBuffer α => x.hash)] at this
        · exact this
        · intro hx
          obtain ⟨x, hx, he⟩ := List.mem_map.mp hx
          exact hmem x hx he
    · intro p
      rw [hput _ rfl, ← hr.ucount p]
      unfold ucount
      simp only [List.flatMap_append, List.flatMap_cons, List.flatMap_nil, List.append_nil, List.countP_append]
      have : memoryRows (⟨calculateTagHash env r.table r.tags, r.table, r.tags, u'.batchIndex, [(r.ts, r.val)], batchId.toList⟩ : MemoryBuffer α) =
          [r] := rfl
      rw [this, List.countP_singleton]
      omega

/-! The other functions. -/

theorem flatMap_data_memory (l : List (MemoryBuffer α)) :
    (l.map fun b => (.data (.inMemory b) : Message (Buffer α))).flatMap (messageRows ghostBufferRows) = l.flatMap memoryRows ∧
      (l.map fun b => (.data (.inMemory b) : Message (Buffer α))).flatMap diskRefs = [] ∧
      (l.map fun b => (.data (.inMemory b) : Message (Buffer α))).flatMap memoryRefs = l := by
  induction l with
  | nil => exact ⟨rfl, rfl, rfl⟩
  | cons b l ih =>
    simp only [List.map_cons, List.flatMap_cons, ih.1, ih.2.1, ih.2.2]
    exact ⟨rfl, rfl, rfl⟩

theorem flatMap_data_disk (l : List (DiskBuffer α)) :
    (l.map fun b => (.data (.onDisk b) : Message (Buffer α))).flatMap (messageRows ghostBufferRows) = l.flatMap ghostRows ∧
      (l.map fun b => (.data (.onDisk b) : Message (Buffer α))).flatMap diskRefs = l ∧
      (l.map fun b => (.data (.onDisk b) : Message (Buffer α))).flatMap memoryRefs = [] := by
  induction l with
  | nil => exact ⟨rfl, rfl, rfl⟩
  | cons b l ih =>
    simp only [List.map_cons, List.flatMap_cons, ih.1, ih.2.1, ih.2.2]
    exact ⟨rfl, rfl, rfl⟩

/-- Sending some of the open buffers to the compressor. -/
theorem send_spec {env : Env α} {u : Uncompressed α} {extra} (hi : UInv env u extra) (qm : MemoryBuffer α → Bool)
    (qd : DiskBuffer α → Bool) (batchIndex : Nat) :
    let u' : Uncompressed α := { u with
      batchIndex := batchIndex
      inMemory := u.inMemory.filter (fun b => !qm b)
      onDisk := u.onDisk.filter (fun d => !qd d)
      channel := u.channel ++ (u.inMemory.filter qm).map (fun b => .data (.inMemory b)) ++
        (u.onDisk.filter qd).map (fun d => .data (.onDisk d)) }
    UInv env u' extra ∧ (∀ p, ucount p u' = ucount p u) ∧ (live u' extra).Perm (live u extra) := by
  intro u'
  have hlive : (live u' extra).Perm (live u extra) := by
    simp only [live, u', List.flatMap_append, (flatMap_data_memory _).2.1, (flatMap_data_disk _).2.1, List.append_nil]
    refine List.Perm.append ?_ (List.Perm.refl _)
    have h1 : (u.onDisk.filter (fun d => !qd d) ++ (u.channel.flatMap diskRefs ++ u.onDisk.filter qd)).Perm
        ((u.onDisk.filter qd ++ u.onDisk.filter (fun d => !qd d)) ++ u.channel.flatMap diskRefs) := by
      rw [← List.append_assoc]
      refine List.perm_append_comm.trans ?_
      rw [← List.append_assoc]
    exact h1.trans ((List.filter_append_perm qd u.onDisk).append (List.Perm.refl _))
  refine ⟨⟨?_, ?_, ?_, ?_, ?_, ?_, ?_⟩, ?_, hlive⟩
  · exact fun b hb => hi.memory b (List.mem_filter.mp hb).1
  · exact fun b hb => hi.memoryLen b (List.mem_filter.mp hb).1
  · exact fun b hb => hi.diskLen b (List.mem_filter.mp hb).1
  · exact hi.hashes.sublist ((List.filter_sublist.map _).append (List.filter_sublist.map _))
  · exact fun d hd => hi.disk d (hlive.subset hd)
  · exact (hlive.map _).nodup_iff.mpr hi.paths
  · intro b hb
    simp only [u', List.flatMap_append, (flatMap_data_memory _).2.2, (flatMap_data_disk _).2.2, List.append_nil, List.mem_append] at hb
    rcases hb with hb | hb
    · exact hi.sent b hb
    · exact hi.memory b (List.mem_filter.mp hb).1
  · intro p
    simp only [ucount, u', List.flatMap_append, (flatMap_data_memory _).1, (flatMap_data_disk _).1, List.countP_append]
    have h1 := countP_flatMap_filter p qm memoryRows u.inMemory
    have h2 := countP_flatMap_filter p qd ghostRows u.onDisk
    omega

theorem finishBatch_spec {env : Env α} {u : Uncompressed α} {extra} (hi : UInv env u extra) :
    UInv env (finishBatch u) extra ∧ (∀ p, ucount p (finishBatch u) = ucount p u) ∧
      (live (finishBatch u) extra).Perm (live u extra) :=
  send_spec hi (fun b => b.isUnused u.batchIndex) (fun d => d.isUnused u.batchIndex) (u.batchIndex + 1)

theorem filter_false {τ : Type} (l : List τ) : l.filter (fun _ => !true) = [] := by simp

theorem flush_spec {env : Env α} {u : Uncompressed α} {extra} (hi : UInv env u extra) :
    UInv env (flushUncompressed u) extra ∧ (∀ p, ucount p (flushUncompressed u) = ucount p u) ∧
      (live (flushUncompressed u) extra).Perm (live u extra) := by
  have := send_spec hi (fun _ => true) (fun _ => true) u.batchIndex
  simp only [filter_false, List.filter_true] at this
  exact this

end ModelarDB.Lemmas.Storage
