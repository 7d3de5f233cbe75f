import Verif.Lemmas.StorageCompressed
/-
Invariant of the storage engine: every row is in exactly one place.
-/
namespace ModelarDB.Lemmas.Storage
open Model.Storage Spec.Storage

variable {α : Type}

/-- The buffer on disk that is being compressed. -/
def extraOf : Option (Buffer α) → List (DiskBuffer α)
  | some (.onDisk d) => [d]
  | _ => []

/-- Segments as they are handed over. -/
structure ChunkOk (env : Env α) (c : Chunk α) : Prop where
  sorted : c.points.Pairwise fun a b => a.1 ≤ b.1
  nonempty : c.points ≠ []
  len : c.points.length ≤ env.capacity

/-- The segments in a message. -/
def chunkRefs : Message (Chunk α) → List (Chunk α)
  | .data c => [c]
  | _ => []

/-- All segments. -/
def chunksOf (e : Engine α) : List (Chunk α) :=
  e.c.saved ++ e.c.buffers.flatMap (fun b => b.2.chunks) ++ e.compressed.flatMap chunkRefs

/-- How many rows satisfy `p`. -/
def ecount (p : Row α → Bool) (e : Engine α) : Nat :=
  ccount p e.c + (e.compressed.flatMap (messageRows chunkRows)).countP p + (e.compressing.toList.flatMap ghostBufferRows).countP p +
    ucount p e.u + (e.current.toList.flatMap Ingested.rows).countP p + (e.ingested.flatMap (messageRows Ingested.rows)).countP p

structure Inv (env : Env α) (e : Engine α) : Prop where
  u : UInv env e.u (extraOf e.compressing)
  c : CInv e.c
  compressing : ∀ b, e.compressing = some (.inMemory b) → MemoryOk env b
  count : ∀ p, ecount p e = e.received.countP p
  chunks : ∀ c ∈ chunksOf e, ChunkOk env c

theorem _root_.ModelarDB.Spec.Storage.Good.mono {env : Env α} {l l' : List (Row α)} (h : Good env (l ++ l')) : Good env l :=
  ⟨fun r hr r' hr' => h.hash r (List.mem_append_left _ hr) r' (List.mem_append_left _ hr'),
    h.keys.sublist ((List.sublist_append_left l l').map _)⟩

/-- The rows of the manager are rows that were received. -/
def Known (R : List (Row α)) (u : Uncompressed α) (extra : List (DiskBuffer α)) : Prop :=
  ∀ p, ucount p u + (extra.flatMap ghostRows).countP p ≤ R.countP p

theorem countP_mem {R : List (Row α)} {l : List (Row α)} (h : ∀ p : Row α → Bool, l.countP p ≤ R.countP p) {r : Row α} (hr : r ∈ l) :
    r ∈ R := by
  classical
  have h1 : 0 < l.countP (fun x => decide (x = r)) := List.countP_pos_iff.mpr ⟨r, hr, by simp⟩
  obtain ⟨x, hx, he⟩ := List.countP_pos_iff.mp (Nat.lt_of_lt_of_le h1 (h _))
  rw [decide_eq_true_eq] at he
  exact he ▸ hx

theorem Known.memory {R : List (Row α)} {u : Uncompressed α} {extra} (h : Known R u extra) {b} (hb : b ∈ u.inMemory) {r}
    (hr : r ∈ memoryRows b) : r ∈ R := by
  refine countP_mem (l := u.inMemory.flatMap memoryRows) (fun p => ?_) (List.mem_flatMap.mpr ⟨b, hb, hr⟩)
  have := h p
  unfold ucount at this
  omega

theorem mem_channel {u : Uncompressed α} {d : DiskBuffer α} (h : d ∈ u.channel.flatMap diskRefs) {r : Row α} (hr : r ∈ ghostRows d) :
    r ∈ u.channel.flatMap (messageRows ghostBufferRows) := by
  obtain ⟨m, hm, hd⟩ := List.mem_flatMap.mp h
  refine List.mem_flatMap.mpr ⟨m, hm, ?_⟩
  rcases m with (_ | _) | _ | _ <;> simp only [diskRefs, List.not_mem_nil, List.mem_singleton] at hd
  subst hd
  exact hr

/-- The rows of buffers on disk, as a list. -/
theorem live_count {u : Uncompressed α} {extra : List (DiskBuffer α)} {d} (hd : d ∈ live u extra) {r : Row α} (hr : r ∈ ghostRows d)
    {p : Row α → Bool} (hp : p r = true) :
    0 < (u.onDisk.flatMap ghostRows).countP p + (u.channel.flatMap (messageRows ghostBufferRows)).countP p +
      (extra.flatMap ghostRows).countP p := by
  simp only [live, List.mem_append] at hd
  rcases hd with (hd | hd) | hd
  · have := List.countP_pos_iff.mpr ⟨r, List.mem_flatMap.mpr ⟨d, hd, hr⟩, hp⟩
    omega
  · have := List.countP_pos_iff.mpr ⟨r, mem_channel hd hr, hp⟩
    omega
  · have := List.countP_pos_iff.mpr ⟨r, List.mem_flatMap.mpr ⟨d, hd, hr⟩, hp⟩
    omega

theorem Known.disk {R : List (Row α)} {u : Uncompressed α} {extra} (h : Known R u extra) {d} (hd : d ∈ live u extra) {r}
    (hr : r ∈ ghostRows d) : r ∈ R := by
  classical
  have h1 := live_count hd hr (p := fun x => decide (x = r)) (by simp)
  have h2 := h fun x => decide (x = r)
  unfold ucount at h2
  obtain ⟨x, hx, he⟩ := List.countP_pos_iff.mp (show 0 < R.countP (fun x => decide (x = r)) by omega)
  rw [decide_eq_true_eq] at he
  exact he ▸ hx

theorem key_count {R : List (Row α)} (h : (R.map key).Nodup) (k : String × List String × Int) :
    R.countP (fun r => decide (key r = k)) ≤ 1 := by
  have := List.nodup_iff_count_le_one.mp h k
  rw [List.count, List.countP_map] at this
  refine Nat.le_trans (Nat.le_of_eq (congrFun (congrArg _ (funext fun r => ?_)) R)) this
  by_cases hk : key r = k <;> simp [hk]

theorem DiskOk.head {env : Env α} {files} {d : DiskBuffer α} (h : DiskOk env files d) :
    ∃ x : Int × α, ⟨d.table, d.ghost.tags, x.1, x.2⟩ ∈ ghostRows d ∧ d.path = ⟨d.table, d.hash, x.1⟩ := by
  obtain ⟨p, ps, h1, h2⟩ := h.path
  exact ⟨p, by unfold ghostRows rowsOf; rw [h1]; simp, h2⟩

theorem mem_memoryRows {b : MemoryBuffer α} {x : Int × α} (h : x ∈ b.points) : ⟨b.table, b.tags, x.1, x.2⟩ ∈ memoryRows b :=
  List.mem_map.mpr ⟨x, h, rfl⟩

theorem fresh_of_known {env : Env α} {R : List (Row α)} {u : Uncompressed α} {extra} (hg : Good env R) (hk : Known R u extra)
    (hi : UInv env u extra) : Fresh u extra := by
  intro b hb d hd x hx he
  obtain ⟨y, hy, hpath⟩ := (hi.disk d hd).head
  rw [hpath, Path.mk.injEq] at he
  obtain ⟨h1, h2, h3⟩ := he
  have hm := mem_memoryRows hx
  have htags : d.ghost.tags = b.tags := by
    refine (hg.hash _ (hk.disk hd hy) _ (hk.memory hb hm) ?_).2
    dsimp only
    rw [← (hi.disk d hd).hash, ← (hi.memory b hb).hash, h2]
  have hcount := key_count hg.keys (b.table, b.tags, x.1)
  have h4 := live_count hd hy (p := fun r => decide (key r = (b.table, b.tags, x.1))) (by simp [key, h1, h3, htags])
  have h5 : 0 < (u.inMemory.flatMap memoryRows).countP (fun r => decide (key r = (b.table, b.tags, x.1))) :=
    List.countP_pos_iff.mpr ⟨_, List.mem_flatMap.mpr ⟨b, hb, hm⟩, by simp [key]⟩
  have h6 := hk fun r => decide (key r = (b.table, b.tags, x.1))
  unfold ucount at h6
  omega

theorem noCollision_of_known {env : Env α} {R : List (Row α)} {u : Uncompressed α} {extra} (hg : Good env R) (hk : Known R u extra)
    (hi : UInv env u extra) {r : Row α} (hr : r ∈ R) : NoCollision env u r := by
  constructor
  · intro b hb hh
    have hbo := hi.memory b hb
    obtain ⟨x, hx⟩ := List.exists_mem_of_ne_nil _ hbo.nonempty
    exact hg.hash _ (hk.memory hb (mem_memoryRows hx)) r hr (by dsimp only; rw [← hbo.hash, hh])
  · intro d hd hh
    have hd' : d ∈ live u extra := by simp [live, hd]
    obtain ⟨x, hx, _⟩ := (hi.disk d hd').head
    exact hg.hash _ (hk.disk hd' hx) r hr (by dsimp only; rw [← (hi.disk d hd').hash, hh])

theorem extraOf_count (o : Option (Buffer α)) (p : Row α → Bool) :
    ((extraOf o).flatMap ghostRows).countP p ≤ (o.toList.flatMap ghostBufferRows).countP p := by
  rcases o with _ | (b | d)
  · exact Nat.le_refl _
  · exact Nat.zero_le _
  · exact Nat.le_refl _

theorem Inv.known {env : Env α} {e : Engine α} (h : Inv env e) : Known e.received e.u (extraOf e.compressing) := by
  intro p
  have h1 := h.count p
  have h2 := extraOf_count e.compressing p
  unfold ecount at h1
  omega

theorem Inv.current {env : Env α} {e : Engine α} (h : Inv env e) {b} (hb : e.current = some b) {r} (hr : r ∈ b.rows) : r ∈ e.received := by
  refine countP_mem (l := b.rows) (fun p => ?_) hr
  have h1 := h.count p
  unfold ecount at h1
  rw [hb] at h1
  simp only [Option.toList_some, List.flatMap_cons, List.flatMap_nil, List.append_nil] at h1
  omega

/-- Moving a buffer to the front of the map. -/
theorem toFront_perm {τ : Type} (l : List τ) (i : Nat) : (toFront l i).Perm l := by
  unfold toFront
  cases h : l[i]? with
  | none => exact List.Perm.refl _
  | some x =>
    obtain ⟨hi, rfl⟩ := List.getElem?_eq_some_iff.mp h
    exact List.getElem_cons_eraseIdx_perm hi

theorem UInv.perm {env : Env α} {u : Uncompressed α} {extra} (h : UInv env u extra) {m d} (hm : m.Perm u.inMemory) (hd : d.Perm u.onDisk) :
    UInv env { u with inMemory := m, onDisk := d } extra ∧ ∀ p, ucount p { u with inMemory := m, onDisk := d } = ucount p u := by
  have hl : (live { u with inMemory := m, onDisk := d } extra).Perm (live u extra) :=
    (hd.append (List.Perm.refl _)).append (List.Perm.refl _)
  refine ⟨⟨fun b hb => h.memory b (hm.subset hb), fun b hb => h.memoryLen b (hm.subset hb), fun b hb => h.diskLen b (hd.subset hb),
    ?_, fun x hx => h.disk x (hl.subset hx), (hl.map _).nodup_iff.mpr h.paths, h.sent⟩, ?_⟩
  · exact ((hm.map _).append (hd.map _)).nodup_iff.mpr h.hashes
  · intro p
    unfold ucount
    dsimp only
    rw [(hm.flatMap_right _).countP_eq, (hd.flatMap_right _).countP_eq]

/-- Spilling until enough memory is free. -/
theorem spillWhileNegative_spec {env : Env α} (hs : Sorts env) {R : List (Row α)} (hg : Good env R) {extra} (fuel : Nat)
    (u : Uncompressed α) (hk : Known R u extra) (hi : UInv env u extra) (o : Outcome (Uncompressed α))
    (ho : spillWhileNegative env true fuel u = o) :
    ∃ u', (o = .ok u' ∨ o = .failed u') ∧ UInv env u' extra ∧ (∀ p, ucount p u' = ucount p u) ∧ u'.channel = u.channel := by
  induction fuel generalizing u with
  | zero => exact ⟨u, Or.inl ho.symm, hi, fun _ => rfl, rfl⟩
  | succ fuel ih =>
    unfold spillWhileNegative at ho
    by_cases hr : u.remaining < 0
    · rw [if_pos hr] at ho
      cases hm : u.inMemory with
      | nil =>
        have : spill env true u = .failed u := by unfold spill; rw [hm]
        rw [this] at ho
        exact ⟨u, Or.inr ho.symm, hi, fun _ => rfl, rfl⟩
      | cons b rest =>
        obtain ⟨u', h1, h2, h3⟩ := spill_ok hs hi (fresh_of_known hg hk hi) hm
        rw [h1] at ho
        obtain ⟨u'', h4, h5, h6, h7⟩ := ih u' (fun p => by rw [h2.ucount p]; exact hk p) h3 ho
        exact ⟨u'', h4, h5, fun p => (h6 p).trans (h2.ucount p), h7.trans h2.channel⟩
    · rw [if_neg hr] at ho
      exact ⟨u, Or.inl ho.symm, hi, fun _ => rfl, rfl⟩

theorem adjustUncompressed_spec {env : Env α} (hs : Sorts env) {R : List (Row α)} (hg : Good env R) {extra}
    {u : Uncompressed α} (hk : Known R u extra) (hi : UInv env u extra) (change : Int) :
    ∃ u', (adjustUncompressed env true u change = .ok u' ∨ adjustUncompressed env true u change = .failed u') ∧
      UInv env u' extra ∧ (∀ p, ucount p u' = ucount p u) ∧ u'.channel = u.channel := by
  unfold adjustUncompressed
  obtain ⟨u', h1, h2, h3, h4⟩ := spillWhileNegative_spec hs hg (u.inMemory.length + 1) { u with remaining := u.remaining + change } hk
    (hi.congr rfl rfl rfl rfl) _ rfl
  rcases h1 with h1 | h1
  · rw [h1]
    exact ⟨u', Or.inl rfl, h2, h3, h4⟩
  · rw [h1]
    exact ⟨_, Or.inr rfl, h2.congr rfl rfl rfl rfl, h3, h4⟩

/-- The engine after a buffer is compressed. -/
theorem compressFinishedBuffer_spec {env : Env α} (hs : Sorts env) {u : Uncompressed α} {b : Buffer α}
    (hi : UInv env u (extraOf (some b))) (hm : ∀ x, b = .inMemory x → MemoryOk env x) :
    ∃ chunk files memory, compressFinishedBuffer env u.files b = some (chunk, files, memory) ∧ ChunkOk env chunk ∧
      (∀ p, (chunkRows chunk).countP p = (ghostBufferRows b).countP p) ∧
      UInv env { u with files := files, remaining := u.remaining + memory } [] := by
  rcases b with b | d
  · obtain ⟨hperm, hsorted⟩ := hs b.points
    have hb := hm b rfl
    refine ⟨_, _, _, rfl, ⟨hsorted, ?_, ?_⟩, fun p => countP_rowsOf_perm p _ _ hperm, hi.congr rfl rfl rfl rfl⟩
    · intro he
      dsimp only at he
      rw [he] at hperm
      exact hb.nonempty hperm.symm.eq_nil
    · dsimp only
      rw [hperm.length_eq]
      exact hb.len
  · have hd := hi.disk d (by simp [live, extraOf])
    unfold compressFinishedBuffer
    dsimp only
    rw [hd.read]
    refine ⟨_, _, _, rfl, ⟨hd.sorted, ?_, hd.len⟩, fun p => rfl, ?_⟩
    · obtain ⟨x, xs, hx, _⟩ := hd.path
      dsimp only
      rw [hx]
      simp
    · have hp := hi.paths
      simp only [live, extraOf] at hp
      rw [List.map_append, List.map_cons, List.map_nil] at hp
      have hp' := (List.perm_append_singleton _ _).nodup_iff.mp hp
      rw [List.nodup_cons] at hp'
      refine ⟨hi.memory, hi.memoryLen, hi.diskLen, hi.hashes, ?_, ?_, hi.sent⟩
      · intro x hx
        simp only [live, List.append_nil] at hx
        refine (hi.disk x (List.mem_append_left _ hx)).delete ?_
        intro he
        exact hp'.1 (he ▸ List.mem_map_of_mem hx)
      · simp only [live, List.append_nil]
        exact hp'.2

/-- Adding control messages to the channel. -/
theorem UInv.control {env : Env α} {u : Uncompressed α} {extra} (h : UInv env u extra) {m : Message (Buffer α)}
    (hm : ∀ x, m ≠ .data x) : UInv env { u with channel := u.channel ++ [m] } extra ∧
      ∀ p, ucount p { u with channel := u.channel ++ [m] } = ucount p u := by
  have h1 : (u.channel ++ [m]).flatMap diskRefs = u.channel.flatMap diskRefs := by
    rcases m with x | _ | _
    · exact absurd rfl (hm x)
    · simp [diskRefs]
    · simp [diskRefs]
  have h2 : (u.channel ++ [m]).flatMap memoryRefs = u.channel.flatMap memoryRefs := by
    rcases m with x | _ | _
    · exact absurd rfl (hm x)
    · simp [memoryRefs]
    · simp [memoryRefs]
  have hl : live { u with channel := u.channel ++ [m] } extra = live u extra := by simp only [live, h1]
  refine ⟨⟨h.memory, h.memoryLen, h.diskLen, h.hashes, ?_, ?_, ?_⟩, fun p => ?_⟩
  · rw [hl]; exact h.disk
  · rw [hl]; exact h.paths
  · intro b hb
    dsimp only at hb
    rw [h2] at hb
    exact h.sent b hb
  · unfold ucount
    rcases m with x | _ | _
    · exact absurd rfl (hm x)
    · simp [messageRows]
    · simp [messageRows]

/-- Taking a message from the channel. -/
theorem UInv.take {env : Env α} {u : Uncompressed α} {m : Message (Buffer α)} {rest} (h : UInv env u [])
    (hc : u.channel = m :: rest) : UInv env { u with channel := rest } (diskRefs m) := by
  have hl : (live { u with channel := rest } (diskRefs m)).Perm (live u []) := by
    simp only [live, hc, List.flatMap_cons, List.append_nil, List.append_assoc]
    exact (List.Perm.refl _).append List.perm_append_comm
  refine ⟨h.memory, h.memoryLen, h.diskLen, h.hashes, fun d hd => h.disk d (hl.subset hd), (hl.map _).nodup_iff.mpr h.paths, ?_⟩
  intro b hb
  refine h.sent b ?_
  rw [hc, List.flatMap_cons]
  exact List.mem_append_right _ hb

theorem ucount_take {u : Uncompressed α} {m : Message (Buffer α)} {rest} (hc : u.channel = m :: rest) (p : Row α → Bool) :
    ucount p u = ucount p { u with channel := rest } + (messageRows ghostBufferRows m).countP p := by
  unfold ucount
  rw [hc, List.flatMap_cons, List.countP_append]
  dsimp only
  omega

theorem received_mono {env : Env α} {e e' : Engine α} {op : Op α} (h : e.step env op = some e') : ∃ l, e'.received = e.received ++ l := by
  cases op <;> simp only [Engine.step] at h
  case insert =>
    split at h
    · cases h; exact ⟨_, rfl⟩
    · cases h
  all_goals refine ⟨[], ?_⟩; rw [List.append_nil]
  case flush => cases h; rfl
  case stop => cases h; rfl
  case touchMemory => cases h; rfl
  case touchDisk => cases h; rfl
  case adjustIngested => cases h; rfl
  all_goals
    repeat' (first | contradiction | (cases h; rfl) | split at h | (obtain ⟨c, _, rfl⟩ := Option.map_eq_some_iff.mp h; rfl))

theorem chunks_sub {env : Env α} {e e' : Engine α} (h : ∀ c ∈ chunksOf e, ChunkOk env c) (hsub : ∀ c ∈ chunksOf e', c ∈ chunksOf e) :
    ∀ c ∈ chunksOf e', ChunkOk env c := fun c hc => h c (hsub c hc)

theorem saveFirst_chunks (c : Compressed α) (k : Nat) :
    (saveFirst k c).saved ++ (saveFirst k c).buffers.flatMap (fun b => b.2.chunks) = c.saved ++ c.buffers.flatMap fun b => b.2.chunks := by
  simp only [saveFirst, List.append_assoc]
  rw [← List.flatMap_append, List.take_append_drop]

theorem Appended.chunks {c c' : Compressed α} {x : Chunk α} (h : Appended c x c') :
    (c'.saved ++ c'.buffers.flatMap fun b => b.2.chunks).Perm (x :: (c.saved ++ c.buffers.flatMap fun b => b.2.chunks)) := by
  cases h with
  | @existing bs₁ bs₂ b hb =>
    simp only [hb, CompressedBuffer.append, List.flatMap_append, List.flatMap_cons]
    have : c.saved ++ (bs₁.flatMap (fun b => b.2.chunks) ++ (b.chunks ++ [x] ++ bs₂.flatMap fun b => b.2.chunks)) =
        (c.saved ++ (bs₁.flatMap (fun b => b.2.chunks) ++ b.chunks)) ++ x :: bs₂.flatMap fun b => b.2.chunks := by simp
    rw [this]
    refine List.perm_middle.trans ?_
    simp
  | created hb =>
    simp only [CompressedBuffer.append, List.flatMap_append, List.flatMap_cons, List.flatMap_nil, List.append_nil, List.nil_append]
    rw [← List.append_assoc]
    exact List.perm_append_singleton _ _

theorem inv_new {env : Env α} (i u c : Nat) : Inv env (Engine.new (α := α) i u c) := by
  refine ⟨⟨?_, ?_, ?_, ?_, ?_, ?_, ?_⟩, ⟨rfl, List.nodup_nil⟩, ?_, ?_, ?_⟩ <;> simp [Engine.new, live, extraOf, ecount, ccount, ucount, chunksOf]

theorem inv_step {env : Env α} (hs : Sorts env) (hcap : 2 ≤ env.capacity) {e e' : Engine α} {op : Op α} (hio : Op.ioOk op)
    (h : Inv env e) (hstep : e.step env op = some e') (hg : Good env e'.received) : Inv env e' := by
  have hg0 : Good env e.received := by
    obtain ⟨l, hl⟩ := received_mono hstep
    rw [hl] at hg
    exact hg.mono
  have hfresh := fresh_of_known hg0 h.known h.u
  cases op with
  | insert table rows batchId size =>
    simp only [Engine.step] at hstep
    split at hstep
    · cases hstep
      refine ⟨h.u, h.c, h.compressing, fun p => ?_, h.chunks⟩
      have := h.count p
      simp only [ecount, List.flatMap_append, List.flatMap_cons, List.flatMap_nil, List.append_nil, List.countP_append, messageRows] at this ⊢
      omega
    · cases hstep
  | flush =>
    cases hstep
    refine ⟨h.u, h.c, h.compressing, fun p => ?_, h.chunks⟩
    have := h.count p
    simpa [ecount, messageRows] using this
  | stop =>
    cases hstep
    refine ⟨h.u, h.c, h.compressing, fun p => ?_, h.chunks⟩
    have := h.count p
    simpa [ecount, messageRows] using this
  | touchMemory i =>
    cases hstep
    obtain ⟨h1, h2⟩ := h.u.perm (toFront_perm e.u.inMemory i) (List.Perm.refl _)
    refine ⟨h1, h.c, h.compressing, fun p => ?_, h.chunks⟩
    have := h.count p
    unfold ecount at this ⊢
    have h3 := h2 p
    dsimp only at h3 ⊢
    omega
  | touchDisk i =>
    cases hstep
    obtain ⟨h1, h2⟩ := h.u.perm (List.Perm.refl _) (toFront_perm e.u.onDisk i)
    refine ⟨h1, h.c, h.compressing, fun p => ?_, h.chunks⟩
    have := h.count p
    unfold ecount at this ⊢
    have h3 := h2 p
    dsimp only at h3 ⊢
    omega
  | ingestionTake =>
    simp only [Engine.step] at hstep
    split at hstep
    · next halive =>
      have hcur : e.current = none := by simpa using (Bool.and_eq_true_iff.mp halive).2
      split at hstep
      · cases hstep
      · next b rest hq =>
        cases hstep
        refine ⟨h.u, h.c, h.compressing, fun p => ?_, h.chunks⟩
        have := h.count p
        simp only [ecount, hq, hcur, List.flatMap_cons, List.countP_append, messageRows, Option.toList_none, Option.toList_some,
          List.flatMap_nil, List.append_nil, List.countP_nil] at this ⊢
        omega
      all_goals
        next n rest hq =>
        cases hstep
        obtain ⟨h1, h2, _⟩ := flush_spec h.u
        refine ⟨(h1.control (by simp)).1, h.c, h.compressing, fun p => ?_, h.chunks⟩
        have h3 := (h1.control (m := .flush n) (by simp)).2 p
        have h3' := (h1.control (m := .stop n) (by simp)).2 p
        have := h.count p
        have h4 := h2 p
        simp only [ecount, hq, List.flatMap_cons, List.countP_append, messageRows, List.countP_nil] at this ⊢
        omega
    · cases hstep
  | ingestionRow io =>
    obtain rfl : io = true := hio
    simp only [Engine.step] at hstep
    split at hstep
    · split at hstep
      · next r rows batchId size hcur =>
        have hr : r ∈ e.received := h.current hcur (by simp)
        have hnc := noCollision_of_known hg0 h.known h.u hr
        rcases insertDataPoint_cases hs h.u hfresh r batchId with ⟨u', h1, h2⟩ | ⟨h1, _⟩ | ⟨h1, _⟩
        · rw [h1] at hstep
          cases hstep
          obtain ⟨h3, h4⟩ := h2.spec hcap h.u hnc
          refine ⟨h3, h.c, h.compressing, fun p => ?_, h.chunks⟩
          have := h.count p
          have h5 := h4 p
          simp only [ecount, hcur, Option.toList_some, List.flatMap_cons, List.flatMap_nil, List.append_nil, List.countP_cons] at this ⊢
          omega
        · rw [h1] at hstep
          cases hstep
          exact ⟨h.u, h.c, h.compressing, h.count, h.chunks⟩
        · rw [h1] at hstep
          cases hstep
          exact ⟨h.u, h.c, h.compressing, h.count, h.chunks⟩
      · cases hstep
    · cases hstep
  | ingestionDone =>
    simp only [Engine.step] at hstep
    split at hstep
    · split at hstep
      · next batchId size hcur =>
        cases hstep
        obtain ⟨h1, h2, _⟩ := finishBatch_spec h.u
        refine ⟨h1, h.c, h.compressing, fun p => ?_, h.chunks⟩
        have := h.count p
        have h3 := h2 p
        simp only [ecount, hcur, Option.toList_some, Option.toList_none, List.flatMap_cons, List.flatMap_nil, List.append_nil,
          List.countP_nil] at this ⊢
        omega
      · cases hstep
    · cases hstep
  | compressionTake =>
    simp only [Engine.step] at hstep
    split at hstep
    · next halive =>
      have hcomp : e.compressing = none := by simpa using (Bool.and_eq_true_iff.mp halive).2
      have hu := h.u
      rw [hcomp] at hu
      split at hstep
      · cases hstep
      · next b rest hq =>
        cases hstep
        have h1 := hu.take hq
        refine ⟨?_, h.c, ?_, fun p => ?_, h.chunks⟩
        · rcases b with b | d
          · exact h1
          · exact h1
        · intro b' hb'
          refine h.u.sent b' ?_
          rw [hq, List.flatMap_cons]
          obtain rfl : b = .inMemory b' := by simpa using hb'
          simp [memoryRefs]
        · have := h.count p
          have h2 := ucount_take hq p
          simp only [ecount, hcomp, messageRows, Option.toList_none, Option.toList_some, List.flatMap_cons,
            List.flatMap_nil, List.append_nil, List.countP_nil] at this h2 ⊢
          omega
      · next n rest hq =>
        cases hstep
        have h1 := hu.take hq
        refine ⟨?_, h.c, ?_, fun p => ?_, ?_⟩
        · rw [hcomp]; exact h1
        · intro b hb; rw [hcomp] at hb; cases hb
        · have := h.count p
          have h2 := ucount_take hq p
          simp only [ecount, messageRows, List.flatMap_append, List.flatMap_cons, List.flatMap_nil, List.append_nil, List.countP_nil] at this h2 ⊢
          omega
        · refine chunks_sub h.chunks fun c hc => ?_
          simpa [chunksOf, chunkRefs] using hc
      · next n rest hq =>
        cases hstep
        have h1 := hu.take hq
        refine ⟨?_, h.c, ?_, fun p => ?_, ?_⟩
        · rw [hcomp]; exact h1
        · intro b hb; rw [hcomp] at hb; cases hb
        · have := h.count p
          have h2 := ucount_take hq p
          simp only [ecount, messageRows, List.flatMap_append, List.flatMap_cons, List.flatMap_nil, List.append_nil, List.countP_nil] at this h2 ⊢
          omega
        · refine chunks_sub h.chunks fun c hc => ?_
          simpa [chunksOf, chunkRefs] using hc
    · cases hstep
  | compressionDone =>
    simp only [Engine.step] at hstep
    split at hstep
    · split at hstep
      · cases hstep
      · next b hcomp =>
        have hu := h.u
        rw [hcomp] at hu
        obtain ⟨chunk, files, memory, h1, h2, h3, h4⟩ := compressFinishedBuffer_spec hs hu
          (fun x hx => h.compressing x (by rw [hcomp, hx]))
        rw [h1] at hstep
        cases hstep
        refine ⟨h4, h.c, fun b (hb : none = _) => (nomatch hb), fun p => ?_, ?_⟩
        · have := h.count p
          have h5 := h3 p
          have h6 : ucount p { e.u with files := files, remaining := e.u.remaining + memory } = ucount p e.u := rfl
          dsimp only at h6
          simp only [ecount, hcomp, messageRows, List.flatMap_append, List.flatMap_cons, List.flatMap_nil, List.append_nil,
            Option.toList_none, Option.toList_some, List.countP_append, List.countP_nil] at this ⊢
          omega
        · intro c hc
          simp only [chunksOf, List.flatMap_append, List.flatMap_cons, List.flatMap_nil, chunkRefs, List.mem_append, List.append_nil,
            List.mem_singleton] at hc
          rcases hc with (hc | hc) | hc | rfl
          · exact h.chunks c (by simp only [chunksOf, List.mem_append]; exact Or.inl (Or.inl hc))
          · exact h.chunks c (by simp only [chunksOf, List.mem_append]; exact Or.inl (Or.inr hc))
          · exact h.chunks c (by simp only [chunksOf, List.mem_append]; exact Or.inr hc)
          · exact h2
    · cases hstep
  | write =>
    simp only [Engine.step] at hstep
    split at hstep
    · split at hstep
      · cases hstep
      · next chunk rest hq =>
        obtain ⟨c, hc, rfl⟩ := Option.map_eq_some_iff.mp hstep
        obtain ⟨c₁, h1, ⟨k, _, h2, _⟩ | ⟨h2, _⟩⟩ := insertCompressedSegments_spec h.c chunk
        · rw [h2] at hc
          cases hc
          have h3 := saveFirst_cinv (h1.cinv h.c) k
          refine ⟨h.u, ⟨h3.queue, h3.nodup⟩, h.compressing, fun p => ?_, ?_⟩
          · have h4 := h1.ccount p
            have h5 := saveFirst_ccount c₁ k p
            have h6 : ccount p { saveFirst k c₁ with remaining := (saveFirst k c₁).remaining - chunk.sizes.sum } =
              ccount p (saveFirst k c₁) := rfl
            have := h.count p
            simp only [ecount, hq, messageRows, List.flatMap_cons, List.countP_append] at this ⊢
            rw [h6]
            omega
          · refine chunks_sub h.chunks fun c hc => ?_
            simp only [chunksOf, saveFirst_chunks, hq, List.flatMap_cons, chunkRefs, List.mem_append] at hc ⊢
            rcases hc with hc | hc
            · have := h1.chunks.subset (List.mem_append.mpr hc)
              rw [List.mem_cons, List.mem_append] at this
              rcases this with rfl | this
              · exact Or.inr (Or.inl (by simp))
              · exact Or.inl this
            · exact Or.inr (Or.inr hc)
        · rw [h2] at hc
          cases hc
      all_goals
        next n rest hq =>
        obtain ⟨c, hc, rfl⟩ := Option.map_eq_some_iff.mp hstep
        rw [flushCompressed_spec _ _ rfl h.c] at hc
        cases hc
        refine ⟨h.u, saveFirst_cinv h.c _, h.compressing, fun p => ?_, ?_⟩
        · have h5 := saveFirst_ccount e.c e.c.buffers.length p
          have := h.count p
          simp only [ecount, hq, messageRows, List.flatMap_cons, List.countP_append, List.countP_nil] at this ⊢
          omega
        · refine chunks_sub h.chunks fun c hc => ?_
          simp only [chunksOf, saveFirst_chunks, hq, List.flatMap_cons, chunkRefs, List.nil_append] at hc ⊢
          exact hc
    · cases hstep
  | adjustIngested change =>
    cases hstep
    exact ⟨h.u, h.c, h.compressing, h.count, h.chunks⟩
  | adjustUncompressed io change =>
    obtain rfl : io = true := hio
    simp only [Engine.step] at hstep
    obtain ⟨u', h1, h2, h3, _⟩ := adjustUncompressed_spec hs hg0 h.known h.u change
    rcases h1 with h1 | h1 <;> rw [h1] at hstep <;> cases hstep <;>
      refine ⟨h2, h.c, h.compressing, fun p => ?_, h.chunks⟩ <;>
      (have := h.count p; have h4 := h3 p; unfold ecount at this ⊢; dsimp only; omega)
  | adjustCompressed change =>
    simp only [Engine.step] at hstep
    obtain ⟨c, hc, rfl⟩ := Option.map_eq_some_iff.mp hstep
    have hci : CInv { e.c with remaining := e.c.remaining + change } := ⟨h.c.queue, h.c.nodup⟩
    unfold Model.Storage.adjustCompressed at hc
    rcases saveToFreeMemory_spec 0 _ _ rfl hci with ⟨k, _, h1, _⟩ | ⟨h1, _⟩
    · rw [h1] at hc
      cases hc
      refine ⟨h.u, saveFirst_cinv hci k, h.compressing, fun p => ?_, ?_⟩
      · have := h.count p
        have h2 := saveFirst_ccount { e.c with remaining := e.c.remaining + change } k p
        have h3 : ccount p { e.c with remaining := e.c.remaining + change } = ccount p e.c := rfl
        rw [h3] at h2
        unfold ecount at this ⊢
        dsimp only at h2 ⊢
        omega
      · refine chunks_sub h.chunks fun c hc => ?_
        simp only [chunksOf, saveFirst_chunks] at hc
        exact hc
    · rw [h1] at hc
      cases hc

theorem inv_run {env : Env α} (hs : Sorts env) (hcap : 2 ≤ env.capacity) (ops : List (Op α)) (hio : ∀ op ∈ ops, Op.ioOk op)
    {e e' : Engine α} (h : Good env e.received → Inv env e) (hrun : e.run env ops = some e') (hg : Good env e'.received) : Inv env e' := by
  induction ops generalizing e with
  | nil => cases hrun; exact h hg
  | cons op ops ih =>
    simp only [Engine.run] at hrun
    obtain ⟨e₁, h1, h2⟩ := Option.bind_eq_some_iff.mp hrun
    refine ih (fun o ho => hio o (List.mem_cons_of_mem _ ho)) (fun hg1 => ?_) h2
    have hg0 : Good env e.received := by
      obtain ⟨l, hl⟩ := received_mono h1
      rw [hl] at hg1
      exact hg1.mono
    exact inv_step hs hcap (hio op (List.mem_cons_self ..)) (h hg0) h1 hg1

end ModelarDB.Lemmas.Storage
