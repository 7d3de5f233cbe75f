import Verif.Lemmas.StorageEngine
import Verif.Spec.StorageOrder
import Mathlib.Data.Set.Basic
import Mathlib.Tactic.Tauto
/-
Invariant of the storage engine: the buffers of a series do not overlap in time if its rows are received in order.
-/
namespace ModelarDB.Lemmas.StorageOrder
open Model.Storage Spec.Storage Lemmas.Storage

variable {α : Type}

/-! ### Groups of rows -/

/-- For each series of the table the rows of the first group are before those of the second. -/
def Lt (T : String) (g h : Set (Row α)) : Prop := ∀ r ∈ g, ∀ s ∈ h, r.table = T → s.table = T → r.tags = s.tags → r.ts < s.ts

/-- The groups that are finished, the groups that rows are added to and the rows that are not in a group yet. -/
structure Groups (T : String) (closed opened : List (Set (Row α))) (pending : List (Row α)) : Prop where
  sequence : closed.Pairwise (Lt T)
  before : ∀ g ∈ closed, ∀ o ∈ opened, Lt T g o
  series : opened.Pairwise fun g h => Lt T g h ∧ Lt T h g
  closedBefore : ∀ g ∈ closed, Lt T g {r | r ∈ pending}
  openedBefore : ∀ g ∈ opened, Lt T g {r | r ∈ pending}
  order : InOrder T pending

variable {T : String} {C C' O O' : List (Set (Row α))} {P : List (Row α)}

theorem Groups.perm (h : Groups T C O P) (hC : C' = C) (hO : O'.Perm O) : Groups T C' O' P where
  sequence := hC ▸ h.sequence
  before g hg o ho := h.before g (hC ▸ hg) o (hO.subset ho)
  series := (hO.pairwise_iff fun hxy => hxy.symm).mpr h.series
  closedBefore g hg := h.closedBefore g (hC ▸ hg)
  openedBefore g hg := h.openedBefore g (hO.subset hg)
  order := h.order

/-- Some groups are finished. -/
theorem Groups.close {A : List (Set (Row α))} (h : Groups T C O P) (hO : O.Perm (A ++ O')) (hC : C' = C ++ A) : Groups T C' O' P := by
  have hs := (hO.pairwise_iff (fun hxy => And.symm hxy)).mp h.series
  rw [List.pairwise_append] at hs
  refine Groups.perm (C := C ++ A) (O := O') ⟨?_, ?_, hs.2.1, ?_, ?_, h.order⟩ hC (.refl _)
  · rw [List.pairwise_append]
    exact ⟨h.sequence, hs.1.imp fun h => h.1, fun g hg a ha => h.before g hg a (hO.symm.subset (List.mem_append_left _ ha))⟩
  · intro g hg o ho
    rcases List.mem_append.mp hg with hg | hg
    · exact h.before g hg o (hO.symm.subset (List.mem_append_right _ ho))
    · exact (hs.2.2 g hg o ho).1
  · intro g hg
    rcases List.mem_append.mp hg with hg | hg
    · exact h.closedBefore g hg
    · exact h.openedBefore g (hO.symm.subset (List.mem_append_left _ hg))
  · intro g hg
    exact h.openedBefore g (hO.symm.subset (List.mem_append_right _ hg))

/-- A row is added to a group of its series. -/
theorem Groups.push {o o' : Set (Row α)} {r : Row α} (h : Groups T C (o :: O) (r :: P)) (ho : ∀ s, s ∈ o' ↔ s ∈ o ∨ s = r)
    (hother : ∀ g ∈ O, ∀ s ∈ g, ¬ (s.table = r.table ∧ s.tags = r.tags)) : Groups T C (o' :: O) P := by
  have hs := List.pairwise_cons.mp h.series
  have hp := List.pairwise_cons.mp h.order
  refine ⟨h.sequence, ?_, ?_, ?_, ?_, hp.2⟩
  · intro g hg x hx
    rcases List.mem_cons.mp hx with rfl | hx
    · intro a ha s hs' ht ht' htags
      rcases (ho s).mp hs' with hs' | rfl
      · exact h.before g hg o (by simp) a ha s hs' ht ht' htags
      · exact h.closedBefore g hg a ha s (by simp) ht ht' htags
    · exact h.before g hg x (List.mem_cons_of_mem _ hx)
  · rw [List.pairwise_cons]
    refine ⟨fun g hg => ⟨?_, ?_⟩, hs.2⟩
    · intro a ha s hs' ht ht' htags
      rcases (ho a).mp ha with ha | rfl
      · exact (hs.1 g hg).1 a ha s hs' ht ht' htags
      · exact absurd ⟨ht'.trans ht.symm, htags.symm⟩ (hother g hg s hs')
    · intro a ha s hs' ht ht' htags
      rcases (ho s).mp hs' with hs' | rfl
      · exact (hs.1 g hg).2 a ha s hs' ht ht' htags
      · exact absurd ⟨ht.trans ht'.symm, htags⟩ (hother g hg a ha)
  · exact fun g hg a ha s hs => h.closedBefore g hg a ha s (List.mem_cons_of_mem _ hs)
  · intro g hg a ha s hs
    rcases List.mem_cons.mp hg with rfl | hg
    · rcases (ho a).mp ha with ha | rfl
      · exact h.openedBefore o (by simp) a ha s (List.mem_cons_of_mem _ hs)
      · exact hp.1 s hs
    · exact h.openedBefore g (List.mem_cons_of_mem _ hg) a ha s (List.mem_cons_of_mem _ hs)

/-- A finished group is placed before others of which no row is in its series. -/
theorem Groups.move {A B D : List (Set (Row α))} {x : Set (Row α)} (h : Groups T (A ++ B ++ x :: D) O P) (hx : ∀ g ∈ B, Lt T x g) :
    Groups T (A ++ x :: B ++ D) O P := by
  have hmem : ∀ g, g ∈ A ++ x :: B ++ D → g ∈ A ++ B ++ x :: D := by
    intro g hg
    simp only [List.mem_append, List.mem_cons] at hg ⊢
    tauto
  refine ⟨?_, fun g hg => h.before g (hmem g hg), h.series, fun g hg => h.closedBefore g (hmem g hg), h.openedBefore, h.order⟩
  have := h.sequence
  simp only [List.append_assoc, List.cons_append, List.pairwise_append, List.pairwise_cons, List.mem_append, List.mem_cons] at this ⊢
  obtain ⟨h1, ⟨h2, ⟨h3, h4⟩, h5⟩, h6⟩ := this
  refine ⟨h1, ⟨?_, h2, h4, fun g hg a ha => h5 g hg a (Or.inr ha)⟩, ?_⟩
  · rintro g (hg | hg)
    · exact hx g hg
    · exact h3 g hg
  · rintro g hg a (rfl | ha | ha)
    · exact h6 g hg a (Or.inr (Or.inl rfl))
    · exact h6 g hg a (Or.inl ha)
    · exact h6 g hg a (Or.inr (Or.inr ha))

/-- An empty group. -/
theorem Groups.empty (h : Groups T C O P) : Groups T C (∅ :: O) P := by
  refine ⟨h.sequence, ?_, ?_, h.closedBefore, ?_, h.order⟩
  · intro g hg x hx
    rcases List.mem_cons.mp hx with rfl | hx
    · exact fun _ _ s hs => absurd hs (by simp)
    · exact h.before g hg x hx
  · exact List.pairwise_cons.mpr ⟨fun g _ => ⟨fun _ ha => absurd ha (by simp), fun _ _ s hs => absurd hs (by simp)⟩, h.series⟩
  · intro g hg
    rcases List.mem_cons.mp hg with rfl | hg
    · exact fun _ ha => absurd ha (by simp)
    · exact h.openedBefore g hg

/-- Rows arrive that are after all others of their series. -/
theorem Groups.arrive {rows : List (Row α)} (h : Groups T C O P)
    (hC : ∀ g ∈ C, Lt T g {r | r ∈ rows}) (hO : ∀ g ∈ O, Lt T g {r | r ∈ rows}) (hP : InOrder T (P ++ rows)) : Groups T C O (P ++ rows) := by
  refine ⟨h.sequence, h.before, h.series, ?_, ?_, hP⟩
  · intro g hg a ha s hs
    rcases List.mem_append.mp hs with hs | hs
    · exact h.closedBefore g hg a ha s hs
    · exact hC g hg a ha s hs
  · intro g hg a ha s hs
    rcases List.mem_append.mp hs with hs | hs
    · exact h.openedBefore g hg a ha s hs
    · exact hO g hg a ha s hs

/-! ### The groups of the storage engine -/

/-- A list of rows as a group. -/
def group (rows : List (Row α)) : Set (Row α) := {r | r ∈ rows}

theorem group_perm {l l' : List (Row α)} (h : l.Perm l') : group l = group l' := Set.ext fun _ => h.mem_iff

/-- The groups of a message. -/
def messageGroups : Message (Buffer α) → List (Set (Row α))
  | .data b => [group (ghostBufferRows b)]
  | _ => []

/-- The groups of the open buffers. -/
def openGroups (u : Uncompressed α) : List (Set (Row α)) :=
  u.inMemory.map (fun b => group (memoryRows b)) ++ u.onDisk.map fun d => group (ghostRows d)

/-- The groups of the buffers that wait to be compressed. -/
def sentGroups (u : Uncompressed α) : List (Set (Row α)) := u.channel.flatMap messageGroups

/-- The groups of the finished buffers. -/
def closedGroups (e : Engine α) : List (Set (Row α)) :=
  (chunksOf e).map (fun c => group (chunkRows c)) ++ e.compressing.toList.map (fun b => group (ghostBufferRows b)) ++ sentGroups e.u

/-- The invariant. -/
def Ordered (T : String) (e : Engine α) : Prop := Groups T (closedGroups e) (openGroups e.u) (queuedRows e)

theorem ordered_new (i u c : Nat) : Ordered T (Engine.new (α := α) i u c) :=
  ⟨.nil, by simp [closedGroups, chunksOf, Engine.new, sentGroups], .nil, by simp [closedGroups, chunksOf, Engine.new, sentGroups],
    by simp [openGroups, Engine.new], by simp [queuedRows, Engine.new, InOrder]⟩

/-- A compressed buffer has the segments of one table. -/
def Own (c : Compressed α) : Prop := ∀ b ∈ c.buffers, ∀ x ∈ b.2.chunks, x.table = b.1

theorem own_new (i u c : Nat) : Own (Engine.new (α := α) i u c).c := by simp [Own, Engine.new]

theorem Own.saveFirst {c : Compressed α} (h : Own c) (k : Nat) : Own (saveFirst k c) := fun b hb => h b (List.drop_subset _ _ hb)

theorem Own.appended {c c' : Compressed α} {x : Chunk α} (h : Own c) (ha : Appended c x c') : Own c' := by
  cases ha with
  | @existing bs₁ bs₂ b hb =>
    intro y hy z hz
    dsimp only at hy
    rcases List.mem_append.mp hy with hy | hy
    · exact h y (by rw [hb]; exact List.mem_append_left _ hy) z hz
    · rcases List.mem_cons.mp hy with rfl | hy
      · simp only [CompressedBuffer.append, List.mem_append, List.mem_singleton] at hz
        rcases hz with hz | rfl
        · exact h (x.table, b) (by rw [hb]; simp) z hz
        · rfl
      · exact h y (by rw [hb]; exact List.mem_append_right _ (List.mem_cons_of_mem _ hy)) z hz
  | created hb =>
    intro y hy z hz
    dsimp only at hy
    rcases List.mem_append.mp hy with hy | hy
    · exact h y hy z hz
    · rw [List.mem_singleton] at hy
      subst hy
      simp only [CompressedBuffer.append, List.nil_append, List.mem_singleton] at hz
      rw [hz]

theorem own_step {env : Env α} {e e' : Engine α} {op : Op α} (h : Inv env e) (ho : Own e.c) (hstep : e.step env op = some e') : Own e'.c := by
  cases op <;> simp only [Engine.step] at hstep
  case flush => cases hstep; exact ho
  case stop => cases hstep; exact ho
  case touchMemory => cases hstep; exact ho
  case touchDisk => cases hstep; exact ho
  case adjustIngested => cases hstep; exact ho
  case write =>
    split at hstep
    · split at hstep
      · cases hstep
      · next chunk rest hq =>
        obtain ⟨c, hc, rfl⟩ := Option.map_eq_some_iff.mp hstep
        obtain ⟨c₁, h1, ⟨k, _, h2, _⟩ | ⟨h2, _⟩⟩ := insertCompressedSegments_spec h.c chunk
        · rw [h2] at hc
          cases hc
          exact (ho.appended h1).saveFirst k
        · rw [h2] at hc
          cases hc
      all_goals
        obtain ⟨c, hc, rfl⟩ := Option.map_eq_some_iff.mp hstep
        rw [flushCompressed_spec _ _ rfl h.c] at hc
        cases hc
        exact ho.saveFirst _
    · cases hstep
  case adjustCompressed change =>
    obtain ⟨c, hc, rfl⟩ := Option.map_eq_some_iff.mp hstep
    have hci : CInv { e.c with remaining := e.c.remaining + change } := ⟨h.c.queue, h.c.nodup⟩
    unfold Model.Storage.adjustCompressed at hc
    rcases saveToFreeMemory_spec 0 _ _ rfl hci with ⟨k, _, h1, _⟩ | ⟨h1, _⟩
    · rw [h1] at hc
      cases hc
      exact Own.saveFirst (c := { e.c with remaining := e.c.remaining + change }) ho k
    · rw [h1] at hc
      cases hc
  all_goals
    repeat' split at hstep
    all_goals cases hstep
    all_goals exact ho

/-- A batch of segments is moved from the channel to the buffer of its table. -/
theorem Appended.groups {c c' : Compressed α} {x : Chunk α} (h : Appended c x c') (hn : CInv c) (ho : Own c)
    {D : List (Set (Row α))} (hg : Groups T ((c.saved ++ c.buffers.flatMap fun b => b.2.chunks).map (fun c => group (chunkRows c)) ++
      group (chunkRows x) :: D) O P) :
    Groups T ((c'.saved ++ c'.buffers.flatMap fun b => b.2.chunks).map (fun c => group (chunkRows c)) ++ D) O P := by
  cases h with
  | @existing bs₁ bs₂ b hb =>
    have hnot : ∀ y ∈ bs₂, y.1 ≠ x.table := by
      have := hn.nodup
      rw [hb, List.map_append, List.map_cons] at this
      have h1 := (List.nodup_cons.mp (List.nodup_append.mp this).2.1).1
      intro y hy he
      refine h1 ?_
      dsimp only
      rw [← he]
      exact List.mem_map_of_mem hy
    rw [hb, List.flatMap_append, List.flatMap_cons, List.map_append, List.map_append, List.map_append, ← List.append_assoc, ← List.append_assoc] at hg
    have := hg.move (fun g hg => by
      obtain ⟨y, hy, rfl⟩ := List.mem_map.mp hg
      obtain ⟨z, hz, hyz⟩ := List.mem_flatMap.mp hy
      intro r hr s hs ht ht' _
      obtain ⟨p, _, rfl⟩ := List.mem_map.mp hr
      obtain ⟨q, _, rfl⟩ := List.mem_map.mp hs
      have h1 := ho z (by rw [hb]; exact List.mem_append_right _ (List.mem_cons_of_mem _ hz)) y hyz
      dsimp only at ht ht'
      exact absurd (h1.symm.trans (ht'.trans ht.symm)) (hnot z hz))
    simpa [CompressedBuffer.append] using this
  | created hb =>
    simpa [CompressedBuffer.append] using hg

/-- The rows of a series that are in an open buffer have the hash of the buffer. -/
theorem openGroups_series {env : Env α} {u : Uncompressed α} {extra} (hi : UInv env u extra) {g : Set (Row α)} (hg : g ∈ openGroups u) :
    ∃ h ∈ u.inMemory.map (·.hash) ++ u.onDisk.map (·.hash), ∀ r ∈ g, calculateTagHash env r.table r.tags = h := by
  unfold openGroups at hg
  rcases List.mem_append.mp hg with hg | hg
  · obtain ⟨b, hb, rfl⟩ := List.mem_map.mp hg
    refine ⟨b.hash, List.mem_append_left _ (List.mem_map_of_mem hb), ?_⟩
    intro r hr
    obtain ⟨p, _, rfl⟩ := List.mem_map.mp hr
    exact (hi.memory b hb).hash.symm
  · obtain ⟨d, hd, rfl⟩ := List.mem_map.mp hg
    refine ⟨d.hash, List.mem_append_right _ (List.mem_map_of_mem hd), ?_⟩
    intro r hr
    obtain ⟨p, _, rfl⟩ := List.mem_map.mp hr
    exact (hi.disk d (by simp [live, hd])).hash.symm

theorem perm_filter_key {τ κ : Type} [DecidableEq κ] (k : τ → κ) {l : List τ} {x : τ} (hn : (l.map k).Nodup) (hx : x ∈ l) :
    l.Perm (x :: l.filter fun y => decide (k y ≠ k x)) := by
  induction l with
  | nil => cases hx
  | cons y l ih =>
    rw [List.map_cons, List.nodup_cons] at hn
    rcases List.mem_cons.mp hx with rfl | hx'
    · rw [List.filter_cons_of_neg (by simp), filter_key_ne k hn.1]
    · have : k y ≠ k x := fun he => hn.1 (he ▸ List.mem_map_of_mem hx')
      rw [List.filter_cons_of_pos (by simpa using this)]
      exact ((ih hn.2 hx').cons y).trans (.swap x y _)

theorem Spilled.groups {env : Env α} {u u' : Uncompressed α} {b} (h : Spilled env u u' b) :
    (openGroups u').Perm (openGroups u) ∧ sentGroups u' = sentGroups u := by
  obtain ⟨d, h1, h2, h3, h4, h5, h6, h7, _⟩ := h.disk
  have hg : group (ghostRows d) = group (memoryRows b) := by
    unfold ghostRows memoryRows rowsOf
    rw [h3, h6]
    exact group_perm (h7.map _)
  refine ⟨?_, by unfold sentGroups; rw [h.channel]⟩
  unfold openGroups
  rw [h.inMemory, h1, List.map_append, List.map_cons, List.map_nil, hg, List.map_cons, ← List.append_assoc]
  exact (List.perm_append_singleton _ _)

theorem Reserved.groups {env : Env α} {table} {u u' : Uncompressed α} (h : Reserved env table u u') :
    (openGroups u').Perm (openGroups u) ∧ sentGroups u' = sentGroups u := by
  cases h with
  | counter => exact ⟨.refl _, rfl⟩
  | spilled h => exact ⟨(Spilled.groups h).1, (Spilled.groups h).2⟩

theorem placeBuffer_groups {env : Env α} {u : Uncompressed α} {b : MemoryBuffer α} {C : List (Set (Row α))} {P : List (Row α)}
    (h : Groups T (C ++ sentGroups u)
      (group (memoryRows b) :: openGroups { u with inMemory := u.inMemory.filter fun x => x.hash ≠ b.hash }) P) :
    Groups T (C ++ sentGroups (placeBuffer env u b)) (openGroups (placeBuffer env u b)) P := by
  have h1 := placeBuffer_inMemory env u b
  have h2 := placeBuffer_channel env u b
  have h3 := (placeBuffer_rest env u b).1
  unfold openGroups sentGroups at h ⊢
  rw [h1, h2, h3]
  dsimp only at h
  cases b.isFull env
  · simp only [Bool.false_eq_true, if_false, List.append_nil, List.map_append, List.map_cons, List.map_nil, List.append_assoc,
      List.singleton_append]
    exact h.perm rfl List.perm_middle
  · simp only [if_true, List.append_nil, List.flatMap_append, List.flatMap_cons, List.flatMap_nil, messageGroups, ghostBufferRows]
    refine h.close (A := [group (memoryRows b)]) (.refl _) ?_
    rw [List.append_assoc]

theorem Inserted.groups {env : Env α} {extra} {u u' : Uncompressed α} {r : Row α} {batchId} (h : Inserted env extra u r batchId u')
    (hi : UInv env u extra) (hnc : NoCollision env u r) {C : List (Set (Row α))} {P : List (Row α)}
    (hg : Groups T (C ++ sentGroups u) (openGroups u) (r :: P)) : Groups T (C ++ sentGroups u') (openGroups u') P := by
  have hother : ∀ {v : Uncompressed α}, UInv env v extra →
      calculateTagHash env r.table r.tags ∉ v.inMemory.map (·.hash) ++ v.onDisk.map (·.hash) →
      ∀ g ∈ openGroups v, ∀ s ∈ g, ¬ (s.table = r.table ∧ s.tags = r.tags) := by
    intro v hv hn g hg s hs he
    obtain ⟨k, hk, hser⟩ := openGroups_series hv hg
    apply hn
    rw [← he.1, ← he.2, hser s hs]
    exact hk
  cases h with
  | @existing b hb hh =>
    obtain ⟨ht, htags⟩ := hnc.memory b hb hh
    obtain ⟨hf1, _⟩ := insertBatchId_fields (b.insert u.batchIndex r.ts r.val) batchId
    have hbh : ((b.insert u.batchIndex r.ts r.val).insertBatchId batchId).hash = b.hash := hf1
    apply placeBuffer_groups
    rw [insertRow_rows _ _ _ ht htags, hbh]
    have hv : UInv env { u with inMemory := u.inMemory.filter fun x => x.hash ≠ b.hash } extra :=
      ⟨fun x hx => hi.memory x (List.mem_filter.mp hx).1, fun x hx => hi.memoryLen x (List.mem_filter.mp hx).1, hi.diskLen,
        hi.hashes.sublist ((List.filter_sublist.map _).append (.refl _)), hi.disk, hi.paths, hi.sent⟩
    refine Groups.push (o := group (memoryRows b)) (r := r) (hg.perm rfl ?_) (fun s => by simp [group]) (hother hv ?_)
    · unfold openGroups
      rw [← List.cons_append, ← List.map_cons (f := fun b => group (memoryRows b))]
      exact ((perm_filter_key (fun b : MemoryBuffer α => b.hash) hi.memoryHashes hb).map _).symm.append (.refl _)
    · rw [← hh]
      intro hm
      rcases List.mem_append.mp hm with hm | hm
      · obtain ⟨x, hx, he⟩ := List.mem_map.mp hm
        have := (List.mem_filter.mp hx).2
        simp [he] at this
      · exact (List.nodup_append.mp hi.hashes).2.2 _ (List.mem_map_of_mem hb) _ hm rfl
  | @readBack u' d hr hi' hm hd hh =>
    obtain ⟨ht, htags⟩ := (hnc.reserved hr).disk d hd hh
    obtain ⟨g1, g2⟩ := Reserved.groups hr
    rw [← g2] at hg
    generalize hb0 : (⟨d.hash, d.table, d.ghost.tags, u'.batchIndex, d.ghost.points, d.batchIds⟩ : MemoryBuffer α) = b0
    obtain ⟨hf1, _⟩ := insertBatchId_fields (b0.insert u'.batchIndex r.ts r.val) batchId
    have hbh : ((b0.insert u'.batchIndex r.ts r.val).insertBatchId batchId).hash = d.hash := by
      rw [hf1, ← hb0]; rfl
    have h2 : memoryRows b0 = ghostRows d := by rw [← hb0]; rfl
    have h3 : u'.inMemory.filter (fun x => x.hash ≠ d.hash) = u'.inMemory := by
      refine filter_key_ne (fun x : MemoryBuffer α => x.hash) ?_
      intro hx
      exact (List.nodup_append.mp hi'.hashes).2.2 _ hx _ (List.mem_map_of_mem hd) rfl
    have hv := removeDisk_inv hi' hd
    apply placeBuffer_groups
    rw [insertRow_rows _ _ _ (by rw [← hb0]; exact ht) (by rw [← hb0]; exact htags), hbh, h2, ← hh]
    dsimp only
    rw [h3]
    refine Groups.push (o := group (ghostRows d)) (r := r) (hg.perm rfl ?_) (fun s => by simp [group]) (hother (v := { u' with
      files := u'.files.filter (fun f => f.path ≠ d.path)
      onDisk := u'.onDisk.filter (fun x => x.hash ≠ d.hash) }) hv ?_)
    · refine List.Perm.trans ?_ g1
      unfold openGroups
      dsimp only
      refine List.perm_middle.symm.trans ?_
      rw [← List.map_cons (f := fun d => group (ghostRows d))]
      exact List.Perm.append (.refl _) ((perm_filter_key (fun d : DiskBuffer α => d.hash) hi'.diskHashes hd).map _).symm
    · rw [← hh]
      intro hx
      rcases List.mem_append.mp hx with hx | hx
      · exact (List.nodup_append.mp hi'.hashes).2.2 _ hx _ (List.mem_map_of_mem hd) rfl
      · obtain ⟨x, hx, he⟩ := List.mem_map.mp hx
        have := (List.mem_filter.mp hx).2
        simp [he] at this
  | @created u' hr hi' hm hd =>
    obtain ⟨g1, g2⟩ := Reserved.groups hr
    rw [← g2] at hg
    have hmem : ∀ b ∈ u'.inMemory, b.hash ≠ calculateTagHash env r.table r.tags := by
      intro b hb he
      exact hm (he ▸ List.mem_map_of_mem (hr.memory b hb))
    have hput : ∀ b : MemoryBuffer α, b.hash = calculateTagHash env r.table r.tags → putMemory u'.inMemory b = u'.inMemory ++ [b] := by
      intro b hb
      unfold putMemory
      rw [filter_key_ne (fun x : MemoryBuffer α => x.hash)]
      intro hx
      obtain ⟨x, hx, he⟩ := List.mem_map.mp hx
      exact hmem x hx (he.trans hb)
    rw [hput _ rfl]
    have := Groups.push (o' := group [r]) (hg.perm rfl g1).empty (fun s => by simp [group]) (hother hi' (by
      intro hx
      rcases List.mem_append.mp hx with hx | hx
      · obtain ⟨b, hb, he⟩ := List.mem_map.mp hx
        exact hmem b hb he
      · exact hd hx))
    refine this.perm rfl ?_
    unfold openGroups
    simp only [List.map_append, List.map_cons, List.map_nil, List.append_assoc, List.singleton_append]
    exact List.perm_middle

theorem group_of_countP {l l' : List (Row α)} (h : ∀ p : Row α → Bool, l.countP p = l'.countP p) : group l = group l' :=
  Set.ext fun _ => ⟨fun hr => countP_mem (fun p => (h p).le) hr, fun hr => countP_mem (fun p => (h p).ge) hr⟩

theorem spillWhileNegative_groups {env : Env α} (hs : Sorts env) {R : List (Row α)} (hg : Good env R) {extra} (fuel : Nat)
    (u : Uncompressed α) (hk : Known R u extra) (hi : UInv env u extra) {u' : Uncompressed α}
    (ho : spillWhileNegative env true fuel u = .ok u' ∨ spillWhileNegative env true fuel u = .failed u') :
    (openGroups u').Perm (openGroups u) ∧ sentGroups u' = sentGroups u := by
  induction fuel generalizing u with
  | zero =>
    rcases ho with ho | ho <;> cases ho
    exact ⟨.refl _, rfl⟩
  | succ fuel ih =>
    unfold spillWhileNegative at ho
    by_cases hr : u.remaining < 0
    · rw [if_pos hr] at ho
      cases hm : u.inMemory with
      | nil =>
        have : spill env true u = .failed u := by unfold spill; rw [hm]
        rw [this] at ho
        rcases ho with ho | ho <;> cases ho
        exact ⟨.refl _, rfl⟩
      | cons b rest =>
        obtain ⟨u₁, h1, h2, h3⟩ := spill_ok hs hi (fresh_of_known hg hk hi) hm
        rw [h1] at ho
        obtain ⟨h4, h5⟩ := ih u₁ (fun p => by rw [h2.ucount p]; exact hk p) h3 ho
        obtain ⟨h6, h7⟩ := Spilled.groups h2
        exact ⟨h4.trans h6, h5.trans h7⟩
    · rw [if_neg hr] at ho
      rcases ho with ho | ho <;> cases ho
      exact ⟨.refl _, rfl⟩

theorem adjustUncompressed_groups {env : Env α} (hs : Sorts env) {R : List (Row α)} (hg : Good env R) {extra}
    {u : Uncompressed α} (hk : Known R u extra) (hi : UInv env u extra) (change : Int) {u' : Uncompressed α}
    (ho : adjustUncompressed env true u change = .ok u' ∨ adjustUncompressed env true u change = .failed u') :
    (openGroups u').Perm (openGroups u) ∧ sentGroups u' = sentGroups u := by
  have key := fun v => spillWhileNegative_groups hs hg (u.inMemory.length + 1) { u with remaining := u.remaining + change } hk
    (hi.congr rfl rfl rfl rfl) (u' := v)
  unfold adjustUncompressed at ho
  obtain ⟨v, h1, _⟩ := spillWhileNegative_spec hs hg (u.inMemory.length + 1) { u with remaining := u.remaining + change } hk
    (hi.congr rfl rfl rfl rfl) _ rfl
  have h2 := key v h1
  rcases h1 with h1 | h1 <;> rw [h1] at ho <;> rcases ho with ho | ho <;> cases ho
  · exact h2
  · exact h2

theorem flatMap_groups_memory (l : List (MemoryBuffer α)) :
    (l.map fun b => (Message.data (Buffer.inMemory b) : Message (Buffer α))).flatMap messageGroups = l.map fun b => group (memoryRows b) := by
  induction l with
  | nil => rfl
  | cons b l ih => rw [List.map_cons, List.flatMap_cons, ih]; rfl

theorem flatMap_groups_disk (l : List (DiskBuffer α)) :
    (l.map fun d => (Message.data (Buffer.onDisk d) : Message (Buffer α))).flatMap messageGroups = l.map fun d => group (ghostRows d) := by
  induction l with
  | nil => rfl
  | cons b l ih => rw [List.map_cons, List.flatMap_cons, ih]; rfl

theorem send_groups {u : Uncompressed α} (qm : MemoryBuffer α → Bool) (qd : DiskBuffer α → Bool) (batchIndex : Nat)
    (h : Groups T (C ++ sentGroups u) (openGroups u) P) :
    let u' : Uncompressed α := { u with
      batchIndex := batchIndex
      inMemory := u.inMemory.filter (fun b => !qm b)
      onDisk := u.onDisk.filter (fun d => !qd d)
      channel := u.channel ++ (u.inMemory.filter qm).map (fun b => .data (.inMemory b)) ++
        (u.onDisk.filter qd).map (fun d => .data (.onDisk d)) }
    Groups T (C ++ sentGroups u') (openGroups u') P := by
  intro u'
  refine h.close (A := (u.inMemory.filter qm).map (fun b => group (memoryRows b)) ++ (u.onDisk.filter qd).map fun d => group (ghostRows d))
    ?_ ?_
  · have h1 := ((List.filter_append_perm qm u.inMemory).map (fun b => group (memoryRows b))).symm
    have h2 := ((List.filter_append_perm qd u.onDisk).map (fun d => group (ghostRows d))).symm
    rw [List.map_append] at h1 h2
    refine (h1.append h2).trans ?_
    simp only [openGroups, u', List.append_assoc]
    refine List.Perm.append_left _ ?_
    rw [← List.append_assoc, ← List.append_assoc]
    exact List.perm_append_comm.append_right _
  · simp only [sentGroups, u', List.flatMap_append, flatMap_groups_memory, flatMap_groups_disk, List.append_assoc]

theorem flush_groups {u : Uncompressed α} (h : Groups T (C ++ sentGroups u) (openGroups u) P) :
    Groups T (C ++ sentGroups (flushUncompressed u)) (openGroups (flushUncompressed u)) P := by
  have := send_groups (fun _ => true) (fun _ => true) u.batchIndex h
  simp only [filter_false, List.filter_true] at this
  exact this

/-- Every row in a group was received. -/
theorem mem_received {env : Env α} {e : Engine α} (h : Inv env e) :
    (∀ g ∈ closedGroups e, ∀ r ∈ g, r ∈ e.received) ∧ (∀ g ∈ openGroups e.u, ∀ r ∈ g, r ∈ e.received) := by
  have key : ∀ l : List (Row α), (∀ p, l.countP p ≤ ecount p e) → ∀ r ∈ l, r ∈ e.received :=
    fun l hl r hr => countP_mem (fun p => (hl p).trans (h.count p).le) hr
  have hsaved := key (e.c.saved.flatMap chunkRows) fun p => by unfold ecount ccount; omega
  have hbuffers := key (e.c.buffers.flatMap compressedBufferRows) fun p => by unfold ecount ccount; omega
  have hcompressed := key (e.compressed.flatMap (messageRows chunkRows)) fun p => by unfold ecount; omega
  have hcompressing := key (e.compressing.toList.flatMap ghostBufferRows) fun p => by unfold ecount; omega
  have hchannel := key (e.u.channel.flatMap (messageRows ghostBufferRows)) fun p => by unfold ecount ucount; omega
  have hmemory := key (e.u.inMemory.flatMap memoryRows) fun p => by unfold ecount ucount; omega
  have hdisk := key (e.u.onDisk.flatMap ghostRows) fun p => by unfold ecount ucount; omega
  constructor
  · intro g hg r hr
    simp only [closedGroups, chunksOf, sentGroups, List.mem_append, List.mem_map, List.mem_flatMap] at hg
    rcases hg with (⟨c, (hc | ⟨b, hb, hc⟩) | ⟨m, hm, hc⟩, rfl⟩ | ⟨b, hb, rfl⟩) | ⟨m, hm, hg⟩
    · exact hsaved r (List.mem_flatMap.mpr ⟨c, hc, hr⟩)
    · exact hbuffers r (List.mem_flatMap.mpr ⟨b, hb, List.mem_flatMap.mpr ⟨c, hc, hr⟩⟩)
    · refine hcompressed r (List.mem_flatMap.mpr ⟨m, hm, ?_⟩)
      cases m <;> simp only [chunkRefs, List.mem_singleton, List.not_mem_nil] at hc
      subst hc
      exact hr
    · exact hcompressing r (List.mem_flatMap.mpr ⟨b, hb, hr⟩)
    · refine hchannel r (List.mem_flatMap.mpr ⟨m, hm, ?_⟩)
      cases m <;> simp only [messageGroups, List.mem_singleton, List.not_mem_nil] at hg
      subst hg
      exact hr
  · intro g hg r hr
    simp only [openGroups, List.mem_append, List.mem_map] at hg
    rcases hg with ⟨b, hb, rfl⟩ | ⟨d, hd, rfl⟩
    · exact hmemory r (List.mem_flatMap.mpr ⟨b, hb, hr⟩)
    · exact hdisk r (List.mem_flatMap.mpr ⟨d, hd, hr⟩)

theorem mem_received_queued {env : Env α} {e : Engine α} (h : Inv env e) {r : Row α} (hr : r ∈ queuedRows e) : r ∈ e.received := by
  refine countP_mem (l := queuedRows e) (fun p => ?_) hr
  rw [← h.count p, queuedRows, List.countP_append]
  unfold ecount
  omega

theorem ordered_step {env : Env α} (hs : Sorts env) {e e' : Engine α} {op : Op α} (hio : Op.ioOk op)
    (h : Inv env e) (how : Own e.c) (ho : Ordered T e) (hstep : e.step env op = some e') (hg : Good env e'.received) (hin : InOrder T e'.received) :
    Ordered T e' := by
  have hg0 : Good env e.received := by
    obtain ⟨l, hl⟩ := received_mono hstep
    rw [hl] at hg
    exact hg.mono
  have hfresh := fresh_of_known hg0 h.known h.u
  cases op with
  | insert table rows batchId size =>
    simp only [Engine.step] at hstep
    split at hstep
    · cases hstep
      obtain ⟨h1, h2⟩ := mem_received h
      have h3 := List.pairwise_append.mp hin
      have := Groups.arrive (rows := rows) ho (fun g hg r hr s hs => h3.2.2 r (h1 g hg r hr) s hs)
        (fun g hg r hr s hs => h3.2.2 r (h2 g hg r hr) s hs)
        (List.pairwise_append.mpr ⟨ho.order, h3.2.1, fun r hr s hs => h3.2.2 r (mem_received_queued h hr) s hs⟩)
      unfold Ordered
      simpa [queuedRows, messageRows, closedGroups, chunksOf] using this
    · cases hstep
  | flush =>
    cases hstep
    unfold Ordered at ho ⊢
    simpa [queuedRows, messageRows, closedGroups, chunksOf] using ho
  | stop =>
    cases hstep
    unfold Ordered at ho ⊢
    simpa [queuedRows, messageRows, closedGroups, chunksOf] using ho
  | touchMemory i =>
    cases hstep
    exact Groups.perm ho rfl (((toFront_perm e.u.inMemory i).map _).append_right _)
  | touchDisk i =>
    cases hstep
    exact Groups.perm ho rfl (((toFront_perm e.u.onDisk i).map _).append_left _)
  | ingestionTake =>
    simp only [Engine.step] at hstep
    split at hstep
    · next halive =>
      have hcur : e.current = none := by simpa using (Bool.and_eq_true_iff.mp halive).2
      split at hstep
      · cases hstep
      · next b rest hq =>
        cases hstep
        unfold Ordered at ho ⊢
        have : queuedRows { e with ingested := rest, current := some b } = queuedRows e := by
          simp [queuedRows, hq, hcur, messageRows]
        rw [this]
        exact ho
      all_goals
        next n rest hq =>
        cases hstep
        have h1 := flush_groups ho
        have h2 : queuedRows e = e.current.toList.flatMap Ingested.rows ++ rest.flatMap (messageRows Ingested.rows) := by
          simp [queuedRows, hq, messageRows]
        rw [h2] at h1
        unfold Ordered
        simpa [closedGroups, chunksOf, sentGroups, openGroups, queuedRows, messageGroups] using h1
    · cases hstep
  | ingestionRow io =>
    obtain rfl : io = true := hio
    simp only [Engine.step] at hstep
    split at hstep
    · split at hstep
      · next r rows batchId size hcur =>
        have hr : r ∈ e.received := h.current hcur (by simp)
        have hnc := noCollision_of_known hg0 h.known h.u hr
        rcases insertDataPoint_cases hs h.u hfresh r batchId with ⟨u', h1, h2⟩ | ⟨h1, _⟩ | ⟨h1, _⟩
        · rw [h1] at hstep
          cases hstep
          have h3 : queuedRows e = r :: (rows ++ e.ingested.flatMap (messageRows Ingested.rows)) := by
            simp [queuedRows, hcur]
          unfold Ordered at ho
          rw [h3] at ho
          have := Inserted.groups h2 h.u hnc ho
          unfold Ordered
          simpa [closedGroups, chunksOf, queuedRows] using this
        · rw [h1] at hstep
          cases hstep
          exact ho
        · rw [h1] at hstep
          cases hstep
          exact ho
      · cases hstep
    · cases hstep
  | ingestionDone =>
    simp only [Engine.step] at hstep
    split at hstep
    · split at hstep
      · next batchId size hcur =>
        cases hstep
        have h1 := send_groups (fun b => b.isUnused e.u.batchIndex) (fun d => d.isUnused e.u.batchIndex) (e.u.batchIndex + 1) ho
        have h2 : queuedRows e = e.ingested.flatMap (messageRows Ingested.rows) := by simp [queuedRows, hcur]
        rw [h2] at h1
        exact h1
      · cases hstep
    · cases hstep
  | compressionTake =>
    simp only [Engine.step] at hstep
    split at hstep
    · next halive =>
      have hcomp : e.compressing = none := by simpa using (Bool.and_eq_true_iff.mp halive).2
      split at hstep
      · cases hstep
      · next b rest hq =>
        cases hstep
        refine Groups.perm ho ?_ (.refl _)
        simp [closedGroups, chunksOf, sentGroups, hq, hcomp, messageGroups]
      all_goals
        next n rest hq =>
        cases hstep
        refine Groups.perm ho ?_ (.refl _)
        simp [closedGroups, chunksOf, sentGroups, hq, messageGroups, chunkRefs]
    · cases hstep
  | compressionDone =>
    simp only [Engine.step] at hstep
    split at hstep
    · split at hstep
      · cases hstep
      · next b hcomp =>
        have hu := h.u
        rw [hcomp] at hu
        obtain ⟨chunk, files, memory, h1, h2, h3, h4⟩ := compressFinishedBuffer_spec hs hu
          (fun x hx => h.compressing x (by rw [hcomp, hx]))
        rw [h1] at hstep
        cases hstep
        refine Groups.perm ho ?_ (.refl _)
        simp [closedGroups, chunksOf, sentGroups, hcomp, chunkRefs, group_of_countP h3]
    · cases hstep
  | write =>
    simp only [Engine.step] at hstep
    split at hstep
    · split at hstep
      · cases hstep
      · next chunk rest hq =>
        obtain ⟨c, hc, rfl⟩ := Option.map_eq_some_iff.mp hstep
        obtain ⟨c₁, h1, ⟨k, _, h2, _⟩ | ⟨h2, _⟩⟩ := insertCompressedSegments_spec h.c chunk
        · rw [h2] at hc
          cases hc
          unfold Ordered at ho ⊢
          simp only [closedGroups, chunksOf, saveFirst_chunks, hq, List.flatMap_cons, chunkRefs, List.singleton_append] at ho ⊢
          rw [List.map_append, List.map_cons, List.append_assoc, List.append_assoc] at ho
          rw [List.map_append, List.append_assoc, List.append_assoc]
          exact Appended.groups h1 h.c how ho
        · rw [h2] at hc
          cases hc
      all_goals
        next n rest hq =>
        obtain ⟨c, hc, rfl⟩ := Option.map_eq_some_iff.mp hstep
        rw [flushCompressed_spec _ _ rfl h.c] at hc
        cases hc
        refine Groups.perm ho ?_ (.refl _)
        simp only [closedGroups, chunksOf, saveFirst_chunks, hq, List.flatMap_cons, chunkRefs, List.nil_append]
    · cases hstep
  | adjustIngested change =>
    cases hstep
    exact ho
  | adjustUncompressed io change =>
    obtain rfl : io = true := hio
    simp only [Engine.step] at hstep
    obtain ⟨u', h1, _⟩ := adjustUncompressed_spec hs hg0 h.known h.u change
    obtain ⟨h2, h3⟩ := adjustUncompressed_groups hs hg0 h.known h.u change h1
    rcases h1 with h1 | h1 <;> rw [h1] at hstep <;> cases hstep <;>
      exact Groups.perm ho (by simp only [closedGroups, chunksOf, h3]) h2
  | adjustCompressed change =>
    simp only [Engine.step] at hstep
    obtain ⟨c, hc, rfl⟩ := Option.map_eq_some_iff.mp hstep
    have hci : CInv { e.c with remaining := e.c.remaining + change } := ⟨h.c.queue, h.c.nodup⟩
    unfold Model.Storage.adjustCompressed at hc
    rcases saveToFreeMemory_spec 0 _ _ rfl hci with ⟨k, _, h1, _⟩ | ⟨h1, _⟩
    · rw [h1] at hc
      cases hc
      refine Groups.perm ho ?_ (.refl _)
      simp only [closedGroups, chunksOf, saveFirst_chunks]
    · rw [h1] at hc
      cases hc

theorem ordered_run {env : Env α} (hs : Sorts env) (hcap : 2 ≤ env.capacity) (ops : List (Op α)) (hio : ∀ op ∈ ops, Op.ioOk op)
    {e e' : Engine α} (h : Inv env e) (how : Own e.c) (ho : Ordered T e) (hrun : e.run env ops = some e') (hg : Good env e'.received)
    (hin : InOrder T e'.received) : Inv env e' ∧ Own e'.c ∧ Ordered T e' := by
  induction ops generalizing e with
  | nil => cases hrun; exact ⟨h, how, ho⟩
  | cons op ops ih =>
    simp only [Engine.run] at hrun
    obtain ⟨e₁, h1, h2⟩ := Option.bind_eq_some_iff.mp hrun
    have hpre : ∀ (ops : List (Op α)) {e₁ : Engine α}, e₁.run env ops = some e' → ∃ l, e'.received = e₁.received ++ l := by
      intro ops
      induction ops with
      | nil => intro e₁ h; cases h; exact ⟨[], by simp⟩
      | cons o ops ih =>
        intro e₁ h
        simp only [Engine.run] at h
        obtain ⟨e₂, h3, h4⟩ := Option.bind_eq_some_iff.mp h
        obtain ⟨l, hl⟩ := received_mono h3
        obtain ⟨l', hl'⟩ := ih h4
        exact ⟨l ++ l', by rw [hl', hl, List.append_assoc]⟩
    obtain ⟨l, hl⟩ := hpre ops h2
    have hg1 : Good env e₁.received := by rw [hl] at hg; exact hg.mono
    have hin1 : InOrder T e₁.received := by rw [hl] at hin; exact (List.pairwise_append.mp hin).1
    have hop := hio op (List.mem_cons_self ..)
    exact ih (fun o ho => hio o (List.mem_cons_of_mem _ ho)) (inv_step hs hcap hop h h1 hg1) (own_step h how h1) (ordered_step hs hop h how ho h1 hg1 hin1) h2

/-- The saved segments of a series do not overlap if its rows are received in order. -/
theorem separated_of_ordered {e : Engine α} (ho : Ordered T e) : Separated T e.c.saved := by
  have h1 := ho.sequence
  unfold closedGroups chunksOf at h1
  rw [List.append_assoc, List.append_assoc, List.map_append] at h1
  have h2 := (List.pairwise_append.mp (List.pairwise_append.mp h1).1).1
  exact (List.pairwise_map.mp h2).imp fun {x y} h ht ht' htags => Or.inl fun p hp q hq =>
    h ⟨x.table, x.tags, p.1, p.2⟩ (List.mem_map.mpr ⟨p, hp, rfl⟩) ⟨y.table, y.tags, q.1, q.2⟩ (List.mem_map.mpr ⟨q, hq, rfl⟩) ht ht' htags

/-- The saved rows of a series are before the rows of the series that are not saved. -/
theorem saved_before {env : Env α} {e : Engine α} (hi : Inv env e) (ho : Ordered T e) {r s : Row α} (hr : r ∈ savedRows e) (hs : s ∈ e.received)
    (hns : s ∉ savedRows e) (ht : r.table = T) (ht' : s.table = T) (htags : r.tags = s.tags) : r.ts < s.ts := by
  obtain ⟨x, hx, hrx⟩ := List.mem_flatMap.mp hr
  have hseq := ho.sequence
  have hsaved : group (chunkRows x) ∈ closedGroups e := by
    simp only [closedGroups, chunksOf, List.mem_append, List.mem_map]
    exact Or.inl (Or.inl ⟨x, Or.inl (Or.inl hx), rfl⟩)
  have hrest : ∀ g ∈ (e.c.buffers.flatMap (fun b => b.2.chunks) ++ e.compressed.flatMap chunkRefs).map (fun c => group (chunkRows c)) ++
      (e.compressing.toList.map (fun b => group (ghostBufferRows b)) ++ sentGroups e.u), s ∈ g → r.ts < s.ts := by
    intro g hg hsg
    unfold closedGroups chunksOf at hseq
    rw [List.append_assoc, List.append_assoc, List.map_append, List.append_assoc] at hseq
    exact (List.pairwise_append.mp hseq).2.2 (group (chunkRows x)) (List.mem_map_of_mem hx) g hg r hrx s hsg ht ht' htags
  have hmem : s ∈ savedRows e ++ e.c.buffers.flatMap compressedBufferRows ++ e.compressed.flatMap (messageRows chunkRows) ++
      e.compressing.toList.flatMap ghostBufferRows ++ e.u.inMemory.flatMap memoryRows ++ e.u.onDisk.flatMap ghostRows ++
      e.u.channel.flatMap (messageRows ghostBufferRows) ++ queuedRows e := by
    refine countP_mem (l := e.received) (fun p => ?_) hs
    rw [← hi.count p]
    simp only [ecount, ccount, ucount, queuedRows, savedRows, List.countP_append]
    omega
  simp only [List.mem_append] at hmem
  rcases hmem with ((((((h | h) | h) | h) | h) | h) | h) | h
  · exact absurd h hns
  · obtain ⟨b, hb, h⟩ := List.mem_flatMap.mp h
    obtain ⟨c, hc, h⟩ := List.mem_flatMap.mp h
    exact hrest (group (chunkRows c)) (List.mem_append_left _ (List.mem_map.mpr ⟨c, List.mem_append_left _ (List.mem_flatMap.mpr ⟨b, hb, hc⟩), rfl⟩)) h
  · obtain ⟨m, hm, h⟩ := List.mem_flatMap.mp h
    cases m with
    | data c =>
      exact hrest (group (chunkRows c)) (List.mem_append_left _ (List.mem_map.mpr ⟨c, List.mem_append_right _
        (List.mem_flatMap.mpr ⟨_, hm, List.mem_singleton.mpr rfl⟩), rfl⟩)) h
    | _ => cases h
  · obtain ⟨b, hb, h⟩ := List.mem_flatMap.mp h
    exact hrest (group (ghostBufferRows b)) (List.mem_append_right _ (List.mem_append_left _ (List.mem_map_of_mem hb))) h
  · obtain ⟨b, hb, h⟩ := List.mem_flatMap.mp h
    exact ho.before _ hsaved (group (memoryRows b)) (List.mem_append_left _ (List.mem_map_of_mem (f := fun b => group (memoryRows b)) hb)) r hrx s h ht ht' htags
  · obtain ⟨b, hb, h⟩ := List.mem_flatMap.mp h
    exact ho.before _ hsaved (group (ghostRows b)) (List.mem_append_right _ (List.mem_map_of_mem (f := fun b => group (ghostRows b)) hb)) r hrx s h ht ht' htags
  · obtain ⟨m, hm, h⟩ := List.mem_flatMap.mp h
    cases m with
    | data b =>
      exact hrest (group (ghostBufferRows b)) (List.mem_append_right _ (List.mem_append_right _
        (List.mem_flatMap.mpr ⟨_, hm, List.mem_singleton.mpr rfl⟩))) h
    | _ => cases h
  · exact ho.closedBefore _ hsaved r hrx s h ht ht' htags

end ModelarDB.Lemmas.StorageOrder
