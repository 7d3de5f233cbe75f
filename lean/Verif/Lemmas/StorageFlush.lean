import Verif.Lemmas.StorageIdle
/-
Flush requests: everything that was received before a request is in front of it.
-/
namespace ModelarDB.Lemmas.Storage
open Model.Storage Spec.Storage

variable {α : Type}

/-- The number in a control message. -/
def token {τ : Type} : Message τ → Option Nat
  | .data _ => none
  | .flush n => some n
  | .stop n => some n

/-- The rows behind any control message in the channel `l` and further back (`back`) are those received after the request. -/
def Ahead {τ : Type} (R : List (Row α)) (f : τ → List (Row α)) (l : List (Message τ)) (back : (Row α → Bool) → Nat) : Prop :=
  ∀ pre m post n, l = pre ++ m :: post → token m = some n →
    n ≤ R.length ∧ ∀ p, (post.flatMap (messageRows f)).countP p + back p = (R.drop n).countP p

variable {τ : Type} {R : List (Row α)} {f : τ → List (Row α)}

theorem Ahead.nil (back) : Ahead R f [] back := by
  intro pre m post n h
  simp at h

theorem Ahead.pop {m : Message τ} {l back} (h : Ahead R f (m :: l) back) : Ahead R f l back := by
  intro pre m' post n hl hm
  exact h (m :: pre) m' post n (by rw [hl]; rfl) hm

theorem Ahead.head {m : Message τ} {l back n} (h : Ahead R f (m :: l) back) (hm : token m = some n) :
    n ≤ R.length ∧ ∀ p, (l.flatMap (messageRows f)).countP p + back p = (R.drop n).countP p :=
  h [] m l n rfl hm

theorem Ahead.congr {l back back'} (h : Ahead R f l back) (hb : ∀ p, back' p = back p) : Ahead R f l back' := by
  obtain rfl : back' = back := funext hb
  exact h

theorem Ahead.append_data {l new back back'} (h : Ahead R f l back) (hn : ∀ m ∈ new, token m = none)
    (hb : ∀ p, (new.flatMap (messageRows f)).countP p + back' p = back p) : Ahead R f (l ++ new) back' := by
  intro pre m post n hl hm
  rcases List.append_eq_append_iff.mp hl with ⟨as, h1, h2⟩ | ⟨bs, h1, h2⟩
  · have := hn m (by rw [h2]; simp)
    rw [this] at hm; cases hm
  · rcases bs with _ | ⟨x, bs⟩
    · have := hn m (by rw [List.nil_append] at h2; rw [← h2]; simp)
      rw [this] at hm; cases hm
    · rw [List.cons_append, List.cons.injEq] at h2
      obtain ⟨rfl, rfl⟩ := h2
      obtain ⟨h3, h4⟩ := h pre m bs n h1 hm
      refine ⟨h3, fun p => ?_⟩
      rw [List.flatMap_append, List.countP_append, ← h4 p, ← hb p]
      omega

theorem Ahead.append_token {l back n} {m : Message τ} (h : Ahead R f l back) (hm : token m = some n) (hn : n ≤ R.length)
    (hb : ∀ p, back p = (R.drop n).countP p) : Ahead R f (l ++ [m]) back := by
  have hrows : messageRows f m = [] := by cases m <;> simp_all [token, messageRows]
  intro pre m' post n' hl hm'
  rcases List.append_eq_append_iff.mp hl with ⟨as, h1, h2⟩ | ⟨bs, h1, h2⟩
  · rcases as with _ | ⟨x, as⟩
    · rw [List.nil_append, List.cons.injEq] at h2
      obtain ⟨rfl, rfl⟩ := h2
      rw [hm] at hm'
      cases hm'
      exact ⟨hn, fun p => by simpa using hb p⟩
    · simp at h2
  · rcases bs with _ | ⟨x, bs⟩
    · rw [List.nil_append, List.cons.injEq] at h2
      obtain ⟨rfl, rfl⟩ := h2
      rw [hm] at hm'
      cases hm'
      exact ⟨hn, fun p => by simpa using hb p⟩
    · rw [List.cons_append, List.cons.injEq] at h2
      obtain ⟨rfl, rfl⟩ := h2
      obtain ⟨h3, h4⟩ := h pre m' bs n' h1 hm'
      refine ⟨h3, fun p => ?_⟩
      rw [List.flatMap_append, List.countP_append, ← h4 p]
      simp [hrows]

theorem Ahead.grow {l back} (h : Ahead R f l back) (rows : List (Row α)) : Ahead (R ++ rows) f l fun p => back p + rows.countP p := by
  intro pre m post n hl hm
  obtain ⟨h1, h2⟩ := h pre m post n hl hm
  refine ⟨by rw [List.length_append]; omega, fun p => ?_⟩
  rw [List.drop_append_of_le_length h1, List.countP_append, ← h2 p]
  dsimp only
  omega

/-- The rows in open buffers that satisfy `p`. -/
def opens (p : Row α → Bool) (u : Uncompressed α) : Nat :=
  (u.inMemory.flatMap memoryRows).countP p + (u.onDisk.flatMap ghostRows).countP p

/-- The rows that are queued and satisfy `p`. -/
def queued (p : Row α → Bool) (e : Engine α) : Nat :=
  (e.current.toList.flatMap Ingested.rows).countP p + (e.ingested.flatMap (messageRows Ingested.rows)).countP p

theorem ucount_opens (p : Row α → Bool) (u : Uncompressed α) :
    ucount p u = opens p u + (u.channel.flatMap (messageRows ghostBufferRows)).countP p := rfl

structure Tokens (e : Engine α) : Prop where
  ingested : Ahead e.received Ingested.rows e.ingested fun _ => 0
  channel : Ahead e.received ghostBufferRows e.u.channel fun p => opens p e.u + queued p e
  compressed : Ahead e.received chunkRows e.compressed fun p =>
    (e.compressing.toList.flatMap ghostBufferRows).countP p + ucount p e.u + queued p e
  results : ∀ n ∈ e.results, n ≤ e.received.length ∧ ∀ p, (e.received.take n).countP p ≤ (e.c.saved.flatMap chunkRows).countP p

theorem tokens_new (i u c : Nat) : Tokens (Engine.new (α := α) i u c) :=
  ⟨.nil _, .nil _, .nil _, fun n hn => by cases hn⟩

theorem Tokens.saved {e e' : Engine α} (h : Tokens e) (h1 : ∃ l, e'.received = e.received ++ l) (h2 : e'.results = e.results)
    (h3 : ∃ l, e'.c.saved = e.c.saved ++ l) :
    ∀ n ∈ e'.results, n ≤ e'.received.length ∧ ∀ p, (e'.received.take n).countP p ≤ (e'.c.saved.flatMap chunkRows).countP p := by
  intro n hn
  rw [h2] at hn
  obtain ⟨l, hl⟩ := h1
  obtain ⟨l', hl'⟩ := h3
  obtain ⟨h4, h5⟩ := h.results n hn
  refine ⟨by rw [hl, List.length_append]; omega, fun p => ?_⟩
  rw [hl, hl', List.take_append_of_le_length h4, List.flatMap_append, List.countP_append]
  exact Nat.le_trans (h5 p) (Nat.le_add_right _ _)

/-- Steps that change nothing but the manager of uncompressed data and send buffers only. -/
theorem Tokens.uncompressed {e e' : Engine α} (h : Tokens e) (hr : e'.received = e.received) (hi : e'.ingested = e.ingested)
    {new} (hc : e'.u.channel = e.u.channel ++ new) (hn : ∀ m ∈ new, token m = none) (hcd : e'.compressed = e.compressed)
    (hcg : e'.compressing = e.compressing) (hres : e'.results = e.results) (hsaved : e'.c.saved = e.c.saved)
    (hcount : ∀ p, ucount p e'.u + (e'.current.toList.flatMap Ingested.rows).countP p =
      ucount p e.u + (e.current.toList.flatMap Ingested.rows).countP p) : Tokens e' := by
  refine ⟨by rw [hr, hi]; exact h.ingested, ?_, ?_, h.saved ⟨[], by simp [hr]⟩ hres ⟨[], by simp [hsaved]⟩⟩
  · rw [hr, hc]
    refine h.channel.append_data hn fun p => ?_
    have := hcount p
    rw [ucount_opens, ucount_opens, hc, List.flatMap_append, List.countP_append] at this
    unfold queued
    rw [hi]
    omega
  · rw [hr, hcd]
    refine h.compressed.congr fun p => ?_
    have := hcount p
    unfold queued
    rw [hi, hcg]
    omega

theorem insertCompressedSegments_saved {c c' : Compressed α} (h : CInv c) {x : Chunk α} (hc : insertCompressedSegments c x = some c') :
    ∃ l, c'.saved = c.saved ++ l := by
  obtain ⟨c₁, h1, ⟨k, _, h2, _⟩ | ⟨h2, _⟩⟩ := insertCompressedSegments_spec h x
  · rw [h2] at hc
    cases hc
    have : c₁.saved = c.saved := by cases h1 <;> rfl
    exact ⟨_, by simp only [saveFirst, this]; rfl⟩
  · rw [h2] at hc; cases hc

theorem tokens_step {env : Env α} (hs : Sorts env) (hcap : 2 ≤ env.capacity) {e e' : Engine α} {op : Op α} (hio : Op.ioOk op)
    (h : Inv env e) (hstep : e.step env op = some e') (hg : Good env e'.received) (ht : Tokens e) : Tokens e' := by
  have hg0 : Good env e.received := by
    obtain ⟨l, hl⟩ := received_mono hstep
    rw [hl] at hg
    exact hg.mono
  have hfresh := fresh_of_known hg0 h.known h.u
  have hi' := inv_step hs hcap hio h hstep hg
  cases op with
  | insert table rows batchId size =>
    simp only [Engine.step] at hstep
    split at hstep
    · cases hstep
      have hq : ∀ p, queued p { e with
        ingestedRemaining := e.ingestedRemaining - size
        ingested := e.ingested ++ [.data ⟨rows, batchId, size⟩]
        received := e.received ++ rows
        batches := e.batches ++ batchId.toList.map (fun id => (table, id, rows)) } = queued p e + rows.countP p := by
        intro p
        simp only [queued, List.flatMap_append, List.flatMap_cons, List.flatMap_nil, messageRows, List.append_nil, List.countP_append]
        omega
      refine ⟨?_, ?_, ?_, ht.saved ⟨rows, rfl⟩ rfl ⟨[], by simp⟩⟩
      · refine (ht.ingested.grow rows).append_data (by simp [token]) fun p => ?_
        simp [messageRows]
      · refine (ht.channel.grow rows).congr fun p => ?_
        rw [hq]
        dsimp only
        omega
      · refine (ht.compressed.grow rows).congr fun p => ?_
        rw [hq]
        dsimp only
        omega
    · cases hstep
  | flush =>
    cases hstep
    have hq : ∀ p, queued p { e with ingested := e.ingested ++ [.flush e.received.length] } = queued p e := by
      intro p; simp [queued, messageRows]
    refine ⟨?_, ?_, ?_, ht.saved ⟨[], by simp⟩ rfl ⟨[], by simp⟩⟩
    · exact ht.ingested.append_token rfl (Nat.le_refl _) (by simp)
    · exact ht.channel.congr fun p => by rw [hq]
    · exact ht.compressed.congr fun p => by rw [hq]
  | stop =>
    cases hstep
    have hq : ∀ p, queued p { e with ingested := e.ingested ++ [.stop e.received.length] } = queued p e := by
      intro p; simp [queued, messageRows]
    refine ⟨?_, ?_, ?_, ht.saved ⟨[], by simp⟩ rfl ⟨[], by simp⟩⟩
    · exact ht.ingested.append_token rfl (Nat.le_refl _) (by simp)
    · exact ht.channel.congr fun p => by rw [hq]
    · exact ht.compressed.congr fun p => by rw [hq]
  | touchMemory i =>
    cases hstep
    exact ht.uncompressed rfl rfl (new := []) (by simp) (by simp) rfl rfl rfl rfl fun p => by
      rw [(h.u.perm (toFront_perm e.u.inMemory i) (List.Perm.refl _)).2 p]
  | touchDisk i =>
    cases hstep
    exact ht.uncompressed rfl rfl (new := []) (by simp) (by simp) rfl rfl rfl rfl fun p => by
      rw [(h.u.perm (List.Perm.refl _) (toFront_perm e.u.onDisk i)).2 p]
  | ingestionTake =>
    simp only [Engine.step] at hstep
    split at hstep
    · next halive =>
      have hcur : e.current = none := by simpa using (Bool.and_eq_true_iff.mp halive).2
      have hing := ht.ingested
      split at hstep
      · cases hstep
      · next b rest hq =>
        cases hstep
        rw [hq] at hing
        have hq' : ∀ p, queued p { e with ingested := rest, current := some b } = queued p e := by
          intro p
          simp only [queued, hq, hcur, messageRows, List.flatMap_cons, Option.toList_none, Option.toList_some, List.flatMap_nil,
            List.append_nil, List.countP_append, List.countP_nil]
          omega
        refine ⟨hing.pop, ?_, ?_, ht.saved ⟨[], by simp⟩ rfl ⟨[], by simp⟩⟩
        · exact ht.channel.congr fun p => by rw [hq']
        · exact ht.compressed.congr fun p => by rw [hq']
      all_goals
        next n rest hq =>
        cases hstep
        rw [hq] at hing
        obtain ⟨hn1, hn2⟩ := hing.head (n := n) rfl
        obtain ⟨h1, h2, _⟩ := flush_spec h.u
        have hc1 := (h1.control (m := .flush n) (by simp)).2
        have hc2 := (h1.control (m := .stop n) (by simp)).2
        have hop : ∀ p, opens p (flushUncompressed e.u) = 0 := by intro p; simp [opens, flushUncompressed]
        have hqu : ∀ p, queued p e = (rest.flatMap (messageRows Ingested.rows)).countP p := by
          intro p
          simp [queued, hq, hcur, messageRows]
        have hdata : Ahead e.received ghostBufferRows (flushUncompressed e.u).channel fun p => queued p e := by
          unfold flushUncompressed
          dsimp only
          rw [List.append_assoc]
          refine ht.channel.append_data ?_ ?_
          · intro m hm
            simp only [List.mem_append, List.mem_map] at hm
            rcases hm with ⟨x, _, rfl⟩ | ⟨x, _, rfl⟩ <;> rfl
          · intro p
            rw [List.flatMap_append, (flatMap_data_memory _).1, (flatMap_data_disk _).1, List.countP_append]
            unfold opens
            omega
        refine ⟨hing.pop, ?_, ?_, ht.saved ⟨[], by simp⟩ rfl ⟨[], by simp⟩⟩
        · refine (hdata.append_token rfl hn1 fun p => ?_).congr fun p => ?_
          · rw [hqu, ← hn2 p, Nat.add_zero]
          · show opens p (flushUncompressed e.u) + _ = _
            rw [hop, hqu]
            simp [queued, hcur]
        · refine ht.compressed.congr fun p => ?_
          have := hc1 p
          have := hc2 p
          have := h2 p
          have := hqu p
          simp only [queued, hcur, Option.toList_none, List.flatMap_nil, List.countP_nil, Nat.zero_add] at this ⊢
          omega
    · cases hstep
  | ingestionRow io =>
    obtain rfl : io = true := hio
    simp only [Engine.step] at hstep
    split at hstep
    · split at hstep
      · next r rows batchId size hcur =>
        have hr : r ∈ e.received := h.current hcur (by simp)
        have hnc := noCollision_of_known hg0 h.known h.u hr
        rcases insertDataPoint_cases hs h.u hfresh r batchId with ⟨u', h1, h2⟩ | ⟨h1, _⟩ | ⟨h1, _⟩
        · have h1' := h1
          rw [h1] at hstep
          cases hstep
          obtain ⟨_, h4⟩ := h2.spec hcap h.u hnc
          have hcount : ∀ p, ucount p u' + ((some (⟨rows, batchId, size⟩ : Ingested α)).toList.flatMap Ingested.rows).countP p =
              ucount p e.u + (e.current.toList.flatMap Ingested.rows).countP p := by
            intro p
            rw [h4 p, hcur]
            simp only [Option.toList_some, List.flatMap_cons, List.flatMap_nil, List.append_nil, List.countP_cons]
            omega
          rcases insertDataPoint_channel h1' with h5 | ⟨b, _, h5⟩
          · exact ht.uncompressed rfl rfl (new := []) (by simp [h5]) (by simp) rfl rfl rfl rfl hcount
          · exact ht.uncompressed rfl rfl h5 (by simp [token]) rfl rfl rfl rfl hcount
        · rw [h1] at hstep
          cases hstep
          exact ⟨ht.ingested, ht.channel, ht.compressed, ht.results⟩
        · rw [h1] at hstep
          cases hstep
          exact ⟨ht.ingested, ht.channel, ht.compressed, ht.results⟩
      · cases hstep
    · cases hstep
  | ingestionDone =>
    simp only [Engine.step] at hstep
    split at hstep
    · split at hstep
      · next batchId size hcur =>
        cases hstep
        obtain ⟨_, h2, _⟩ := finishBatch_spec h.u
        refine ht.uncompressed rfl rfl (new := (e.u.inMemory.filter (fun b => b.isUnused e.u.batchIndex)).map (fun b => .data (.inMemory b)) ++
          (e.u.onDisk.filter (fun d => d.isUnused e.u.batchIndex)).map (fun d => .data (.onDisk d))) ?_ ?_ rfl rfl rfl rfl ?_
        · simp [finishBatch, finishUnusedBuffers]
        · intro m hm
          simp only [List.mem_append, List.mem_map] at hm
          rcases hm with ⟨x, _, rfl⟩ | ⟨x, _, rfl⟩ <;> rfl
        · intro p
          rw [hcur]
          simpa using h2 p
      · cases hstep
    · cases hstep
  | compressionTake =>
    simp only [Engine.step] at hstep
    split at hstep
    · next halive =>
      have hcomp : e.compressing = none := by simpa using (Bool.and_eq_true_iff.mp halive).2
      have hch := ht.channel
      split at hstep
      · cases hstep
      · next b rest hq =>
        cases hstep
        rw [hq] at hch
        refine ⟨ht.ingested, hch.pop, ?_, ht.saved ⟨[], by simp⟩ rfl ⟨[], by simp⟩⟩
        refine ht.compressed.congr fun p => ?_
        have h2 := ucount_take hq p
        simp only [hcomp, messageRows, Option.toList_none, Option.toList_some, List.flatMap_cons,
          List.flatMap_nil, List.append_nil, List.countP_nil, queued] at h2 ⊢
        omega
      all_goals
        next n rest hq =>
        cases hstep
        rw [hq] at hch
        obtain ⟨hn1, hn2⟩ := hch.head (n := n) rfl
        refine ⟨ht.ingested, hch.pop, ?_, ht.saved ⟨[], by simp⟩ rfl ⟨[], by simp⟩⟩
        have huc : ∀ p, ucount p { e.u with channel := rest } = ucount p e.u := by
          intro p
          have := ucount_take hq p
          simp only [messageRows, List.countP_nil, Nat.add_zero] at this
          first | exact this | exact this.symm
        refine (ht.compressed.append_token rfl hn1 fun p => ?_).congr fun p => ?_
        · rw [← hn2 p, ← huc p, ucount_opens, hcomp]
          simp only [Option.toList_none, List.flatMap_nil, List.countP_nil, opens]
          omega
        · rw [huc]; rfl
    · cases hstep
  | compressionDone =>
    simp only [Engine.step] at hstep
    split at hstep
    · split at hstep
      · cases hstep
      · next b hcomp =>
        have hu := h.u
        rw [hcomp] at hu
        obtain ⟨chunk, files, memory, h1, h2, h3, h4⟩ := compressFinishedBuffer_spec hs hu
          (fun x hx => h.compressing x (by rw [hcomp, hx]))
        rw [h1] at hstep
        cases hstep
        refine ⟨ht.ingested, ht.channel, ?_, ht.saved ⟨[], by simp⟩ rfl ⟨[], by simp⟩⟩
        refine ht.compressed.append_data (by simp [token]) fun p => ?_
        have h5 := h3 p
        have h6 : ucount p { e.u with files := files, remaining := e.u.remaining + memory } = ucount p e.u := rfl
        dsimp only at h6
        simp only [hcomp, messageRows, List.flatMap_cons, List.flatMap_nil, List.append_nil,
            Option.toList_none, Option.toList_some, List.countP_nil, h6, queued]
        omega
    · cases hstep
  | write =>
    simp only [Engine.step] at hstep
    split at hstep
    · have hcm := ht.compressed
      split at hstep
      · cases hstep
      · next chunk rest hq =>
        obtain ⟨c, hc, rfl⟩ := Option.map_eq_some_iff.mp hstep
        rw [hq] at hcm
        exact ⟨ht.ingested, ht.channel, hcm.pop, ht.saved ⟨[], by simp⟩ rfl (insertCompressedSegments_saved h.c hc)⟩
      all_goals
        next n rest hq =>
        obtain ⟨c, hc, rfl⟩ := Option.map_eq_some_iff.mp hstep
        rw [flushCompressed_spec _ _ rfl h.c] at hc
        cases hc
        rw [hq] at hcm
        obtain ⟨hn1, hn2⟩ := hcm.head (n := n) rfl
        refine ⟨ht.ingested, ht.channel, hcm.pop, ?_⟩
        intro n' hn'
        rcases List.mem_append.mp hn' with hn' | hn'
        · obtain ⟨h5, h6⟩ := ht.results n' hn'
          refine ⟨h5, fun p => Nat.le_trans (h6 p) ?_⟩
          simp only [saveFirst, List.flatMap_append, List.countP_append]
          omega
        · rw [List.mem_singleton] at hn'
          subst hn'
          refine ⟨hn1, fun p => ?_⟩
          have hcount := hi'.count p
          have h7 := hn2 p
          unfold ecount at hcount
          unfold queued at h7
          have h8 : ccount p (saveFirst e.c.buffers.length e.c) = ((saveFirst e.c.buffers.length e.c).saved.flatMap chunkRows).countP p := by
            simp [ccount, saveFirst]
          have h9 : e.received.countP p = (e.received.take n').countP p + (e.received.drop n').countP p := by
            rw [← List.countP_append, List.take_append_drop]
          dsimp only at hcount ⊢
          omega
    · cases hstep
  | adjustIngested change =>
    cases hstep
    exact ⟨ht.ingested, ht.channel, ht.compressed, ht.results⟩
  | adjustUncompressed io change =>
    obtain rfl : io = true := hio
    simp only [Engine.step] at hstep
    obtain ⟨u', h1, h2, h3, h4⟩ := adjustUncompressed_spec hs hg0 h.known h.u change
    rcases h1 with h1 | h1 <;> rw [h1] at hstep <;> cases hstep <;>
      exact ht.uncompressed rfl rfl (new := []) (by simp [h4]) (by simp) rfl rfl rfl rfl fun p => by
        show ucount p u' + _ = _
        rw [h3]
  | adjustCompressed change =>
    simp only [Engine.step] at hstep
    obtain ⟨c, hc, rfl⟩ := Option.map_eq_some_iff.mp hstep
    have hci : CInv { e.c with remaining := e.c.remaining + change } := ⟨h.c.queue, h.c.nodup⟩
    unfold Model.Storage.adjustCompressed at hc
    rcases saveToFreeMemory_spec 0 _ _ rfl hci with ⟨k, _, h1, _⟩ | ⟨h1, _⟩
    · rw [h1] at hc
      cases hc
      exact ⟨ht.ingested, ht.channel, ht.compressed, ht.saved ⟨[], by simp⟩ rfl ⟨_, rfl⟩⟩
    · rw [h1] at hc
      cases hc

theorem tokens_run {env : Env α} (hs : Sorts env) (hcap : 2 ≤ env.capacity) (ops : List (Op α)) (hio : ∀ op ∈ ops, Op.ioOk op)
    {e e' : Engine α} (h : Inv env e) (ht : Tokens e) (hrun : e.run env ops = some e') (hg : Good env e'.received) : Tokens e' := by
  induction ops generalizing e with
  | nil => cases hrun; exact ht
  | cons op ops ih =>
    simp only [Engine.run] at hrun
    obtain ⟨e₁, h1, h2⟩ := Option.bind_eq_some_iff.mp hrun
    have hg1 := run_good h2 hg
    have hio1 := hio op (List.mem_cons_self ..)
    exact ih (fun o ho => hio o (List.mem_cons_of_mem _ ho)) (inv_step hs hcap hio1 h h1 hg1)
      (tokens_step hs hcap hio1 h h1 hg1 ht) h2

/-- All requests in the order of their results. -/
def requests (e : Engine α) : List Nat :=
  e.results ++ e.compressed.filterMap token ++ e.u.channel.filterMap token ++ e.ingested.filterMap token

theorem filterMap_token_data {l : List (Message τ)} (h : ∀ m ∈ l, token m = none) : l.filterMap token = [] :=
  List.filterMap_eq_nil_iff.mpr h

theorem flushUncompressed_tokens (u : Uncompressed α) : (flushUncompressed u).channel.filterMap token = u.channel.filterMap token := by
  unfold flushUncompressed
  dsimp only
  rw [List.append_assoc, List.filterMap_append, filterMap_token_data (l := _ ++ _), List.append_nil]
  intro m hm
  simp only [List.mem_append, List.mem_map] at hm
  rcases hm with ⟨x, _, rfl⟩ | ⟨x, _, rfl⟩ <;> rfl

theorem finishBatch_tokens (u : Uncompressed α) : (finishBatch u).channel.filterMap token = u.channel.filterMap token := by
  unfold finishBatch finishUnusedBuffers
  dsimp only
  rw [List.append_assoc, List.filterMap_append, filterMap_token_data (l := _ ++ _), List.append_nil]
  intro m hm
  simp only [List.mem_append, List.mem_map] at hm
  rcases hm with ⟨x, _, rfl⟩ | ⟨x, _, rfl⟩ <;> rfl

/-- Requests are answered in the order in which they are made. -/
theorem requests_step {env : Env α} {e e' : Engine α} {op : Op α} (h : e.step env op = some e') :
    requests e' = requests e ++ if Op.isRequest op then [e.received.length] else [] := by
  cases op with
  | insert table rows batchId size =>
    simp only [Engine.step] at h
    split at h
    · cases h; simp [requests, Op.isRequest, token]
    · cases h
  | flush => cases h; simp [requests, Op.isRequest, token]
  | stop => cases h; simp [requests, Op.isRequest, token]
  | touchMemory i => cases h; simp [requests, Op.isRequest]
  | touchDisk i => cases h; simp [requests, Op.isRequest]
  | adjustIngested change => cases h; simp [requests, Op.isRequest]
  | ingestionTake =>
    simp only [Engine.step] at h
    split at h
    · split at h
      · cases h
      all_goals
        next hq =>
        cases h
        simp [requests, Op.isRequest, hq, token, List.filterMap_cons, flushUncompressed_tokens]
    · cases h
  | ingestionRow io =>
    simp only [Engine.step] at h
    split at h
    · split at h
      · split at h
        · next hu =>
          cases h
          rcases insertDataPoint_channel hu with h1 | ⟨b, _, h1⟩ <;> simp [requests, Op.isRequest, h1, token]
        · cases h; simp [requests, Op.isRequest]
        · next hu => cases h; simp [requests, Op.isRequest, insertDataPoint_failed_channel hu]
        · cases h
      · cases h
    · cases h
  | ingestionDone =>
    simp only [Engine.step] at h
    split at h
    · split at h
      · cases h; simp [requests, Op.isRequest, finishBatch_tokens]
      · cases h
    · cases h
  | compressionTake =>
    simp only [Engine.step] at h
    split at h
    · split at h
      · cases h
      all_goals
        next hq =>
        cases h
        simp [requests, Op.isRequest, hq, token, List.filterMap_cons]
    · cases h
  | compressionDone =>
    simp only [Engine.step] at h
    split at h
    · split at h
      · cases h
      · split at h <;> cases h <;> simp [requests, Op.isRequest, token]
    · cases h
  | write =>
    simp only [Engine.step] at h
    split at h
    · split at h
      · cases h
      all_goals
        next hq =>
        obtain ⟨c, _, rfl⟩ := Option.map_eq_some_iff.mp h
        simp [requests, Op.isRequest, hq, token, List.filterMap_cons]
    · cases h
  | adjustUncompressed io change =>
    simp only [Engine.step] at h
    split at h
    · next hu => cases h; simp [requests, Op.isRequest, adjustUncompressed_channel (Or.inl hu)]
    · next hu => cases h; simp [requests, Op.isRequest, adjustUncompressed_channel (Or.inr hu)]
    · cases h
  | adjustCompressed change =>
    obtain ⟨c, _, rfl⟩ := Option.map_eq_some_iff.mp h
    simp [requests, Op.isRequest]

theorem requests_run {env : Env α} {ops : List (Op α)} {e e' : Engine α} (h : e.run env ops = some e') :
    (∃ l, requests e' = requests e ++ l) ∧ (requests e').length = (requests e).length + ops.countP Op.isRequest := by
  induction ops generalizing e with
  | nil => cases h; exact ⟨⟨[], by simp⟩, by simp⟩
  | cons op ops ih =>
    simp only [Engine.run] at h
    obtain ⟨e₁, h1, h2⟩ := Option.bind_eq_some_iff.mp h
    obtain ⟨⟨l, h3⟩, h4⟩ := ih h2
    have h5 := requests_step h1
    constructor
    · rw [h3, h5, List.append_assoc]
      exact ⟨_, rfl⟩
    · rw [h4, h5, List.countP_cons, List.length_append]
      cases Op.isRequest op <;> simp; omega

end ModelarDB.Lemmas.Storage
