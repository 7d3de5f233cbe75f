import Verif.Lemmas.MemoryPool
import Verif.Lemmas.StorageFlush
import Verif.Props.C22
/-
C25: Waiting for memory cannot be forgotten.
-/
namespace ModelarDB.Props
open Model.MemoryPool Spec.MemoryPool Lemmas.MemoryPool

/-- C25, no memory is handed out twice: what remains and what is held by threads is always what is configured, and a thread is only given
memory that is there. -/
theorem C25_handed_out_once {size : Nat} {ops : List Op} {p : Pool} (h : (Pool.new size).run ops = some p) :
    p.remaining + handedOut p = p.budget ∧
      ∀ i p', p.step (.run i) = some p' → handedOut p' ≠ handedOut p → 0 ≤ p'.remaining := by
  refine ⟨(poolInv_run h (poolInv_new size)).account, fun i p' h' hne => ?_⟩
  simp only [Pool.step] at h'
  split at h'
  · next size' hr =>
    split at h'
    · cases h'
      have := sum_set (r' := ⟨size', .waiting⟩) hr
      simp only [reduceCtorEq, if_false, Nat.add_zero] at this
      exact absurd this hne
    · cases h'
      dsimp only
      omega
  · cases h'

/-- C25, no wake-up is lost: after every history, a thread that waits although there is enough memory for it is about to be woken up,
as another thread has still to call `notify_all`, and after that call the thread gets the memory as soon as it runs. -/
theorem C25_no_lost_wakeup {size : Nat} {ops : List Op} {p : Pool} (h : (Pool.new size).run ops = some p) {i : Nat} {n : Nat}
    (hi : p.requests[i]? = some ⟨n, .waiting⟩) (henough : (n : Int) ≤ p.remaining) :
    ∃ p' p'', p.step .notify = some p' ∧ p'.step (.run i) = some p'' ∧ p''.requests[i]? = some ⟨n, .holding⟩ := by
  have hinv := poolInv_run h (poolInv_new size)
  have hn : 0 < p.notifying := by
    refine Nat.pos_of_ne_zero fun h0 => ?_
    have := hinv.noLostWakeup h0 _ (List.mem_of_getElem? hi) rfl
    dsimp only at this
    omega
  have h1 : p.step .notify = some { p with requests := p.requests.map wake, notifying := p.notifying - 1 } := by
    simp only [Pool.step, if_pos hn]
  have h2 : (p.requests.map wake)[i]? = some ⟨n, .ready⟩ := by
    rw [List.getElem?_map, hi]
    rfl
  have hlen : i < (p.requests.map wake).length := (List.getElem?_eq_some_iff.mp h2).1
  refine ⟨_, { p with
    remaining := p.remaining - n, requests := (p.requests.map wake).set i ⟨n, .holding⟩, notifying := p.notifying - 1 }, h1, ?_, ?_⟩
  · simp only [Pool.step, h2]
    rw [if_neg (by omega)]
  · exact List.getElem?_set_self hlen

/-- C25, only a request that can never be satisfied waits forever: when all memory has been returned, every thread that was woken up has
run and nobody is about to notify, a thread that still waits has requested more than is configured. -/
theorem C25_only_impossible_waits {size : Nat} {ops : List Op} {p : Pool} (h : (Pool.new size).run ops = some p)
    (hquiet : p.notifying = 0) (hnone : ∀ r ∈ p.requests, r.phase = .waiting) : ∀ r ∈ p.requests, p.budget < r.size := by
  have hinv := poolInv_run h (poolInv_new size)
  intro r hr
  have h1 := hinv.noLostWakeup hquiet r hr (hnone r hr)
  have h2 := hinv.account
  have h3 : handedOut p = 0 := by
    unfold handedOut
    have : p.requests.filter (fun r => r.phase = .holding) = [] := by
      rw [List.filter_eq_nil_iff]
      intro x hx
      rw [hnone x hx]
      simp
    rw [this]
    rfl
  omega

/-- Two threads wait while a third holds all memory and returns it; one of them can then be served. -/
def contended : List Op :=
  [.request 5, .run 0, .request 3, .request 4, .request 9, .run 1, .run 2, .run 3, .release 0]

example : (Pool.new 5).run contended =
    some ⟨5, [⟨3, .waiting⟩, ⟨4, .waiting⟩, ⟨9, .waiting⟩], 1, 5⟩ := by decide

example : (Pool.new 5).run (contended ++ [.notify, .run 2, .run 1, .run 0, .release 1, .notify, .run 0, .run 1, .release 0, .notify, .run 0]) =
    some ⟨5, [⟨9, .waiting⟩], 0, 5⟩ := by decide

end ModelarDB.Props

namespace ModelarDB.Props
open Model.Storage Spec.Storage Lemmas.Storage

variable {α : Type}

/-- The ingestion thread waits for uncompressed memory and no buffer is or will be compressed. -/
structure Stuck (e : Engine α) : Prop where
  waiting : e.waiting = true
  current : ∃ r rows batchId size, e.current = some ⟨r :: rows, batchId, size⟩
  channel : e.u.channel = []
  compressing : e.compressing = none

/-- Operations that do not change the amount of uncompressed memory. -/
def Op.keepsMemory : Op α → Prop
  | .adjustUncompressed _ _ => False
  | _ => True

private theorem stuck_step {env : Env α} {e e' : Engine α} {op : Op α} (hop : Op.keepsMemory op) (h : e.step env op = some e')
    (hs : Stuck e) : Stuck e' ∧ e'.current = e.current := by
  obtain ⟨h1, h2, h3, h4⟩ := hs
  cases op with
  | insert table rows batchId size =>
    simp only [Engine.step] at h
    split at h <;> cases h
    exact ⟨⟨h1, h2, h3, h4⟩, rfl⟩
  | flush => cases h; exact ⟨⟨h1, h2, h3, h4⟩, rfl⟩
  | stop => cases h; exact ⟨⟨h1, h2, h3, h4⟩, rfl⟩
  | touchMemory i => cases h; exact ⟨⟨h1, h2, h3, h4⟩, rfl⟩
  | touchDisk i => cases h; exact ⟨⟨h1, h2, h3, h4⟩, rfl⟩
  | adjustIngested change => cases h; exact ⟨⟨h1, h2, h3, h4⟩, rfl⟩
  | ingestionTake =>
    simp only [Engine.step] at h
    split at h
    · next hc =>
      obtain ⟨r, rows, batchId, size, h2⟩ := h2
      rw [h2] at hc
      simp at hc
    · cases h
  | ingestionRow io =>
    simp only [Engine.step, h1, Bool.not_true, Bool.and_false, Bool.false_eq_true, if_false] at h
    cases h
  | ingestionDone =>
    obtain ⟨r, rows, batchId, size, h2⟩ := h2
    simp only [Engine.step, h2] at h
    split at h <;> cases h
  | compressionTake =>
    simp only [Engine.step] at h
    split at h
    · rw [h3] at h
      cases h
    · cases h
  | compressionDone =>
    simp only [Engine.step] at h
    split at h
    · rw [h4] at h
      cases h
    · cases h
  | write =>
    simp only [Engine.step] at h
    split at h
    · split at h
      · cases h
      all_goals
        obtain ⟨c, _, rfl⟩ := Option.map_eq_some_iff.mp h
        exact ⟨⟨h1, h2, h3, h4⟩, rfl⟩
    · cases h
  | adjustUncompressed io change => exact hop.elim
  | adjustCompressed change =>
    obtain ⟨c, _, rfl⟩ := Option.map_eq_some_iff.mp h
    exact ⟨⟨h1, h2, h3, h4⟩, rfl⟩

/-- A flush is requested when nothing is buffered, then rows of two series arrive and there is memory for one buffer. The second row has
to wait as the request has not been taken from the channel. Then it is, and the flush is completed. -/
def forgotten : List (Model.Storage.Op Nat) :=
  [.flush, .insert "t" [rowA 1 7, rowB 1 8] none 2, .ingestionTake, .ingestionTake, .ingestionRow true, .ingestionRow true,
    .compressionTake, .write]

/-- C25 is false for uncompressed memory: whatever happens from then on, except for a change of the configuration, the ingestion
thread waits, although it could spill the buffer of the other series, which it would have done if the request had been taken earlier.
`wait_for_uncompressed_memory_until` (types.rs:150-179) checks if the channel is empty only before it waits, and taking a
request from the channel (uncompressed_data_manager.rs:503-524) wakes up nobody. -/
theorem C25_uncompressed_forgotten : ∃ e : Engine Nat, (Engine.new 6 24 20).run (smallEnv 2) forgotten = some e ∧
    Good (smallEnv 2) e.received ∧ (∃ u, insertDataPoint (smallEnv 2) true e.u (rowB 1 8) none = .ok u) ∧
    ∀ (after : List (Model.Storage.Op Nat)) (e' : Engine Nat), (∀ op ∈ after, Op.keepsMemory op) → e.run (smallEnv 2) after = some e' →
      e'.waiting = true ∧ rowB 1 8 ∈ queuedRows e' := by
  refine ⟨((Engine.new 6 24 20).run (smallEnv 2) forgotten).get (by decide +kernel), (Option.some_get _).symm, by decide +kernel,
    ⟨_, rfl⟩, ?_⟩
  generalize he : ((Engine.new 6 24 20).run (smallEnv 2) forgotten).get (by decide +kernel) = e
  have h1 : e.waiting = true := by rw [← he]; decide +kernel
  have h2 : e.current = some ⟨[rowB 1 8], none, 2⟩ := by rw [← he]; decide +kernel
  have h3 : e.u.channel = [] := by rw [← he]; decide +kernel
  have h4 : e.compressing = none := by rw [← he]; decide +kernel
  clear he
  intro after
  induction after generalizing e with
  | nil =>
    intro e' _ hrun
    cases hrun
    exact ⟨h1, by simp [queuedRows, h2]⟩
  | cons op after ih =>
    intro e' hops hrun
    simp only [Engine.run] at hrun
    obtain ⟨e₁, hstep, hrun⟩ := Option.bind_eq_some_iff.mp hrun
    obtain ⟨hs, hc⟩ := stuck_step (hops op (List.mem_cons_self ..)) hstep ⟨h1, ⟨_, _, _, _, h2⟩, h3, h4⟩
    exact ih e₁ hs.waiting (hc.trans h2) hs.channel hs.compressing e' (fun o ho => hops o (List.mem_cons_of_mem _ ho)) hrun

/-- Without requests, the compression thread works while the ingestion thread waits. -/
private structure Working (e : Engine α) : Prop where
  ingested : ∀ m ∈ e.ingested, token m = none
  channel : ∀ m ∈ e.u.channel, token m = none
  alive : e.compressionAlive = true
  waiting : e.waiting = true → e.compressing = none → e.u.channel ≠ []

private theorem working_step {env : Env α} (hs : Sorts env) {e e' : Engine α} {op : Model.Storage.Op α} (hio : Op.ioOk op)
    (hreq : Op.isRequest op = false) (hi : Inv env e) (h : e.step env op = some e') (hw : Working e) : Working e' := by
  obtain ⟨h1, h2, h3, h4⟩ := hw
  cases op with
  | insert table rows batchId size =>
    simp only [Engine.step] at h
    split at h <;> cases h
    refine ⟨fun m hm => ?_, h2, h3, h4⟩
    rw [List.mem_append, List.mem_singleton] at hm
    rcases hm with hm | rfl
    · exact h1 m hm
    · rfl
  | flush => cases hreq
  | stop => cases hreq
  | touchMemory i => cases h; exact ⟨h1, h2, h3, h4⟩
  | touchDisk i => cases h; exact ⟨h1, h2, h3, h4⟩
  | adjustIngested change => cases h; exact ⟨h1, h2, h3, h4⟩
  | ingestionTake =>
    simp only [Engine.step] at h
    split at h
    · split at h
      · cases h
      · next hq =>
        cases h
        exact ⟨fun m hm => h1 m (by rw [hq]; exact List.mem_cons_of_mem _ hm), h2, h3, h4⟩
      all_goals
        next hq =>
        have := h1 _ (by rw [hq]; exact List.mem_cons_self ..)
        cases this
    · cases h
  | ingestionRow io =>
    simp only [Engine.step] at h
    split at h
    · next hc =>
      have hnw : e.waiting = false := by simpa using (Bool.and_eq_true_iff.mp hc).2
      split at h
      · split at h
        · next hu =>
          cases h
          refine ⟨h1, fun m hm => ?_, h3, fun hw => ?_⟩
          · rcases insertDataPoint_channel hu with h5 | ⟨b, _, h5⟩
            · dsimp only at hm; rw [h5] at hm; exact h2 m hm
            · dsimp only at hm
              rw [h5, List.mem_append, List.mem_singleton] at hm
              rcases hm with hm | rfl
              · exact h2 m hm
              · rfl
          · dsimp only at hw; rw [hnw] at hw; cases hw
        · next hu =>
          cases h
          refine ⟨h1, h2, h3, fun _ _ hc => ?_⟩
          dsimp only at hc
          have hsp : ∀ (io : Bool) (u : Uncompressed α), spill env io u ≠ .wait := by
            intro io u h
            unfold spill at h
            split at h
            · cases h
            · split at h
              · cases h
              · split at h <;> cases h
          have hres : ∀ t, reserve env io e.u t ≠ .wait := by
            intro t h
            unfold reserve at h
            simp only [hc, List.isEmpty_nil, if_true] at h
            split at h
            · cases h
            · split at h
              · cases h
              · exact hsp _ _ h
          unfold insertDataPoint at hu
          dsimp only at hu
          split at hu
          · cases hu
          · split at hu
            · split at hu
              · split at hu <;> cases hu
              · cases hu
            · exact hres _ hu
        · next hu =>
          cases h
          refine ⟨h1, fun m hm => ?_, h3, fun hw => ?_⟩
          · dsimp only at hm
            rw [insertDataPoint_failed_channel hu] at hm
            exact h2 m hm
          · dsimp only at hw; rw [hnw] at hw; cases hw
        · cases h
      · cases h
    · cases h
  | ingestionDone =>
    simp only [Engine.step] at h
    split at h
    · split at h
      · cases h
        refine ⟨h1, fun m hm => ?_, h3, fun hw hc => ?_⟩
        · simp only [finishBatch, finishUnusedBuffers, List.mem_append, List.mem_map] at hm
          rcases hm with (hm | ⟨x, _, rfl⟩) | ⟨x, _, rfl⟩
          · exact h2 m hm
          · rfl
          · rfl
        · simp only [finishBatch, finishUnusedBuffers]
          have := h4 hw hc
          simp [this]
      · cases h
    · cases h
  | compressionTake =>
    simp only [Engine.step] at h
    split at h
    · split at h
      · cases h
      · next hq =>
        cases h
        exact ⟨h1, fun m hm => h2 m (by rw [hq]; exact List.mem_cons_of_mem _ hm), h3, fun _ hc => by cases hc⟩
      all_goals
        next hq =>
        have := h2 _ (by rw [hq]; exact List.mem_cons_self ..)
        cases this
    · cases h
  | compressionDone =>
    simp only [Engine.step, h3, if_true] at h
    split at h
    · cases h
    · next b hb =>
      have hu := hi.u
      rw [hb] at hu
      obtain ⟨chunk, files, memory, h5, _⟩ := compressFinishedBuffer_spec hs hu (fun x hx => hi.compressing x (by rw [hb, hx]))
      rw [h5] at h
      cases h
      exact ⟨h1, h2, rfl, fun hw => by cases hw⟩
  | write =>
    simp only [Engine.step] at h
    split at h
    · split at h
      · cases h
      all_goals
        obtain ⟨c, _, rfl⟩ := Option.map_eq_some_iff.mp h
        exact ⟨h1, h2, h3, h4⟩
    · cases h
  | adjustUncompressed io change =>
    simp only [Engine.step] at h
    split at h
    · next hu =>
      cases h
      exact ⟨h1, by dsimp only; rw [adjustUncompressed_channel (Or.inl hu)]; exact h2, h3, fun hw => by cases hw⟩
    · next hu =>
      cases h
      exact ⟨h1, by dsimp only; rw [adjustUncompressed_channel (Or.inr hu)]; exact h2, h3, fun hw => by cases hw⟩
    · cases h
  | adjustCompressed change =>
    obtain ⟨c, _, rfl⟩ := Option.map_eq_some_iff.mp h
    exact ⟨h1, h2, h3, h4⟩

/-- C25 for uncompressed memory. Without flush and stop requests, whenever the ingestion thread waits, at most two steps of the compression
thread resume it: it takes the next buffer, if it does not have one, and it compresses it. Missing: histories with requests
(`C25_uncompressed_forgotten`) and the conditions of C22. -/
theorem C25_uncompressed_resumed_partial {env : Env α} (hs : Sorts env) (hcap : 2 ≤ env.capacity) {i u c : Nat}
    {ops : List (Model.Storage.Op α)} (hio : ∀ op ∈ ops, Op.ioOk op) (hreq : ∀ op ∈ ops, Op.isRequest op = false) {e : Engine α}
    (hrun : (Engine.new i u c).run env ops = some e) (hg : Good env e.received) (hwait : e.waiting = true) :
    ∃ e₁ e₂, (e₁ = e ∨ e.step env .compressionTake = some e₁) ∧ e₁.step env .compressionDone = some e₂ ∧ e₂.waiting = false := by
  have hboth : Inv env e ∧ Working e := by
    have hnew : Working (Engine.new (α := α) i u c) := by
      refine ⟨fun m hm => (by cases hm), fun m hm => (by cases hm), rfl, fun hw => by cases hw⟩
    have hinv := inv_new (env := env) i u c
    revert hrun hinv hnew
    generalize (Engine.new i u c : Engine α) = e₀
    intro hrun hnew hinv
    induction ops generalizing e₀ with
    | nil => cases hrun; exact ⟨hinv, hnew⟩
    | cons op ops ih =>
      simp only [Engine.run] at hrun
      obtain ⟨e₁, h1, h2⟩ := Option.bind_eq_some_iff.mp hrun
      have hg1 := run_good h2 hg
      have hio1 := hio op (List.mem_cons_self ..)
      exact ih (fun o ho => hio o (List.mem_cons_of_mem _ ho)) (fun o ho => hreq o (List.mem_cons_of_mem _ ho)) e₁ h2
        (working_step hs hio1 (hreq op (List.mem_cons_self ..)) hinv h1 hnew) (inv_step hs hcap hio1 hinv h1 hg1)
  obtain ⟨hi, hw⟩ := hboth
  have hdone : ∀ e₁ : Engine α, Inv env e₁ → Working e₁ → e₁.compressing ≠ none →
      ∃ e₂, e₁.step env .compressionDone = some e₂ ∧ e₂.waiting = false := by
    intro e₁ hi hw hb
    obtain ⟨b, hb⟩ := Option.ne_none_iff_exists'.mp hb
    have hu := hi.u
    rw [hb] at hu
    obtain ⟨chunk, files, memory, h5, _⟩ := compressFinishedBuffer_spec hs hu (fun x hx => hi.compressing x (by rw [hb, hx]))
    simp only [Engine.step, hw.alive, if_true, hb, h5]
    exact ⟨_, rfl, rfl⟩
  cases hc : e.compressing with
  | some b =>
    obtain ⟨e₂, h1, h2⟩ := hdone e hi hw (by simp [hc])
    exact ⟨e, e₂, Or.inl rfl, h1, h2⟩
  | none =>
    have hch := hw.waiting hwait hc
    have htake : ∃ b rest, e.u.channel = .data b :: rest := by
      cases hq : e.u.channel with
      | nil => exact absurd hq hch
      | cons m rest =>
        have := hw.channel m (by simp [hq])
        cases m with
        | data b => exact ⟨b, rest, rfl⟩
        | flush n => cases this
        | stop n => cases this
    obtain ⟨b, rest, hq⟩ := htake
    have hstep : e.step env .compressionTake = some { e with u := { e.u with channel := rest }, compressing := some b } := by
      simp only [Engine.step, hw.alive, hc, Option.isNone_none, Bool.and_self, if_true, hq]
    have hi1 := inv_step hs hcap (op := .compressionTake) trivial hi hstep hg
    have hw1 := working_step hs (op := .compressionTake) trivial rfl hi hstep hw
    obtain ⟨e₂, h1, h2⟩ := hdone _ hi1 hw1 (by simp)
    exact ⟨_, e₂, Or.inr hstep, h1, h2⟩

/-- A full buffer is in the channel when the ingestion thread has to wait for memory. -/
def slowCompression : List (Model.Storage.Op Nat) :=
  [.insert "t" [rowA 1 7, rowA 2 7, rowB 1 8] none 2, .ingestionTake, .ingestionRow true, .ingestionRow true, .ingestionRow true]

example : ∃ e : Engine Nat, (Engine.new 6 24 20).run (smallEnv 2) slowCompression = some e ∧ Good (smallEnv 2) e.received ∧
    e.waiting = true ∧ (∀ op ∈ slowCompression, Op.ioOk op ∧ Op.isRequest op = false) := by
  refine ⟨((Engine.new 6 24 20).run (smallEnv 2) slowCompression).get (by decide +kernel), (Option.some_get _).symm, by decide +kernel,
    by decide +kernel, by simp [slowCompression, Op.ioOk, Op.isRequest]⟩

end ModelarDB.Props
