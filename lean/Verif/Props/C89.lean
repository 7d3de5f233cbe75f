import Verif.Lemmas.CompressedMemory
import Mathlib.Algebra.Order.BigOperators.Group.List
/-
**C89** The memory for compressed data can be changed while data is ingested.
-/
namespace ModelarDB.Props
open Model.CompressedMemory Spec.CompressedMemory ModelarDB.CompressedMemory

/-! ### Batches and memory -/

/-- **C89**, nothing is lost and nothing is written twice: in every interleaving of the writer thread and requests, each batch that was received has been written, could
not be written, is in a buffer or is being written, and is at one of these places. If each buffer can be saved none is lost. -/
theorem C89_conserved {memory : Nat} {steps : List Step} {s : State} (h : Reached memory steps s) :
    (received steps).Perm (s.written ++ s.lost ++ inBuffers s ++ (inSaver (writerSaver s.writer) ++ inSaver s.updater)) ∧
      (NoFailures steps → s.lost = []) := ⟨(inv_reached h).conserved, (inv_reached h).kept⟩

/-- **C89**, the new memory is used: in every interleaving, when nothing is done the memory that remains is what is configured without what is in the buffers, and it
is not negative, so the buffers have at most what is configured. Missing: batches with several fields, more is given back for them than was reserved
(`C24_compressed_drifts`), and buffers that cannot be saved, their memory is not given back. -/
theorem C89_within_partial {memory : Nat} {steps : List Step} {s : State} (h : Reached memory steps s) (hf : NoFailures steps) (ho : OneField steps) (hq : Quiet s) :
    s.remaining = configured memory steps - bytesInBuffers s ∧ 0 ≤ s.remaining := by
  have hi := inv_reached h
  have hb := hi.balanced hf
  have hrec : ∀ b ∈ received steps, excess b = 0 := by
    intro b hb
    unfold received at hb
    obtain ⟨x, hx, hxb⟩ := List.mem_filterMap.mp hb
    refine excess_zero (ho b ?_)
    cases x <;> cases hxb
    exact hx
  have hz : ((received steps).map excess).sum = 0 := by
    rw [List.map_congr_left hrec]
    simp
  have hmem : ∀ e ∈ s.buffers, ∀ b ∈ e.2.batches, b ∈ received steps := by
    intro e he b hb
    refine hi.conserved.mem_iff.mpr ?_
    refine List.mem_append_left _ (List.mem_append_right _ ?_)
    exact List.mem_flatMap.mpr ⟨e, he, hb⟩
  have hbytes : bytes s = (bytesInBuffers s : Int) := by
    have key : ∀ l : List (String × Buffer), (∀ e ∈ l, e ∈ s.buffers) →
        (l.map fun e => (e.2.size : Int)).sum = ((((l.flatMap fun e => e.2.batches).map Batch.size).sum : Nat) : Int) := by
      intro l
      induction l with
      | nil => intro _; rfl
      | cons e l ih =>
        intro hl
        rw [List.map_cons, List.sum_cons, ih fun e he => hl e (List.mem_cons_of_mem _ he), hi.sized e (hl e List.mem_cons_self)]
        rw [List.flatMap_cons, List.map_append, List.sum_append]
        push_cast
        congr 1
        have : ∀ b ∈ e.2.batches, (b.size : Int) + excess b = (b.size : Int) := by
          intro b hb
          rw [hrec b (hmem e (hl e List.mem_cons_self) b hb)]
          omega
        rw [List.map_congr_left this]
        induction e.2.batches with
        | nil => rfl
        | cons b bs ihb => simp [ihb]
    exact key s.buffers fun _ h => h
  rw [hz, hbytes, hq.1, hq.2] at hb
  simp only [writerSaver, writingBytes, unreserved] at hb
  exact ⟨by omega, hi.nonneg hf hq.2⟩

/-! ### Memory that is increased -/

/-- The buffer of a batch has it. -/
def HasOwn (s : State) (b : Batch) : Prop := ∃ buffer, s.buffers.lookup b.table = some buffer ∧ b.size ≤ buffer.size

/-- What holds if the memory is only increased. -/
structure Growing (s : State) : Prop where
  running : s.aborted = false
  remaining : 0 ≤ s.remaining
  updater : s.updater = none ∨ s.updater = some .checking
  pushing : ∀ b, s.writer = .pushing b → HasOwn s b
  reserving : ∀ b, s.writer = .reserving b → HasOwn s b ∨ (b.size : Int) ≤ s.remaining
  checking : ∀ b, s.writer = .saving b .checking → HasOwn s b ∨ (b.size : Int) ≤ s.remaining
  taking : ∀ b, s.writer = .saving b .taking → HasOwn s b
  removing : ∀ b t, s.writer = .saving b (.removing t) → HasOwn s b
  writing : ∀ b t buffer, s.writer = .saving b (.writing t buffer) → HasOwn s b ∨ (b.size : Int) ≤ s.remaining + buffer.size
  flushing : s.writer = .flushing .taking → s.queue ≠ []

theorem hasOwn_put (s : State) (b : Batch) : HasOwn (s.put b) b := by
  have hsize : ∀ buffer : Buffer, b.size ≤ (buffer.append b).size := fun buffer => by
    have := sum_le_added b.sizes 0
    simp only [Buffer.append, Batch.size]
    omega
  unfold State.put
  split
  · next buffer hb => exact ⟨_, lookup_append hb, hsize buffer⟩
  · next hb =>
    refine ⟨(Buffer.mk 0 []).append b, ?_, hsize _⟩
    dsimp only
    rw [List.lookup_append, show s.buffers.lookup b.table = none from hb]
    simp

theorem lookup_without {buffers : List (String × Buffer)} {t t' : String} (h : t' ≠ t) : (without buffers t).lookup t' = buffers.lookup t' := by
  induction buffers with
  | nil => rfl
  | cons e es ih =>
    unfold without at ih ⊢
    by_cases he : e.1 = t
    · rw [List.filter_cons_of_neg (by simp [he]), ih, List.lookup_cons, show (t' == e.1) = false by rw [he]; simpa using h]
    · rw [List.filter_cons_of_pos (by simpa using he), List.lookup_cons, List.lookup_cons, ih]

theorem mem_names_of_hasOwn {s : State} {b : Batch} (h : HasOwn s b) : b.table ∈ names s := by
  obtain ⟨buffer, h, _⟩ := h
  exact List.mem_map_of_mem (f := Prod.fst) (mem_of_lookup h)

theorem growing_write {memory : Nat} {steps : List Step} {s s' : State} {saved : Saved} (hi : Inv memory steps s) (hg : Growing s)
    (h : s.write saved = some s') : Growing s' := by
  have hnone : taken s.updater = [] := by rcases hg.updater with h | h <;> rw [h] <;> rfl
  have hn := hi.named
  rw [hnone] at hn
  have h0 := hg.remaining
  unfold State.write at h
  split at h
  · cases h
  · next b hw =>
    cases h
    exact ⟨hg.1, hg.2, hg.3, nofun, (fun b' h => by cases h; exact Or.inl (hg.pushing b hw)), nofun, nofun,
      nofun, nofun, nofun⟩
  · next b hw =>
    split at h
    · next hle =>
      cases h
      refine ⟨hg.1, ?_, hg.3, nofun, nofun, nofun, nofun,
        nofun, nofun, nofun⟩
      show 0 ≤ s.remaining - b.size
      omega
    · cases h
      exact ⟨hg.1, hg.2, hg.3, nofun, nofun, (fun b' h => by cases h; exact hg.reserving b hw), nofun,
        nofun, nofun, nofun⟩
  · next b v hw =>
    rw [hw] at hn
    cases v with
    | checking =>
      simp only [State.save] at h
      split at h
      · next hs =>
        split at hs
        · next hm =>
          cases hs
          cases h
          have hm := of_decide_eq_true hm
          refine ⟨hg.1, hg.2, hg.3, nofun, nofun, nofun, fun b' h => ?_,
            nofun, nofun, nofun⟩
          cases h
          rcases hg.checking b hw with h | h
          · exact h
          · omega
        · cases hs
      · next hs =>
        split at hs
        · cases hs
        · next hm =>
          cases hs
          cases h
          refine ⟨hg.1, hg.2, hg.3, nofun, fun b' h => ?_, nofun, nofun,
            nofun, nofun, nofun⟩
          cases h
          exact hg.checking b hw
      · next hs => split at hs <;> cases hs
      · next hs => split at hs <;> cases hs
    | taking =>
      have hq : b.table ∈ s.queue := by
        have := hn.1.mem_iff.mp (mem_names_of_hasOwn (hg.taking b hw))
        simpa [writerTaken, taken] using this
      cases hqs : s.queue with
      | nil => rw [hqs] at hq; simp at hq
      | cons t q =>
        simp only [State.save, hqs] at h
        cases h
        refine ⟨hg.1, hg.2, hg.3, nofun, nofun, nofun, nofun,
          fun b' t' h => ?_, nofun, nofun⟩
        cases h
        exact hg.taking b hw
    | removing t =>
      obtain ⟨buffer, hb⟩ := lookup_isSome (hn.1.mem_iff.mpr (show t ∈ s.queue ++ (writerTaken (.saving b (.removing t)) ++ []) by simp [writerTaken, taken]))
      have hb' : s.buffer t = some buffer := hb
      simp only [State.save, hb'] at h
      cases h
      refine ⟨hg.1, hg.2, hg.3, nofun, nofun, nofun, nofun,
        nofun, fun b' t' buffer' h => ?_, nofun⟩
      cases h
      obtain ⟨own, ho, hsz⟩ := hg.removing b t hw
      by_cases ht : b.table = t
      · right
        rw [ht, hb] at ho
        cases ho
        show (b.size : Int) ≤ s.remaining + buffer.size
        omega
      · exact Or.inl ⟨own, (lookup_without ht).trans ho, hsz⟩
    | writing t buffer =>
      cases saved with
      | done =>
        simp only [State.save] at h
        cases h
        refine ⟨hg.1, ?_, hg.3, nofun, nofun, fun b' h => ?_, nofun,
          nofun, nofun, nofun⟩
        · show 0 ≤ s.remaining + buffer.size
          omega
        · cases h
          exact hg.writing b t buffer hw
      | notWritten =>
        simp only [State.save] at h
        cases h
        exact ⟨hg.1, hg.2, hg.3, nofun, nofun, nofun, nofun,
          nofun, nofun, nofun⟩
      | failedLater =>
        simp only [State.save] at h
        cases h
        exact ⟨hg.1, hg.2, hg.3, nofun, nofun, nofun, nofun,
          nofun, nofun, nofun⟩
  · next v hw =>
    rw [hw] at hn
    have rest : ∀ {s'' : State} {w : Writer}, s''.aborted = false → 0 ≤ s''.remaining → s''.updater = s.updater → s''.writer = w →
        (w = .waiting ∨ ∃ v', w = .flushing v' ∧ (v' = .taking → s''.queue ≠ [])) → Growing s'' := by
      intro s'' w h1 h2 h3 h4 h5
      have hno : ∀ b v', s''.writer ≠ .saving b v' := by
        intro b v' hc
        rcases h5 with h5 | ⟨v'', h5, _⟩ <;> rw [h4, h5] at hc <;> cases hc
      refine ⟨h1, h2, by rw [h3]; exact hg.3, fun b hc => ?_, fun b hc => ?_, fun b hc => absurd hc (hno _ _), fun b hc => absurd hc (hno _ _),
        fun b t hc => absurd hc (hno _ _), fun b t buffer hc => absurd hc (hno _ _), fun hc => ?_⟩
      · rcases h5 with h5 | ⟨v'', h5, _⟩ <;> rw [h4, h5] at hc <;> cases hc
      · rcases h5 with h5 | ⟨v'', h5, _⟩ <;> rw [h4, h5] at hc <;> cases hc
      · rcases h5 with h5 | ⟨v'', h5, h6⟩
        · rw [h4, h5] at hc; cases hc
        · rw [h4, h5] at hc; cases hc; exact h6 rfl
    cases v with
    | checking =>
      simp only [State.save] at h
      cases hq : s.queue with
      | nil =>
        rw [hq] at h
        cases h
        exact rest hg.1 hg.2 rfl rfl (Or.inl rfl)
      | cons t q =>
        rw [hq] at h
        cases h
        exact rest hg.1 hg.2 rfl rfl (Or.inr ⟨_, rfl, fun _ => by show s.queue ≠ []; rw [hq]; simp⟩)
    | taking =>
      cases hqs : s.queue with
      | nil => exact absurd hqs (hg.flushing hw)
      | cons t q =>
        simp only [State.save, hqs] at h
        cases h
        exact rest hg.1 hg.2 rfl rfl (Or.inr ⟨_, rfl, nofun⟩)
    | removing t =>
      obtain ⟨buffer, hb⟩ := lookup_isSome (hn.1.mem_iff.mpr (show t ∈ s.queue ++ (writerTaken (.flushing (.removing t)) ++ []) by simp [writerTaken, taken]))
      have hb' : s.buffer t = some buffer := hb
      simp only [State.save, hb'] at h
      cases h
      exact rest hg.1 hg.2 rfl rfl (Or.inr ⟨_, rfl, nofun⟩)
    | writing t buffer =>
      cases saved with
      | done =>
        simp only [State.save] at h
        cases h
        refine rest hg.1 ?_ rfl rfl (Or.inr ⟨_, rfl, nofun⟩)
        show 0 ≤ s.remaining + buffer.size
        omega
      | notWritten =>
        simp only [State.save] at h
        cases h
        exact rest hg.1 hg.2 rfl rfl (Or.inl rfl)
      | failedLater =>
        simp only [State.save] at h
        cases h
        exact rest hg.1 hg.2 rfl rfl (Or.inl rfl)
  · cases h

theorem growing_step {memory : Nat} {steps : List Step} {s s' : State} {x : Step} (hi : Inv memory steps s) (hg : Growing s) (hx : ∀ c, x = .change c → 0 ≤ c)
    (h : s.step x = some s') : Growing s' := by
  unfold State.step at h
  rw [hg.running] at h
  simp only [Bool.false_eq_true, if_false] at h
  cases x with
  | insert b =>
    dsimp only at h
    split at h
    · cases h
      have ho := hasOwn_put s b
      have hf : (s.put b).aborted = s.aborted ∧ (s.put b).remaining = s.remaining ∧ (s.put b).updater = s.updater ∧
          ((s.put b).writer = .reserving b ∨ (s.put b).writer = .pushing b) := by
        unfold State.put
        split
        · exact ⟨rfl, rfl, rfl, Or.inl rfl⟩
        · exact ⟨rfl, rfl, rfl, Or.inr rfl⟩
      obtain ⟨f1, f2, f3, f4⟩ := hf
      have hno : ∀ b' v', (s.put b).writer ≠ .saving b' v' := by
        intro b' v' hc
        rcases f4 with f4 | f4 <;> rw [f4] at hc <;> cases hc
      refine ⟨f1.trans hg.1, by rw [f2]; exact hg.2, by rw [f3]; exact hg.3, fun b' hc => ?_, fun b' hc => ?_, fun b hc => absurd hc (hno _ _),
        fun b hc => absurd hc (hno _ _), fun b t hc => absurd hc (hno _ _), fun b t buffer hc => absurd hc (hno _ _), fun hc => ?_⟩
      · rcases f4 with f4 | f4 <;> rw [f4] at hc <;> cases hc
        exact ho
      · rcases f4 with f4 | f4 <;> rw [f4] at hc <;> cases hc
        exact Or.inl ho
      · rcases f4 with f4 | f4 <;> rw [f4] at hc <;> cases hc
    · cases h
  | flush =>
    dsimp only at h
    split at h
    · cases h
      exact ⟨rfl, hg.2, hg.3, nofun, nofun, nofun, nofun, nofun, nofun, nofun⟩
    · cases h
  | write saved => exact growing_write hi hg h
  | change c =>
    dsimp only at h
    split at h
    · cases h
      have hc := hx c rfl
      have h0 := hg.remaining
      refine ⟨rfl, ?_, Or.inr rfl, hg.pushing, fun b hw => ?_, fun b hw => ?_, hg.taking, hg.removing, fun b t buffer hw => ?_, hg.flushing⟩
      · show 0 ≤ s.remaining + c
        omega
      · refine (hg.reserving b hw).imp id fun h => ?_
        show (b.size : Int) ≤ s.remaining + c
        omega
      · refine (hg.checking b hw).imp id fun h => ?_
        show (b.size : Int) ≤ s.remaining + c
        omega
      · refine (hg.writing b t buffer hw).imp id fun h => ?_
        show (b.size : Int) ≤ s.remaining + c + buffer.size
        omega
    · cases h
  | update saved =>
    have h0 := hg.remaining
    dsimp only at h
    unfold State.update at h
    rcases hg.updater with hu | hu
    · rw [hu] at h
      cases h
    · rw [hu] at h
      simp only [State.save, show ¬s.remaining < 0 by omega, decide_false, Bool.false_eq_true, if_false] at h
      cases h
      exact ⟨hg.1, hg.2, Or.inl rfl, hg.pushing, hg.reserving, hg.checking, hg.taking, hg.removing, hg.writing, hg.flushing⟩

/-- **C89**, the server keeps running if the memory is only increased: in every interleaving, whatever is received and whether or not buffers can be saved. Missing:
requests that reduce the memory, the server can abort then (`C89_reduction_aborts`); see `C89_separate_partial`. -/
theorem C89_increased_partial {memory : Nat} {steps : List Step} {s : State} (h : Reached memory steps s) (hg : Grows steps) : s.aborted = false := by
  have : Grows steps → Growing s := by
    refine reached_induction (P := fun steps s => Grows steps → Growing s) (fun _ => ?_) (fun steps x s s' hr ih hs hg => ?_) h
    · refine ⟨rfl, ?_, Or.inl rfl, nofun, nofun, nofun, nofun,
        nofun, nofun, nofun⟩
      show (0 : Int) ≤ (memory : Int)
      omega
    · exact growing_step (inv_reached hr) (ih fun c hc => hg c (by simp [hc])) (fun c hc => hg c (by simp [hc])) hs
  exact (this hg).running

/-! ### Requests that do not overlap with the writer thread -/

/-- What holds if requests and the writer thread do not overlap. -/
structure Apart (s : State) : Prop where
  running : s.aborted = false
  apart : s.writer = .waiting ∨ s.updater = none
  writer : ∀ v, writerSaver s.writer = some v → v = .taking → s.queue ≠ []
  updater : s.updater = some .taking → s.queue ≠ []

/-- If a thread that saves buffers is alone and needs memory there is a buffer in the queue. -/
theorem queue_ne_nil {memory : Nat} {steps : List Step} {s : State} (hi : Inv memory steps s) (hf : NoFailures steps) (hc : 0 ≤ configured memory steps)
    (h1 : writerTaken s.writer = [] ∧ writingBytes (writerSaver s.writer) = 0) (h2 : taken s.updater = [] ∧ writingBytes s.updater = 0)
    (hr : s.remaining < unreserved s.writer) : s.queue ≠ [] := by
  intro hq
  have hn := hi.named.1
  rw [h1.1, h2.1, hq] at hn
  have hb : s.buffers = [] := by
    have := hn.length_eq
    simpa [names] using this
  have := hi.balanced hf
  rw [h1.2, h2.2, show bytes s = 0 by simp [bytes, hb]] at this
  have he : 0 ≤ ((received steps).map excess).sum := by
    refine List.sum_nonneg fun x hx => ?_
    obtain ⟨b, _, rfl⟩ := List.mem_map.mp hx
    exact excess_nonneg b
  omega

theorem apart_step {memory : Nat} {steps : List Step} {s s' : State} {x : Step} (hi : Inv memory steps s) (hf : NoFailures (steps ++ [x]))
    (hc : 0 ≤ configured memory steps) (ha : Apart s) (hins : ∀ b, x = .insert b → s.updater = none) (hchg : ∀ c, x = .change c → s.writer = .waiting)
    (h : s.step x = some s') : Apart s' := by
  have hf' := noFailures_left hf
  have hrun := ha.running
  unfold State.step at h
  rw [if_neg (by simp [hrun])] at h
  cases x with
  | insert b =>
    dsimp only at h
    split at h
    · cases h
      have hu := hins b rfl
      have hfr : (s.put b).aborted = s.aborted ∧ (s.put b).updater = s.updater ∧ writerSaver (s.put b).writer = none := by
        unfold State.put
        split <;> exact ⟨rfl, rfl, rfl⟩
      exact ⟨hfr.1.trans hrun, Or.inr (hfr.2.1.trans hu), (fun v hv => by rw [hfr.2.2] at hv; cases hv), fun hv => by rw [hfr.2.1, hu] at hv; cases hv⟩
    · cases h
  | flush =>
    dsimp only at h
    split at h
    · next hw =>
      cases h
      exact ⟨hrun, Or.inr hw.2, (fun v hv ht => by cases hv; cases ht), fun hv => by rw [show s.updater = some .taking from hv] at hw; cases hw.2⟩
    · cases h
  | change c =>
    dsimp only at h
    split at h
    · cases h
      have hw := hchg c rfl
      refine ⟨hrun, Or.inl hw, fun v hv => ?_, nofun⟩
      rw [show (writerSaver s.writer) = none by rw [hw]; rfl] at hv
      cases hv
    · cases h
  | write saved =>
    obtain rfl : saved = .done := hf saved (by simp)
    dsimp only at h
    by_cases hwait : s.writer = .waiting
    · unfold State.write at h
      rw [hwait] at h
      cases h
    have hu := ha.apart.resolve_left hwait
    have fine : ∀ {s'' : State}, s''.aborted = s.aborted → s''.updater = s.updater → (∀ v, writerSaver s''.writer = some v → v = .taking → s''.queue ≠ []) → Apart s'' :=
      fun h1 h2 h3 => ⟨h1.trans hrun, Or.inr (h2.trans hu), h3, fun h => by rw [h2, hu] at h; cases h⟩
    have saving : ∀ {v : Saver} {more : Bool}, writerSaver s.writer = some v → (v = .checking → more = true → s.queue ≠ []) →
        NextIs (s.save more .done v) (fun v' s' => v' = .taking → s'.queue ≠ []) (fun _ => True) (fun _ => True) False := by
      intro v more hv hmore
      have hnamed := hi.named
      have htaken : writerTaken s.writer = taken (some v) := by
        cases hw : s.writer <;> rw [hw] at hv <;> cases hv <;> rfl
      rw [htaken] at hnamed
      have k := save_named (more := more) (saved := .done) hnamed
      cases v with
      | checking =>
        unfold State.save
        dsimp only
        split
        · next hm => exact fun _ => hmore rfl hm
        · trivial
      | taking =>
        have hq := ha.writer _ hv rfl
        unfold State.save
        dsimp only
        split
        · next h => exact absurd h hq
        · exact fun h => by cases h
      | removing t =>
        cases hs : s.save more .done (.removing t) with
        | saver v' s' =>
          unfold State.save at hs
          dsimp only at hs
          split at hs <;> cases hs
          exact fun h => by cases h
        | finished s' => trivial
        | failed s' => trivial
        | aborted =>
          rw [hs] at k
          cases k.1
      | writing t b => exact fun h => by cases h
    unfold State.write at h
    split at h
    · exact absurd (by assumption) hwait
    · cases h
      exact fine rfl rfl (fun v hv => by cases hv)
    · split at h <;> cases h
      · exact fine rfl rfl (fun v hv => by cases hv)
      · exact fine rfl rfl (fun v hv ht => by cases hv; cases ht)
    · next b v hw =>
      have k := saving (v := v) (more := decide (s.remaining < b.size)) (by rw [hw]; rfl) (by
        rintro rfl hm
        exact queue_ne_nil hi hf' hc (by rw [hw]; exact ⟨rfl, rfl⟩) (by rw [hu]; exact ⟨rfl, rfl⟩) (by rw [hw]; exact of_decide_eq_true hm))
      have k4 := save_frame (s := s) (more := decide (s.remaining < b.size)) (saved := .done) (v := v)
      cases hs : s.save (decide (s.remaining < b.size)) .done v <;> rw [hs] at h k k4 <;> cases h
      · exact fine k4.2.2 k4.2.1 (fun v hv ht => by cases hv; exact k ht)
      · exact fine k4.2.2 k4.2.1 (fun v hv => by cases hv)
      · exact fine k4.2.2 k4.2.1 (fun v hv => by cases hv)
      · exact k.elim
    · next v hw =>
      have k := saving (v := v) (more := !s.queue.isEmpty) (by rw [hw]; rfl) (by
        rintro rfl hm
        simpa using hm)
      have k4 := save_frame (s := s) (more := !s.queue.isEmpty) (saved := .done) (v := v)
      cases hs : s.save (!s.queue.isEmpty) .done v <;> rw [hs] at h k k4 <;> cases h
      · exact fine k4.2.2 k4.2.1 (fun v hv ht => by cases hv; exact k ht)
      · exact fine k4.2.2 k4.2.1 (fun v hv => by cases hv)
      · exact fine k4.2.2 k4.2.1 (fun v hv => by cases hv)
      · exact k.elim
    · cases h
  | update saved =>
    obtain rfl : saved = .done := hf saved (by simp)
    dsimp only at h
    unfold State.update at h
    split at h
    · cases h
    · next v hu =>
      have hw : s.writer = .waiting := ha.apart.resolve_right (by rw [hu]; simp)
      have k4 := save_frame (s := s) (more := decide (s.remaining < 0)) (saved := .done) (v := v)
      have fine : ∀ {s'' : State}, s''.aborted = s.aborted → s''.writer = s.writer → (s''.updater = some .taking → s''.queue ≠ []) → Apart s'' :=
        fun h1 h2 h3 => ⟨h1.trans hrun, Or.inl (h2.trans hw), (fun v hv => by rw [h2, hw] at hv; cases hv), h3⟩
      have hnamed := hi.named
      rw [hw, hu] at hnamed
      have hnamed' : Named s (taken (some v) ++ []) := by rw [List.append_nil]; exact hnamed
      have k := save_named (more := decide (s.remaining < 0)) (saved := .done) hnamed'
      cases hs : s.save (decide (s.remaining < 0)) .done v <;> rw [hs] at h k k4 <;> cases h
      · next v' s₁ =>
        refine fine k4.2.2 k4.1 fun hv => ?_
        cases hv
        cases v with
        | checking =>
          unfold State.save at hs
          dsimp only at hs
          split at hs
          · next hm =>
            cases hs
            have := queue_ne_nil hi hf' hc (by rw [hw]; exact ⟨rfl, rfl⟩) (by rw [hu]; exact ⟨rfl, rfl⟩) (by rw [hw]; exact of_decide_eq_true hm)
            exact this
          · cases hs
        | writing t b => cases hs
        | _ =>
          unfold State.save at hs
          dsimp only at hs
          split at hs <;> cases hs
      · exact fine k4.2.2 k4.1 (nofun)
      · exact fine k4.2.2 k4.1 (nofun)
      · obtain ⟨rfl, hq⟩ := k
        exact absurd hq (ha.updater hu)

/-- **C89**, the server keeps running if requests and the writer thread do not overlap, each buffer can be saved and the memory that is configured is not negative.
Missing: requests that start while the writer thread processes a batch (`C89_reduction_aborts`, `C89_writer_aborts`) and buffers that cannot be saved
(`C89_failure_aborts`). -/
theorem C89_separate_partial {memory : Nat} {steps : List Step} {s : State} (h : Reached memory steps s) (hs : Separate memory steps) (hf : NoFailures steps)
    (hc : Configurable memory steps) : s.aborted = false := by
  have : Separate memory steps → NoFailures steps → Configurable memory steps → Apart s := by
    refine reached_induction (P := fun steps s => Separate memory steps → NoFailures steps → Configurable memory steps → Apart s) (fun _ _ _ => ?_)
      (fun steps x s s' hr ih hstep hs hf hc => ?_) h
    · exact ⟨rfl, Or.inl rfl, (fun v hv => by cases hv), nofun⟩
    · have ha := ih (fun before y after s₁ he => hs before y (after ++ [x]) s₁ (by simp [he])) (noFailures_left hf)
        (fun before after he => hc before (after ++ [x]) (by simp [he]))
      have hx := hs steps x [] s rfl hr
      exact apart_step (inv_reached hr) hf (hc steps [x] rfl) ha hx.1 hx.2 hstep
  exact (this hs hf hc).running

/-! ### Examples -/

/-- Two batches of one table, a request that increases the memory while the buffer is written, and one that reduces it while nothing else is done. -/
def memorySteps : List Step :=
  [.insert ⟨0, "a", [60]⟩, .write .done, .write .done, .insert ⟨1, "a", [60]⟩, .write .done, .write .done, .write .done, .write .done, .change 20, .update .done,
    .write .done, .write .done, .write .done, .insert ⟨2, "b", [50]⟩, .write .done, .write .done]

example : Grows memorySteps ∧ NoFailures memorySteps ∧ OneField memorySteps ∧
    ∃ s, Reached 100 memorySteps s ∧ Quiet s ∧ s.remaining = 70 ∧ s.written.map Batch.id = [0, 1] ∧ (inBuffers s).map Batch.id = [2] := by
  refine ⟨?_, ?_, ?_, ((State.start 100).run memorySteps).get (by decide +kernel), by unfold Reached; decide +kernel, by unfold Quiet; decide +kernel, by decide +kernel,
    by decide +kernel, by decide +kernel⟩
  · simp [Grows, memorySteps]
  · simp [NoFailures, memorySteps]
  · simp [OneField, memorySteps]

/-- A step that does not overlap. -/
def checkStep (s : State) : Step → Bool
  | .insert _ => s.updater = none
  | .change _ => s.writer = .waiting
  | _ => true

/-- `Separate` for a given sequence of steps. -/
def checkSeparate (s : State) : List Step → Bool
  | [] => true
  | x :: steps => checkStep s x && (s.step x).all fun s => checkSeparate s steps

theorem separate_of_check {memory : Nat} {steps : List Step} (h : checkSeparate (State.start memory) steps = true) : Separate memory steps := by
  have key : ∀ (before : List Step) (s₀ : State) (x : Step) (after : List Step) (s : State), checkSeparate s₀ (before ++ x :: after) = true → s₀.run before = some s →
      (∀ b, x = .insert b → s.updater = none) ∧ (∀ c, x = .change c → s.writer = .waiting) := by
    intro before
    induction before with
    | nil =>
      intro s₀ x after s h hr
      cases hr
      rw [List.nil_append, checkSeparate, Bool.and_eq_true] at h
      exact ⟨fun b hb => by subst hb; simpa [checkStep] using h.1, fun c hc => by subst hc; simpa [checkStep] using h.1⟩
    | cons y before ih =>
      intro s₀ x after s h hr
      rw [List.cons_append, checkSeparate, Bool.and_eq_true] at h
      simp only [State.run] at hr
      obtain ⟨s₁, h1, h2⟩ := Option.bind_eq_some_iff.mp hr
      rw [h1] at h
      exact ih s₁ x after s (by simpa using h.2) h2
  intro before x after s he hr
  exact key before _ x after s (he ▸ h) hr

/-- A table has two batches when the memory is reduced, so the buffer is saved, and a flush follows. -/
def apartSteps : List Step :=
  [.insert ⟨0, "a", [60]⟩, .write .done, .write .done, .insert ⟨1, "a", [20]⟩, .write .done, .change (-70), .update .done, .update .done, .update .done, .update .done,
    .update .done, .insert ⟨2, "b", [10]⟩, .write .done, .write .done, .flush, .write .done, .write .done, .write .done, .write .done, .write .done]

example : Separate 100 apartSteps ∧ NoFailures apartSteps ∧ Configurable 100 apartSteps ∧
    ∃ s, Reached 100 apartSteps s ∧ Quiet s ∧ s.remaining = 30 ∧ s.written.map Batch.id = [0, 1, 2] := by
  refine ⟨separate_of_check (by decide +kernel), by simp [NoFailures, apartSteps], ?_, ((State.start 100).run apartSteps).get (by decide +kernel),
    by unfold Reached; decide +kernel, by unfold Quiet; decide +kernel, by decide +kernel, by decide +kernel⟩
  intro before after he
  unfold configured
  have hsub : before.filterMap changeOf <+: [-70] := by
    rw [show [-70] = apartSteps.filterMap changeOf by decide +kernel, he, List.filterMap_append]
    exact List.prefix_append _ _
  rcases List.prefix_cons_iff.mp hsub with h | ⟨l, h, hl⟩
  · rw [h]; decide
  · rw [h, List.prefix_nil.mp hl]; decide

/-- **C89** is false for each request that reduces the memory: while the writer thread saves the only buffer, its memory has not been given back and the queue is empty, so
the request aborts the server. The new memory would have been enough. -/
theorem C89_reduction_aborts (memory less : Nat) (h : less < memory) :
    ∃ steps s, Reached memory steps s ∧ NoFailures steps ∧ configured memory steps = less ∧ s.aborted = true := by
  refine ⟨[.insert ⟨0, "a", [memory]⟩, .write .done, .write .done, .insert ⟨1, "a", [1]⟩, .write .done, .write .done, .write .done, .write .done,
    .change ((less : Int) - memory), .update .done, .update .done], ⟨(less : Int) - memory, [], [], .saving ⟨1, "a", [1]⟩ (.writing "a" ⟨memory + 1, [⟨0, "a", [memory]⟩,
      ⟨1, "a", [1]⟩]⟩), some .taking, [], [], true⟩, ?_, by simp [NoFailures], ?_, rfl⟩
  · have h1 : (less : Int) - memory < 0 := by omega
    simp [Reached, State.start, State.run, State.step, State.put, State.buffer, State.write, State.update, State.save, Batch.size, Buffer.append, added, Writer.flushes, without, h1]
  · simp [configured, changeOf, List.filterMap_cons]

/-- **C89** is false while a request saves a buffer: the memory is reduced from 100 to 50 bytes and a batch of 20 bytes is received. -/
theorem C89_writer_aborts : ∃ steps s, Reached 100 steps s ∧ NoFailures steps ∧ configured 100 steps = 50 ∧ s.aborted = true := by
  refine ⟨[.insert ⟨0, "a", [90]⟩, .write .done, .write .done, .change (-50), .update .done, .update .done, .update .done, .insert ⟨1, "b", [20]⟩, .write .done, .write .done,
    .write .done, .write .done, .write .done, .write .done, .write .done, .write .done], ?_⟩
  simp only [Reached]
  refine ⟨_, (Option.some_get (by decide +kernel)).symm, ?_, ?_, ?_⟩
  · simp [NoFailures]
  · decide +kernel
  · decide +kernel

/-- **C89** is false after a buffer could not be saved, also if nothing overlaps: its memory is not given back, and a request that reduces the memory from 100 to 50 bytes
aborts the server although nothing is in memory. -/
theorem C89_failure_aborts : ∃ steps s, Reached 100 steps s ∧ Separate 100 steps ∧ configured 100 steps = 50 ∧ inBuffers s = [] ∧ s.aborted = true := by
  refine ⟨[.insert ⟨0, "a", [90]⟩, .write .done, .write .done, .flush, .write .done, .write .done, .write .done, .write .notWritten, .change (-50), .update .done,
    .update .done], ?_⟩
  simp only [Reached]
  refine ⟨_, (Option.some_get (by decide +kernel)).symm, separate_of_check (by decide +kernel), ?_, ?_, ?_⟩
  · decide +kernel
  · decide +kernel
  · decide +kernel

end ModelarDB.Props
