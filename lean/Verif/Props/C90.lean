import Verif.Lemmas.UncompressedMemory
/-
**C90** The memory for uncompressed data can be changed while rows are ingested.
-/
namespace ModelarDB.Props
open Model.UncompressedMemory Spec.UncompressedMemory ModelarDB.UncompressedMemory

/-! ### All interleavings -/

/-- **C90**, no row is duplicated and each row that disappears is lost in one of the ways of the model: in every interleaving of the ingestion thread, the compression thread and
requests, with any failures, each row that was received has been compressed, is still in the server, or is lost, and is so once. -/
theorem C90_conserved {env : Env} {memory : Nat} {steps : List Step} {s : State} (h : Reached env memory steps s) :
    (received steps).Perm (s.compressed ++ kept s ++ s.lost) :=
  List.perm_iff_count.mpr fun a => by
    rw [(inv_reached h).conserved a]
    simp only [List.count_append]

/-- **C90**, the memory that remains is not negative when no request is processed: in every interleaving, with any files that cannot be written or read, a request either
spills until the memory is enough or takes its change back. Missing: clients that go away while a buffer is spilled (`C90_cancelled_negative`). -/
theorem C90_remaining_partial {env : Env} {memory : Nat} {steps : List Step} {s : State} (h : Reached env memory steps s) (hc : Step.cancel ∉ steps)
    (hn : s.request = none) : 0 ≤ s.remaining := (remains_reached h hc).none hn

/-! ### Threads that do not meet -/

/-- **C90**, if no request spills a buffer while the ingestion thread processes a batch, and each file can be written and read, the server keeps running and each row that was
received has been compressed or is still in the server, and is so once. Missing: requests that spill while a batch is processed (`C90_full_aborts`, `C90_unused_aborts`,
`C90_request_aborts`, `C90_overlap_loses`), files that cannot be written (`C90_failure_aborts`) and clients that go away (`C90_cancelled_loses`). -/
theorem C90_kept_partial {env : Env} {memory : Nat} {steps : List Step} {s : State} (h : Reached env memory steps s) (hf : NoFailures steps)
    (hx : Exclusive env memory steps) : s.aborted = false ∧ (received steps).Perm (s.compressed ++ kept s) := by
  have ho := ordered_reached h hf hx
  refine ⟨ho.running, ?_⟩
  have := C90_conserved h
  rwa [ho.lost, List.append_nil] at this

/-- **C90**, the same if the memory is only increased, whenever the requests are processed. -/
theorem C90_increased_partial {env : Env} {memory : Nat} {steps : List Step} {s : State} (h : Reached env memory steps s) (hf : NoFailures steps) (hg : Grows steps) :
    s.aborted = false ∧ (received steps).Perm (s.compressed ++ kept s) := by
  refine C90_kept_partial h hf fun before after s₀ he hr hs => ?_
  have hgrow : ∀ c v, s₀.request = some ⟨c, v⟩ → Step.change c ∈ before := by
    refine reached_induction (env := env) (P := fun steps s => ∀ c v, s.request = some ⟨c, v⟩ → Step.change c ∈ steps) nofun ?_ hr
    intro steps x s s' _ ih h c v hq
    have key : (∀ c v, s'.request = some ⟨c, v⟩ → x = .change c ∨ ∃ v, s.request = some ⟨c, v⟩) := by
      unfold State.step at h
      split at h
      · cases h
      · cases x with
        | batch rows =>
          dsimp only at h
          split at h
          · cases h; exact fun c v hq => Or.inr ⟨v, hq⟩
          · cases h
        | flush =>
          dsimp only at h
          split at h
          · cases h; exact fun c v hq => Or.inr ⟨v, hq⟩
          · cases h
        | ingest pick io => exact fun c v hq => Or.inr ⟨v, (ingest_remaining h).1 ▸ hq⟩
        | take =>
          dsimp only at h
          split at h
          · cases h; exact fun c v hq => Or.inr ⟨v, hq⟩
          · cases h
        | compress =>
          dsimp only at h
          split at h
          · cases h
          · cases h; exact fun c v hq => Or.inr ⟨v, hq⟩
        | change c =>
          dsimp only at h
          split at h
          · cases h
            intro c' v hq
            cases hq
            exact Or.inl rfl
          · cases h
        | request pick io =>
          dsimp only at h
          unfold State.requestStep at h
          split at h
          · cases h
          · next c hr =>
            split at h <;> cases h
            · intro c' v hq
              cases hq
              exact Or.inr ⟨_, hr⟩
            · exact nofun
          · next c w hr =>
            obtain ⟨n, hn, h⟩ := Option.map_eq_some_iff.mp h
            cases n <;> subst h
            · intro c' v hq
              cases hq
              exact Or.inr ⟨_, hr⟩
            · intro c' v hq
              cases hq
              exact Or.inr ⟨_, hr⟩
            · exact nofun
            · exact fun c v hq => Or.inr ⟨v, hq⟩
        | cancel =>
          dsimp only at h
          split at h
          · cases h; exact nofun
          · cases h
    rcases key c v hq with rfl | ⟨v', hv⟩
    · simp
    · exact List.mem_append_left _ (ih c v' hv)
  obtain ⟨c, v, hq⟩ := hs
  have hc := hg c (he ▸ List.mem_append_left _ (hgrow c _ hq))
  have := (remains_reached hr fun h => hf.2 (he ▸ List.mem_append_left _ h)).more c _ hq hc
  cases this.1

/-- **C90**, the same if requests and batches are not processed at the same time, also if the memory is reduced. -/
theorem C90_separate_partial {env : Env} {memory : Nat} {steps : List Step} {s : State} (h : Reached env memory steps s) (hf : NoFailures steps)
    (hx : Separate env memory steps) : s.aborted = false ∧ (received steps).Perm (s.compressed ++ kept s) := by
  refine C90_kept_partial h hf fun before after s₀ he hr hs => ?_
  have key : s₀.request = none ∨ Idle s₀.ingest := by
    have hx' : ∀ b x a s, before = b ++ x :: a → Reached env memory b s → (∀ rows, x = .batch rows → s.request = none) ∧ (∀ c, x = .change c → Idle s.ingest) :=
      fun b x a s hb hs => hx b x (a ++ after) s (by rw [he, hb]; simp) hs
    clear he hs hx
    have := reached_induction (env := env) (P := fun steps s => (∀ b x a s, steps = b ++ x :: a → Reached env memory b s →
        (∀ rows, x = .batch rows → s.request = none) ∧ (∀ c, x = .change c → Idle s.ingest)) → s.request = none ∨ Idle s.ingest) (fun _ => Or.inl rfl) ?_ hr
    · exact this hx'
    intro steps x s s' hs ih h hx
    have ih := ih fun b y a s hb hs => hx b y (a ++ [x]) s (by rw [hb]; simp) hs
    have hnow := hx steps x [] s rfl hs
    unfold State.step at h
    split at h
    · cases h
    · cases x with
      | batch rows =>
        dsimp only at h
        split at h
        · cases h; exact Or.inl (hnow.1 rows rfl)
        · cases h
      | flush =>
        dsimp only at h
        split at h
        · cases h; exact ih
        · cases h
      | ingest pick io =>
        rcases ih with ih | ih
        · exact Or.inl ((ingest_remaining h).1.trans ih)
        · dsimp only at h
          unfold State.ingestStep at h
          cases hi : s.ingest <;> rw [hi] at ih <;> first | (exact absurd ih id) | (rw [hi] at h; cases h)
      | take =>
        dsimp only at h
        split at h
        · cases h; exact ih
        · cases h
      | compress =>
        dsimp only at h
        split at h
        · cases h
        · cases h; exact ih
      | change c =>
        dsimp only at h
        split at h
        · cases h; exact Or.inr (hnow.2 c rfl)
        · cases h
      | request pick io =>
        have hid : s.request ≠ none → Idle s.ingest := fun hne => ih.resolve_left hne
        dsimp only at h
        unfold State.requestStep at h
        split at h
        · cases h
        · next c hr =>
          have hid := hid (by rw [hr]; nofun)
          split at h <;> cases h <;> exact Or.inr hid
        · next c w hr =>
          have hid := hid (by rw [hr]; nofun)
          obtain ⟨n, hn, h⟩ := Option.map_eq_some_iff.mp h
          have hk := spill_keeps (inv_reached hs).memory (inv_reached hs).disk hn
          cases n with
          | spiller v s₁ => subst h; exact Or.inr (by show Idle s₁.ingest; rw [hk.1.ingest]; exact hid)
          | finished s₁ => subst h; exact Or.inr (by show Idle s₁.ingest; rw [hk.1.ingest]; exact hid)
          | failed s₁ => subst h; exact Or.inl rfl
          | aborted => subst h; exact Or.inr hid
      | cancel =>
        dsimp only at h
        split at h
        · cases h; exact Or.inl rfl
        · cases h
  rcases key with hn | hn
  · obtain ⟨c, v, hq⟩ := hs
    rw [hn] at hq
    cases hq
  · exact hn

/-! ### Executions -/

/-- Buffers of three rows and 10 bytes. -/
def c90Env : Env := ⟨3, fun _ => 10⟩

/-- Some steps of the ingestion thread. -/
def ingests (n : Nat) : List Step := List.replicate n (.ingest 0 true)

/-- Whether a step is not a failure. -/
def succeeds : Step → Bool
  | .ingest _ io => io
  | .request _ io => io
  | .cancel => false
  | _ => true

theorem noFailures_of_all {steps : List Step} (h : steps.all succeeds = true) : NoFailures steps := by
  rw [List.all_eq_true] at h
  refine ⟨fun p io hx => ?_, fun hx => nomatch h _ hx⟩
  rcases hx with hx | hx <;> exact h _ hx

/-- Two time series have a buffer. -/
def twoBuffers : List Step := .batch [⟨0, 0⟩, ⟨1, 1⟩] :: ingests 11

/-- Whether a step may be next if requests and batches are not processed at the same time. -/
def mayFollow (s : State) : Step → Bool
  | .batch _ => s.request.isNone
  | .change _ => s.ingest == .waiting
  | _ => true

def checkApart (env : Env) (s : State) : List Step → Bool
  | [] => true
  | x :: steps => mayFollow s x && (s.step env x).all fun s => checkApart env s steps

theorem separate_of_checkApart {env : Env} {memory : Nat} {steps : List Step} (h : checkApart env (State.start memory) steps = true) : Separate env memory steps := by
  have key : ∀ (before : List Step) (s₀ : State) (x : Step) (after : List Step) (s : State), checkApart env s₀ (before ++ x :: after) = true →
      s₀.run env before = some s → (∀ rows, x = .batch rows → s.request = none) ∧ (∀ c, x = .change c → Idle s.ingest) := by
    intro before
    induction before with
    | nil =>
      intro s₀ x after s h hr
      cases hr
      rw [List.nil_append, checkApart, Bool.and_eq_true] at h
      refine ⟨fun b hb => by subst hb; simpa [mayFollow] using h.1, fun c hc => ?_⟩
      subst hc
      have : s₀.ingest = .waiting := by simpa [mayFollow] using h.1
      rw [this]
      trivial
    | cons y before ih =>
      intro s₀ x after s h hr
      rw [List.cons_append, checkApart, Bool.and_eq_true] at h
      simp only [State.run] at hr
      obtain ⟨s₁, h1, h2⟩ := Option.bind_eq_some_iff.mp hr
      rw [h1] at h
      exact ih s₁ x after s (by simpa using h.2) h2
  intro before x after s he hr
  exact key before _ x after s (he ▸ h) hr

/-- The memory is reduced from 20 to 10 bytes, so one of two buffers is spilled, and it is read when there is another row for it. -/
def reducedBetween : List Step :=
  twoBuffers ++ [.change (-10)] ++ List.replicate 7 (.request 0 true) ++ [.batch [⟨0, 2⟩]] ++ ingests 14 ++ [.take, .compress, .flush, .take, .compress]

example : Separate c90Env 20 reducedBetween ∧ NoFailures reducedBetween ∧
    ∃ s, Reached c90Env 20 reducedBetween s ∧ s.compressed.map Row.id = [1, 0, 2] ∧ kept s = [] := by
  exact ⟨separate_of_checkApart (by decide +kernel), noFailures_of_all (by decide), ((State.start 20).run c90Env reducedBetween).get (by decide +kernel),
    by unfold Reached; decide +kernel, by decide +kernel, by decide +kernel⟩

/-- Memory is added while a batch is processed, and then a buffer is spilled since a third time series has a row. -/
def increasedDuring : List Step :=
  twoBuffers ++ [.batch [⟨2, 2⟩, ⟨3, 3⟩], .ingest 0 true, .change 10, .ingest 0 true, .request 0 true] ++ ingests 10

example : Grows increasedDuring ∧ NoFailures increasedDuring ∧
    ∃ s, Reached c90Env 20 increasedDuring s ∧ s.remaining = 10 ∧ s.disk.map Prod.fst = [0] ∧ s.memory.map Prod.fst = [1, 2] := by
  exact ⟨by simp [Grows, increasedDuring, twoBuffers, ingests], noFailures_of_all (by decide),
    ((State.start 20).run c90Env increasedDuring).get (by decide +kernel), by unfold Reached; decide +kernel, by decide +kernel, by decide +kernel, by decide +kernel⟩

/-- A request that only waits at the condition does not spill, so it can be processed while a batch is. -/
example : Exclusive c90Env 20 [.batch [⟨0, 0⟩], .change (-10), .ingest 0 true, .request 0 true, .ingest 0 true] := by
  intro before after s he hr hs
  obtain ⟨c, v, hq⟩ := hs
  have hl : before.length ≤ 5 := by
    have := congrArg List.length he
    simp at this
    omega
  have hb : before = ([.batch [⟨0, 0⟩], .change (-10), .ingest 0 true, .request 0 true, .ingest 0 true] : List Step).take before.length := by rw [he]; simp
  generalize before.length = n at hb hl
  subst hb
  exfalso
  match n, hl with
  | 0, _ => cases hr; cases hq
  | 1, _ => cases hr; cases hq
  | 2, _ => cases hr; cases hq
  | 3, _ => cases hr; cases hq
  | 4, _ => cases hr; cases hq
  | 5, _ => cases hr; cases hq

/-! ### Requests that spill while a batch is processed -/

/-- Buffers of two rows and 10 bytes. -/
def c90Small : Env := ⟨2, fun _ => 10⟩

/-- **C90** is false when a request takes a buffer that has just become full: the memory is reduced from 20 to 10 bytes, which is enough for a buffer, and the ingestion thread
aborts the server. -/
theorem C90_full_aborts : ∃ steps s, Reached c90Small 20 steps s ∧ NoFailures steps ∧ s.remaining = -10 ∧ s.aborted = true := by
  refine ⟨twoBuffers ++ [.batch [⟨0, 2⟩], .ingest 0 true, .change (-10), .request 0 true, .request 1 true, .request 0 true, .ingest 0 true], ?_⟩
  simp only [Reached]
  exact ⟨_, (Option.some_get (by decide +kernel)).symm, noFailures_of_all (by decide), by decide +kernel, by decide +kernel⟩

/-- **C90** is false when a request takes a buffer that has just been found to be unused: the ingestion thread aborts the server. -/
theorem C90_unused_aborts : ∃ steps s, Reached c90Env 20 steps s ∧ NoFailures steps ∧ s.remaining = -10 ∧ s.aborted = true := by
  refine ⟨twoBuffers ++ [.batch [⟨0, 2⟩], .ingest 0 true, .ingest 0 true, .change (-10), .request 0 true, .request 0 true, .request 0 true, .ingest 0 true], ?_⟩
  simp only [Reached]
  exact ⟨_, (Option.some_get (by decide +kernel)).symm, noFailures_of_all (by decide), by decide +kernel, by decide +kernel⟩

/-- **C90** is false when the ingestion thread takes the buffer that a request has found: the request aborts the server. -/
theorem C90_request_aborts : ∃ steps s, Reached c90Small 20 steps s ∧ NoFailures steps ∧ s.aborted = true := by
  refine ⟨twoBuffers ++ [.batch [⟨0, 2⟩], .ingest 0 true, .change (-10), .request 0 true, .request 1 true, .ingest 0 true, .request 0 true], ?_⟩
  simp only [Reached]
  exact ⟨_, (Option.some_get (by decide +kernel)).symm, noFailures_of_all (by decide), by decide +kernel⟩

/-- **C90** is false when a row is received for a time series whose buffer is being written: it gets a second buffer, and when that is spilled it replaces the first, so the row
in it is lost although every file could be written. The server runs and waits for a message. -/
theorem C90_overlap_loses : ∃ steps s, Reached c90Env 20 steps s ∧ NoFailures steps ∧ s.aborted = false ∧ s.request = none ∧ s.ingest = .waiting ∧
    s.lost = [⟨0, 0⟩] ∧ (⟨0, 0⟩ : Row) ∈ received steps ∧ (⟨0, 0⟩ : Row) ∉ s.compressed ++ kept s := by
  refine ⟨twoBuffers ++ [.change (-10), .request 0 true, .request 0 true, .request 0 true, .batch [⟨0, 2⟩]] ++ ingests 13 ++
    List.replicate 4 (.request 0 true) ++ [.take, .compress, .batch [⟨2, 3⟩, ⟨3, 4⟩]] ++ ingests 17, ?_⟩
  simp only [Reached]
  exact ⟨_, (Option.some_get (by decide +kernel)).symm, noFailures_of_all (by decide), by decide +kernel, by decide +kernel, by decide +kernel, by decide +kernel,
    by decide +kernel, by decide +kernel⟩

/-- **C90** is false when a request takes the last buffer in memory while another is being compressed: the ingestion thread finds no buffer to spill and ends, so no row is
ingested anymore although the memory was reduced to what a buffer needs. -/
theorem C90_ingestion_ends : ∃ steps s, Reached c90Small 20 steps s ∧ NoFailures steps ∧ s.aborted = false ∧ s.ingest = .ended [⟨2, 3⟩] ∧ s.disk = [] ∧ s.memory = [] := by
  refine ⟨[.batch [⟨0, 0⟩, ⟨0, 1⟩, ⟨1, 2⟩]] ++ ingests 13 ++ [.take, .change (-10), .request 0 true, .request 0 true, .request 0 true, .batch [⟨2, 3⟩]] ++ ingests 3, ?_⟩
  simp only [Reached]
  exact ⟨_, (Option.some_get (by decide +kernel)).symm, noFailures_of_all (by decide), by decide +kernel, by decide +kernel, by decide +kernel, by decide +kernel⟩

/-! ### Failures -/

/-- The memory is reduced twice, and the first time the file cannot be written. -/
def failingTwice : List Step :=
  twoBuffers ++ [.change (-10), .request 0 true, .request 0 true, .request 0 true, .request 0 false, .request 0 true, .change (-10), .request 0 true, .request 1 true,
    .request 0 true, .request 0 true]

/-- **C90** is false if a file cannot be written, also if requests and batches are not processed at the same time: the first request is refused and the buffer is put back
without its rows, and the second request aborts the server since the buffer has no first timestamp. -/
theorem C90_failure_aborts : ∃ s, Reached c90Env 20 failingTwice s ∧ Separate c90Env 20 failingTwice ∧ s.lost = [⟨0, 0⟩] ∧ s.aborted = true := by
  simp only [Reached]
  exact ⟨_, (Option.some_get (by decide +kernel)).symm, separate_of_checkApart (by decide +kernel), by decide +kernel, by decide +kernel⟩

/-- A client goes away while its request spills a buffer. -/
def cancelled : List Step := twoBuffers ++ [.change (-10), .request 0 true, .request 0 true, .request 0 true, .cancel]

/-- **C90** is false if the client goes away: the rows of the buffer that is being written are lost. -/
theorem C90_cancelled_loses : ∃ s, Reached c90Env 20 cancelled s ∧ Separate c90Env 20 cancelled ∧ s.aborted = false ∧ s.lost = [⟨0, 0⟩] := by
  simp only [Reached]
  exact ⟨_, (Option.some_get (by decide +kernel)).symm, separate_of_checkApart (by decide +kernel), by decide +kernel, by decide +kernel⟩

/-- **C90** is false if the client goes away: the memory that remains is negative although no request is processed. -/
theorem C90_cancelled_negative : ∃ s, Reached c90Env 20 cancelled s ∧ s.request = none ∧ s.remaining = -10 := by
  simp only [Reached]
  exact ⟨_, (Option.some_get (by decide +kernel)).symm, by decide +kernel, by decide +kernel⟩

/-- A request that is refused takes its change back: there is no buffer in memory. -/
example : ∃ s, Reached c90Env 20 [.change (-25), .request 0 true, .request 0 true] s ∧ s.request = none ∧ s.remaining = 20 := by
  simp only [Reached]
  exact ⟨_, (Option.some_get (by decide +kernel)).symm, by decide +kernel, by decide +kernel⟩

end ModelarDB.Props
