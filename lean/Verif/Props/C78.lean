import Verif.Lemmas.Lifetimes
import Mathlib.Tactic.Tauto
/-
C78: Requests that use a table at the same time.
-/
namespace ModelarDB.Props
open Model.Lifetimes Spec.Lifetimes Lemmas.Lifetimes

variable {env : Env}

theorem orderly_append {before after : List Op} {s s' : Server} (h : Orderly env s (before ++ after)) (hrun : s.run env before = some s') :
    Orderly env s before ∧ Orderly env s' after := by
  induction before generalizing s with
  | nil => cases hrun; exact ⟨trivial, h⟩
  | cons op ops ih =>
    simp only [Server.run, Option.bind_eq_some_iff] at hrun
    obtain ⟨s₁, h1, h2⟩ := hrun
    refine ⟨⟨h.1, ?_⟩, (ih (h.2 s₁ h1) h2).2⟩
    intro s₂ h3
    rw [h1] at h3
    cases h3
    exact (ih (h.2 s₁ h1) h2).1

/-- Every row in memory, on disk and in the log is in the table it was sent to. -/
theorem C78_rows_partial (hsame : ∀ t, env.sameColumns t t = true) {ops : List Op} {s : Server} (horderly : Orderly env Server.empty ops)
    (hrun : Server.empty.run env ops = some s) :
    (∀ t rows, s.disk = some (t, rows) → ∀ r ∈ rows, r.table = t) ∧
    (∀ r ∈ s.memory, ∃ rows, s.disk = some (r.table, rows)) ∧
    (∀ r, Logged s r → ∃ rows, s.disk = some (r.table, rows)) ∧
    (∀ t, s.registered = some t → ∃ rows, s.disk = some (t, rows)) := by
  have h := (inv_run hsame inv_empty horderly hrun).core
  exact ⟨h.disk, h.memory, fun r ⟨l, hl, hr⟩ => h.log l hl r hr, h.registered⟩

theorem held_save (hsame : ∀ t, env.sameColumns t t = true) {s : Server} (h : Core env s) {r : Row} (hr : Held s r) :
    Held (s.saveMemory env).1 r := by
  rcases saveMemory_cases hsame h with ⟨_, he⟩ | ⟨t, rows, hd, hall, he⟩
  · rw [he]; exact hr
  · rw [he]
    refine Or.inr ?_
    rcases hr with hr | ⟨rows', hd', hr⟩
    · exact ⟨rows ++ s.memory, by rw [hall r hr], List.mem_append_right _ hr⟩
    · rw [hd] at hd'
      simp only [Option.some.injEq, Prod.mk.injEq] at hd'
      obtain ⟨rfl, rfl⟩ := hd'
      exact ⟨rows ++ s.memory, rfl, List.mem_append_left _ hr⟩

theorem notRemoving_respond {s : Server} (h : NotRemoving s) (id : Nat) (ok : Bool) : NotRemoving (s.respond id ok) := by
  intro i p hp
  by_cases hi : i = id
  · subst hi; simp [Server.respond] at hp
  · exact h i p (by simpa [Server.respond, Function.update_of_ne hi] using hp)

theorem notRemoving_next {s : Server} (h : NotRemoving s) (id : Nat) {phase : Phase} (hp : ¬ Phase.Removes phase) : NotRemoving (s.next id phase) := by
  intro i p hq
  by_cases hi : i = id
  · subst hi; simp [Server.next] at hq; subst hq; exact hp
  · exact h i p (by simpa [Server.next, Function.update_of_ne hi] using hq)

theorem saveMemory_requests (env : Env) (s : Server) : (s.saveMemory env).1.requests = s.requests := by
  unfold Server.saveMemory
  split
  · rfl
  · split
    · rfl
    · split <;> rfl

/-- A row that is held stays so as long as the table is neither dropped nor truncated. -/
theorem held_step (hsame : ∀ t, env.sameColumns t t = true) {s s' : Server} {op : Op} {r : Row} (h : Core env s) (hn : NotRemoving s)
    (hop : ¬ Op.Removes op) (hstep : s.step env op = some s') (hr : Held s r) : Held s' r ∧ NotRemoving s' := by
  have hdisk : ∃ d, s.disk = some d := by
    rcases hr with hr | ⟨rows, hd, _⟩
    · obtain ⟨rows, hd⟩ := h.memory r hr
      exact ⟨_, hd⟩
    · exact ⟨_, hd⟩
  obtain ⟨d, hd⟩ := hdisk
  cases op with
  | start id request =>
    simp only [Server.step] at hstep
    split at hstep
    · cases hstep
      cases request with
      | put =>
        simp only [Server.start]
        split
        · exact ⟨hr, notRemoving_next hn _ (by simp [Phase.Removes])⟩
        · exact ⟨hr, notRemoving_respond hn _ _⟩
      | create t =>
        simp only [Server.start]
        split
        · exact ⟨hr, notRemoving_respond hn _ _⟩
        · exact ⟨hr, notRemoving_next hn _ (by simp [Phase.Removes])⟩
      | drop => exact absurd trivial hop
      | truncate => exact absurd trivial hop
    · cases hstep
  | batch id rows =>
    simp only [Server.step] at hstep
    split at hstep
    · cases hstep
      have hmore : ∀ log received, Held { s with log := log, memory := s.memory ++ rows.map (Row.mk ‹Nat›), received := received } r := by
        intro log received
        rcases hr with hr | hr
        · exact Or.inl (List.mem_append_left _ hr)
        · exact Or.inr hr
      simp only [Server.insert]
      split
      · split
        · exact ⟨hr, notRemoving_respond hn _ _⟩
        · exact ⟨hmore _ _, hn⟩
      · exact ⟨hmore _ _, hn⟩
    · cases hstep
  | finish id =>
    simp only [Server.step] at hstep
    split at hstep
    · cases hstep
      exact ⟨hr, notRemoving_respond hn _ _⟩
    · cases hstep
  | advance id ok =>
    simp only [Server.step] at hstep
    split at hstep
    · cases hstep
    · rename_i phase hput hreq
      cases hstep
      have hp := hn id phase hreq
      cases phase with
      | put t => exact ⟨hr, hn⟩
      | createStore t =>
        have : s.advance env id ok (.createStore t) = s.respond id false := by
          simp only [Server.advance, hd]
        rw [this]
        exact ⟨hr, notRemoving_respond hn _ _⟩
      | createRegister t =>
        simp only [Server.advance]
        split
        · exact ⟨hr, notRemoving_next (s := { s with registered := some t }) hn _ (by simp [Phase.Removes])⟩
        · exact ⟨hr, notRemoving_respond hn _ _⟩
      | createLog t =>
        simp only [Server.advance]
        split
        · split
          · exact ⟨hr, notRemoving_respond (s := { s with log := some [] }) hn _ _⟩
          · exact ⟨hr, notRemoving_respond hn _ _⟩
        · exact ⟨hr, notRemoving_respond hn _ _⟩
      | _ => exact absurd trivial hp
    · cases hstep
  | save =>
    simp only [Server.step, Option.some.injEq] at hstep
    subst hstep
    exact ⟨held_save hsame h hr, fun i p hp => hn i p (by rwa [saveMemory_requests] at hp)⟩

theorem held_run (hsame : ∀ t, env.sameColumns t t = true) {ops : List Op} {s s' : Server} {r : Row} (h : Inv env s) (ho : Orderly env s ops)
    (hn : NotRemoving s) (hops : ∀ op ∈ ops, ¬ Op.Removes op) (hrun : s.run env ops = some s') (hr : Held s r) : Held s' r := by
  induction ops generalizing s with
  | nil => cases hrun; exact hr
  | cons op ops ih =>
    simp only [Server.run, Option.bind_eq_some_iff] at hrun
    obtain ⟨s₁, h1, h2⟩ := hrun
    obtain ⟨hr', hn'⟩ := held_step hsame h.core hn (hops op (List.mem_cons_self ..)) h1 hr
    exact ih (inv_step hsame h ho.1 h1) (ho.2 s₁ h1) hn' (fun o ho => hops o (List.mem_cons_of_mem _ ho)) h2 hr'

/-- No row that was accepted is lost as long as the table is neither dropped nor truncated. -/
theorem C78_not_lost_partial (hsame : ∀ t, env.sameColumns t t = true) {before after : List Op} {id : Nat} {rows : List Nat} {s s₁ s' : Server}
    (horderly : Orderly env Server.empty (before ++ .batch id rows :: after))
    (hbefore : Server.empty.run env before = some s)
    (hbatch : s.step env (.batch id rows) = some s₁)
    (haccepted : s₁.requests id ≠ none)
    (hafter : s₁.run env after = some s')
    (hnot : NotRemoving s) (hnone : ∀ op ∈ after, ¬ Op.Removes op) :
    ∃ table, s.registered = some table ∧ ∀ n ∈ rows, Held s' ⟨table, n⟩ := by
  obtain ⟨ho1, ho2⟩ := orderly_append horderly hbefore
  have hinv := inv_run hsame inv_empty ho1 hbefore
  have hinv1 := inv_step hsame hinv ho2.1 hbatch
  have hallowed := ho2.1
  have hallowed' := ho2.2 s₁ hbatch
  simp only [Server.step] at hbatch
  split at hbatch
  · rename_i table hreq
    cases hbatch
    refine ⟨table, hallowed table hreq, fun n hn => ?_⟩
    have hm : (⟨table, n⟩ : Row) ∈ rows.map (Row.mk table) := List.mem_map.mpr ⟨n, hn, rfl⟩
    have hheld : Held (s.insert env id table rows) ⟨table, n⟩ ∧ NotRemoving (s.insert env id table rows) := by
      simp only [Server.insert] at haccepted ⊢
      split
      · rename_i hw
        rw [if_pos hw] at haccepted
        split
        · rename_i hl
          rw [hl] at haccepted
          simp [Server.respond] at haccepted
        · exact ⟨Or.inl (List.mem_append_right _ hm), hnot⟩
      · exact ⟨Or.inl (List.mem_append_right _ hm), hnot⟩
    exact held_run hsame hinv1 hallowed' hheld.2 hnone hafter hheld.1
  · cases hbatch

/-- Once a request to drop the table succeeds, nothing is left of it. -/
theorem C78_dropped_partial (hsame : ∀ t, env.sameColumns t t = true) {ops : List Op} {s s' : Server} {id : Nat} {ok : Bool}
    (horderly : Orderly env Server.empty ops) (hrun : Server.empty.run env ops = some s)
    (hlast : s.requests id = some .dropDelete) (hstep : s.step env (.advance id ok) = some s')
    (hresponse : s'.responses = s.responses ++ [(id, true)]) :
    s'.registered = none ∧ s'.disk = none ∧ s'.log = none ∧ s'.memory = [] := by
  obtain ⟨hr, hm, hl⟩ := (inv_run hsame inv_empty horderly hrun).during id _ hlast
  simp only [Server.step, hlast, Server.advance, Option.some.injEq] at hstep
  split at hstep
  · subst hstep
    exact ⟨hr, rfl, hl, hm⟩
  · subst hstep
    simp [Server.respond] at hresponse

/-- What holds for the log if rows are only sent when no request to drop or truncate the table is processed. -/
structure LogInv (s : Server) : Prop where
  logged : ∀ r ∈ s.memory, Logged s r
  truncating : ∀ id, s.requests id = some .truncateLog → s.memory = []

theorem saveMemory_memory (env : Env) (s : Server) : (s.saveMemory env).1.memory = [] := by
  unfold Server.saveMemory
  split
  · rename_i h; simpa using h
  · split
    · rfl
    · split <;> rfl

theorem logInv_empty {s : Server} (h : s.memory = []) : LogInv s := ⟨by simp [h], fun _ _ => h⟩

theorem logInv_respond {s : Server} (h : LogInv s) (id : Nat) (ok : Bool) : LogInv (s.respond id ok) := by
  refine ⟨h.logged, fun i hi => ?_⟩
  by_cases he : i = id
  · subst he; simp [Server.respond] at hi
  · exact h.truncating i (by simpa [Server.respond, Function.update_of_ne he] using hi)

theorem logInv_next {s : Server} (h : LogInv s) (id : Nat) {phase : Phase} (hp : phase ≠ .truncateLog) : LogInv (s.next id phase) := by
  refine ⟨h.logged, fun i hi => ?_⟩
  by_cases he : i = id
  · subst he; simp [Server.next] at hi; exact absurd hi hp
  · exact h.truncating i (by simpa [Server.next, Function.update_of_ne he] using hi)

theorem logInv_step (hwal : env.wal = true) {s s' : Server} {op : Op} (hinv : Inv env s) (h : LogInv s)
    (hsent : (∃ id rows, op = .batch id rows) → NotRemoving s) (hstep : s.step env op = some s') : LogInv s' := by
  cases op with
  | start id request =>
    simp only [Server.step] at hstep
    split at hstep
    · cases hstep
      cases request <;> simp only [Server.start] <;> split <;>
        first | exact logInv_respond h _ _ | exact logInv_next h _ (by simp)
    · cases hstep
  | batch id rows =>
    have hn := hsent ⟨id, rows, rfl⟩
    simp only [Server.step] at hstep
    split at hstep
    · cases hstep
      simp only [Server.insert, hwal, if_true]
      split
      · exact logInv_respond h _ _
      · rename_i log hlog
        refine ⟨?_, fun i hi => absurd trivial (hn i _ hi)⟩
        intro r hr
        refine ⟨_, rfl, ?_⟩
        rcases List.mem_append.mp hr with hr | hr
        · obtain ⟨l, hl, hr⟩ := h.logged r hr
          rw [hlog] at hl
          cases hl
          exact List.mem_append_left _ hr
        · exact List.mem_append_right _ hr
    · cases hstep
  | finish id =>
    simp only [Server.step] at hstep
    split at hstep
    · cases hstep
      exact logInv_respond h _ _
    · cases hstep
  | advance id ok =>
    simp only [Server.step] at hstep
    split at hstep
    · cases hstep
    · rename_i phase hput hreq
      cases hstep
      have hp := hinv.during id phase hreq
      cases phase with
      | put t => exact h
      | createStore t =>
        simp only [Server.advance]
        split
        · exact logInv_next (s := { s with disk := some (t, []) }) (phase := .createRegister t) ⟨h.logged, h.truncating⟩ _ (by simp)
        · exact logInv_respond h _ _
      | createRegister t =>
        simp only [Server.advance]
        split
        · exact logInv_next (s := { s with registered := some t }) (phase := .createLog t) ⟨h.logged, h.truncating⟩ _ (by simp)
        · exact logInv_respond h _ _
      | createLog t =>
        simp only [Server.advance, hwal, if_true]
        split
        · rename_i hl
          have hm : s.memory = [] := by
            rw [List.eq_nil_iff_forall_not_mem]
            intro r hr
            obtain ⟨l, hl', _⟩ := h.logged r hr
            rw [hl] at hl'
            cases hl'
          exact logInv_empty hm
        · exact logInv_respond h _ _
      | dropDeregister =>
        simp only [Server.advance]
        split
        · exact logInv_next (s := { s with registered := none }) (phase := .dropFlush) ⟨h.logged, h.truncating⟩ _ (by simp)
        · exact logInv_respond h _ _
      | dropFlush =>
        refine logInv_empty ?_
        simp only [Server.advance]
        split <;> exact saveMemory_memory env s
      | dropLog =>
        refine logInv_empty ?_
        simp only [Server.advance]
        split
        · split <;> exact hp.2.2
        · split <;> exact hp.2.2
      | dropDelete =>
        refine logInv_empty ?_
        simp only [Server.advance]
        split <;> exact hp.2.1
      | truncateFlush =>
        refine logInv_empty ?_
        simp only [Server.advance]
        split <;> exact saveMemory_memory env s
      | truncateLog =>
        have hm := h.truncating id hreq
        refine logInv_empty ?_
        simp only [Server.advance]
        split
        · split <;> exact hm
        · split <;> exact hm
      | truncateDelete =>
        simp only [Server.advance]
        split
        · rename_i t _ _
          exact logInv_respond (s := { s with disk := some (t, []) }) ⟨h.logged, h.truncating⟩ _ _
        · exact logInv_respond h _ _
    · cases hstep
  | save =>
    simp only [Server.step, Option.some.injEq] at hstep
    subst hstep
    exact logInv_empty (saveMemory_memory env s)

theorem logInv_run (hsame : ∀ t, env.sameColumns t t = true) (hwal : env.wal = true) {ops : List Op} {s s' : Server} (hinv : Inv env s)
    (h : LogInv s) (ho : Orderly env s ops) (hsent : SentWhenNotRemoving env s ops) (hrun : s.run env ops = some s') : LogInv s' := by
  induction ops generalizing s with
  | nil => cases hrun; exact h
  | cons op ops ih =>
    simp only [Server.run, Option.bind_eq_some_iff] at hrun
    obtain ⟨s₁, h1, h2⟩ := hrun
    exact ih (inv_step hsame hinv ho.1 h1) (logInv_step hwal hinv h hsent.1 h1) (ho.2 s₁ h1) (hsent.2 s₁ h1) h2

/-- With a write-ahead log, every row in memory is in the log if rows are only sent when no request to drop or truncate the table is processed. -/
theorem C78_logged_partial (hsame : ∀ t, env.sameColumns t t = true) (hwal : env.wal = true) {ops : List Op} {s : Server}
    (horderly : Orderly env Server.empty ops) (hsent : SentWhenNotRemoving env Server.empty ops) (hrun : Server.empty.run env ops = some s) :
    ∀ r ∈ s.memory, Logged s r :=
  (logInv_run hsame hwal inv_empty (logInv_empty rfl) horderly hsent hrun).logged

/-- The rows in memory and in the log that are left by a request to truncate the table. -/
structure TruncateInv (earlier : List Row) (id : Nat) (s : Server) : Prop where
  grows : ∃ later, s.received = earlier ++ later
  memory : s.requests id = some .truncateLog ∨ s.requests id = some .truncateDelete → ∀ r ∈ s.memory, ReceivedAfter earlier s r
  log : s.requests id = some .truncateDelete → ∀ r, Logged s r → ReceivedAfter earlier s r

/-- The state after a step for another request, which adds no rows. -/
theorem truncateInv_of_subset {earlier : List Row} {id : Nat} {s s' : Server} (h : TruncateInv earlier id s)
    (hreceived : s'.received = s.received) (hmemory : ∀ r ∈ s'.memory, r ∈ s.memory) (hlog : ∀ r, Logged s' r → Logged s r)
    (hrequests : s'.requests id = s.requests id ∨ s'.requests id = none ∨ s'.requests id = some .truncateFlush ∨
      ∃ p, s'.requests id = some p ∧ p ≠ .truncateLog ∧ p ≠ .truncateDelete) : TruncateInv earlier id s' := by
  have hsame : s'.requests id = some .truncateLog ∨ s'.requests id = some .truncateDelete → s'.requests id = s.requests id := by
    intro hq
    rcases hrequests with h | h | h | ⟨p, h, h1, h2⟩
    · exact h
    · rw [h] at hq; simp at hq
    · rw [h] at hq; simp at hq
    · rw [h] at hq; simp [h1, h2] at hq
  refine ⟨by rw [hreceived]; exact h.grows, ?_, ?_⟩
  · intro hq r hr
    obtain ⟨later, he, hm⟩ := h.memory (by rw [← hsame hq]; exact hq) r (hmemory r hr)
    exact ⟨later, by rw [hreceived]; exact he, hm⟩
  · intro hq r hr
    obtain ⟨later, he, hm⟩ := h.log (by rw [← hsame (Or.inr hq)]; exact hq) r (hlog r hr)
    exact ⟨later, by rw [hreceived]; exact he, hm⟩

theorem save_subset (env : Env) (s : Server) :
    (s.saveMemory env).1.received = s.received ∧ (∀ r, Logged (s.saveMemory env).1 r → Logged s r) := by
  unfold Server.saveMemory
  split
  · exact ⟨rfl, fun _ h => h⟩
  · split
    · exact ⟨rfl, fun _ h => h⟩
    · split
      · refine ⟨rfl, ?_⟩
        rintro r ⟨l, hl, hr⟩
        simp only [Option.map_eq_some_iff] at hl
        obtain ⟨l', hl', rfl⟩ := hl
        exact ⟨l', hl', (List.mem_filter.mp hr).1⟩
      · exact ⟨rfl, fun _ h => h⟩

/-- A step of a request other than to write rows adds no rows. -/
theorem advance_subset (env : Env) (s : Server) (id : Nat) (ok : Bool) (phase : Phase) :
    (s.advance env id ok phase).received = s.received ∧ (∀ r ∈ (s.advance env id ok phase).memory, r ∈ s.memory) ∧
    (∀ r, Logged (s.advance env id ok phase) r → Logged s r) ∧ ∀ i, i ≠ id → (s.advance env id ok phase).requests i = s.requests i := by
  have hsave := save_subset env s
  have hempty := saveMemory_memory env s
  have hreq := saveMemory_requests env s
  have hrespond : ∀ (s : Server) ok i, i ≠ id → (s.respond id ok).requests i = s.requests i := by
    intro s ok i hi; simp [Server.respond, Function.update_of_ne hi]
  have hnext : ∀ (s : Server) p i, i ≠ id → (s.next id p).requests i = s.requests i := by
    intro s p i hi; simp [Server.next, Function.update_of_ne hi]
  have hno : ∀ r, (∃ l, some ([] : List Row) = some l ∧ r ∈ l) → Logged s r := by
    rintro r ⟨l, hl, hr⟩
    cases hl
    cases hr
  have hnone : ∀ r, (∃ l, (none : Option (List Row)) = some l ∧ r ∈ l) → Logged s r := by
    rintro r ⟨l, hl, hr⟩
    cases hl
  cases phase with
  | put t => exact ⟨rfl, fun _ h => h, fun _ h => h, fun _ _ => rfl⟩
  | createStore t =>
    simp only [Server.advance]
    split
    · exact ⟨rfl, fun _ h => h, fun _ h => h, hnext _ _⟩
    · exact ⟨rfl, fun _ h => h, fun _ h => h, hrespond _ _⟩
  | createRegister t =>
    simp only [Server.advance]
    split
    · exact ⟨rfl, fun _ h => h, fun _ h => h, hnext _ _⟩
    · exact ⟨rfl, fun _ h => h, fun _ h => h, hrespond _ _⟩
  | createLog t =>
    simp only [Server.advance]
    split
    · split
      · exact ⟨rfl, fun _ h => h, hno, hrespond _ _⟩
      · exact ⟨rfl, fun _ h => h, fun _ h => h, hrespond _ _⟩
    · exact ⟨rfl, fun _ h => h, fun _ h => h, hrespond _ _⟩
  | dropDeregister =>
    simp only [Server.advance]
    split
    · exact ⟨rfl, fun _ h => h, fun _ h => h, hnext _ _⟩
    · exact ⟨rfl, fun _ h => h, fun _ h => h, hrespond _ _⟩
  | dropFlush =>
    simp only [Server.advance]
    split
    · refine ⟨hsave.1, ?_, hsave.2, ?_⟩
      · intro r hr
        rw [show ((s.saveMemory env).1.next id _).memory = (s.saveMemory env).1.memory from rfl, hempty] at hr
        cases hr
      · intro i hi; rw [hnext _ _ i hi, hreq]
    · refine ⟨hsave.1, ?_, hsave.2, ?_⟩
      · intro r hr
        rw [show ((s.saveMemory env).1.respond id _).memory = (s.saveMemory env).1.memory from rfl, hempty] at hr
        cases hr
      · intro i hi; rw [hrespond _ _ i hi, hreq]
  | dropLog =>
    simp only [Server.advance]
    split
    · split
      · exact ⟨rfl, fun _ h => h, hnone, hnext _ _⟩
      · exact ⟨rfl, fun _ h => h, fun _ h => h, hrespond _ _⟩
    · split
      · exact ⟨rfl, fun _ h => h, fun _ h => h, hnext _ _⟩
      · exact ⟨rfl, fun _ h => h, fun _ h => h, hrespond _ _⟩
  | dropDelete =>
    simp only [Server.advance]
    split
    · exact ⟨rfl, fun _ h => h, fun _ h => h, hrespond _ _⟩
    · exact ⟨rfl, fun _ h => h, fun _ h => h, hrespond _ _⟩
  | truncateFlush =>
    simp only [Server.advance]
    split
    · refine ⟨hsave.1, ?_, hsave.2, ?_⟩
      · intro r hr
        rw [show ((s.saveMemory env).1.next id _).memory = (s.saveMemory env).1.memory from rfl, hempty] at hr
        cases hr
      · intro i hi; rw [hnext _ _ i hi, hreq]
    · refine ⟨hsave.1, ?_, hsave.2, ?_⟩
      · intro r hr
        rw [show ((s.saveMemory env).1.respond id _).memory = (s.saveMemory env).1.memory from rfl, hempty] at hr
        cases hr
      · intro i hi; rw [hrespond _ _ i hi, hreq]
  | truncateLog =>
    simp only [Server.advance]
    split
    · split
      · exact ⟨rfl, fun _ h => h, hno, hnext _ _⟩
      · exact ⟨rfl, fun _ h => h, fun _ h => h, hrespond _ _⟩
    · split
      · exact ⟨rfl, fun _ h => h, fun _ h => h, hnext _ _⟩
      · exact ⟨rfl, fun _ h => h, fun _ h => h, hrespond _ _⟩
  | truncateDelete =>
    simp only [Server.advance]
    split
    · exact ⟨rfl, fun _ h => h, fun _ h => h, hrespond _ _⟩
    · exact ⟨rfl, fun _ h => h, fun _ h => h, hrespond _ _⟩

/-- The next step of a request is another step of the same request. -/
theorem advance_phase (env : Env) (s : Server) (id : Nat) (ok : Bool) {phase : Phase} (hreq : s.requests id = some phase) :
    ((s.advance env id ok phase).requests id = some .truncateLog → (s.advance env id ok phase).memory = []) ∧
    ((s.advance env id ok phase).requests id = some .truncateDelete → phase = .truncateLog ∧
      ((s.disk.isSome ∧ env.wal = true) → (s.advance env id ok phase).log = some []) ∧ (s.advance env id ok phase).memory = s.memory) := by
  cases phase <;> simp only [Server.advance]
  case put => simp [hreq]
  case truncateFlush =>
    split
    · exact ⟨fun _ => saveMemory_memory env s, by simp [Server.next]⟩
    · simp [Server.respond]
  case dropFlush =>
    split
    · simp [Server.next]
    · simp [Server.respond]
  case truncateLog =>
    split
    · split
      · simp [Server.next]
      · simp [Server.respond]
    · rename_i hc
      split
      · refine ⟨by simp [Server.next], fun _ => ⟨trivial, fun ⟨h1, h2⟩ => absurd (by simp [h1, h2]) hc, rfl⟩⟩
      · simp [Server.respond]
  all_goals
    repeat' split
    all_goals simp [Server.respond, Server.next]

theorem truncateInv_step {earlier : List Row} {id : Nat} {s s' : Server} {op : Op} (hinv : Inv env s) (h : TruncateInv earlier id s)
    (hstep : s.step env op = some s') : TruncateInv earlier id s' := by
  cases op with
  | start i request =>
    simp only [Server.step] at hstep
    split at hstep
    · rename_i hnone
      cases hstep
      by_cases hi : id = i
      · subst hi
        cases request <;> simp only [Server.start] <;> split <;>
          exact truncateInv_of_subset h rfl (fun _ h => h) (fun _ h => h) (by simp [Server.respond, Server.next])
      · cases request <;> simp only [Server.start] <;> split <;>
          exact truncateInv_of_subset h rfl (fun _ h => h) (fun _ h => h)
            (Or.inl (by simp [Server.respond, Server.next, Function.update_of_ne hi]))
    · cases hstep
  | batch i rows =>
    simp only [Server.step] at hstep
    split at hstep
    · rename_i t hreq
      cases hstep
      have hadd : ∀ log, (∀ r, (∃ l, log = some l ∧ r ∈ l) → Logged s r ∨ r ∈ rows.map (Row.mk t)) → TruncateInv earlier id { s with
          log := log, memory := s.memory ++ rows.map (Row.mk t), received := s.received ++ rows.map (Row.mk t) } := by
        intro log hlog
        obtain ⟨later, hg⟩ := h.grows
        have hold : ∀ r, ReceivedAfter earlier s r → ReceivedAfter earlier { s with
            log := log, memory := s.memory ++ rows.map (Row.mk t), received := s.received ++ rows.map (Row.mk t) } r := by
          rintro r ⟨later', he, hr⟩
          exact ⟨later' ++ rows.map (Row.mk t), by simp only [he, List.append_assoc], List.mem_append_left _ hr⟩
        have hnew : ∀ r ∈ rows.map (Row.mk t), ReceivedAfter earlier { s with
            log := log, memory := s.memory ++ rows.map (Row.mk t), received := s.received ++ rows.map (Row.mk t) } r := by
          intro r hr
          exact ⟨later ++ rows.map (Row.mk t), by simp only [hg, List.append_assoc], List.mem_append_right _ hr⟩
        refine ⟨⟨later ++ rows.map (Row.mk t), by simp only [hg, List.append_assoc]⟩, ?_, ?_⟩
        · intro hq r hr
          rcases List.mem_append.mp hr with hr | hr
          · exact hold r (h.memory hq r hr)
          · exact hnew r hr
        · intro hq r hr
          rcases hlog r hr with hr | hr
          · exact hold r (h.log hq r hr)
          · exact hnew r hr
      simp only [Server.insert]
      split
      · split
        · by_cases hi : id = i
          · subst hi
            exact truncateInv_of_subset h rfl (fun _ h => h) (fun _ h => h) (by simp [Server.respond])
          · exact truncateInv_of_subset h rfl (fun _ h => h) (fun _ h => h) (Or.inl (by simp [Server.respond, Function.update_of_ne hi]))
        · rename_i log hlog
          refine hadd _ ?_
          rintro r ⟨l, hl, hr⟩
          cases hl
          rcases List.mem_append.mp hr with hr | hr
          · exact Or.inl ⟨log, hlog, hr⟩
          · exact Or.inr hr
      · exact hadd _ fun r hr => Or.inl hr
    · cases hstep
  | finish i =>
    simp only [Server.step] at hstep
    split at hstep
    · cases hstep
      by_cases hi : id = i
      · subst hi
        exact truncateInv_of_subset h rfl (fun _ h => h) (fun _ h => h) (by simp [Server.respond])
      · exact truncateInv_of_subset h rfl (fun _ h => h) (fun _ h => h) (Or.inl (by simp [Server.respond, Function.update_of_ne hi]))
    · cases hstep
  | advance i ok =>
    simp only [Server.step] at hstep
    split at hstep
    · cases hstep
    · rename_i phase hput hreq
      cases hstep
      obtain ⟨h1, h2, h3, h4⟩ := advance_subset env s i ok phase
      by_cases hi : id = i
      · subst hi
        obtain ⟨hl, hd⟩ := advance_phase env s id ok hreq
        have hkeep : ∀ r, ReceivedAfter earlier s r → ReceivedAfter earlier (s.advance env id ok phase) r := by
          rintro r ⟨later, he, hr⟩
          exact ⟨later, by rw [h1]; exact he, hr⟩
        refine ⟨by rw [h1]; exact h.grows, ?_, ?_⟩
        · rintro (hq | hq) r hr
          · rw [hl hq] at hr
            cases hr
          · obtain ⟨rfl, _, hm⟩ := hd hq
            rw [hm] at hr
            exact hkeep r (h.memory (Or.inl hreq) r hr)
        · intro hq r hr
          obtain ⟨rfl, hlog, _⟩ := hd hq
          obtain ⟨t, ht⟩ := Option.isSome_iff_exists.mp (hinv.during id _ hreq)
          obtain ⟨rows, hdisk⟩ := hinv.core.registered t ht
          by_cases hw : env.wal = true
          · obtain ⟨l, hl', hr⟩ := hr
            rw [hlog ⟨by simp [hdisk], hw⟩] at hl'
            cases hl'
            cases hr
          · obtain ⟨l, hl', _⟩ := h3 r hr
            rw [hinv.core.noLog (by simpa using hw)] at hl'
            cases hl'
      · exact truncateInv_of_subset h h1 h2 h3 (Or.inl (h4 id hi))
    · cases hstep
  | save =>
    simp only [Server.step, Option.some.injEq] at hstep
    subst hstep
    obtain ⟨h1, h2⟩ := save_subset env s
    refine truncateInv_of_subset h h1 ?_ h2 (Or.inl (by rw [saveMemory_requests]))
    intro r hr
    rw [saveMemory_memory] at hr
    cases hr

theorem truncateInv_run (hsame : ∀ t, env.sameColumns t t = true) {earlier : List Row} {id : Nat} {ops : List Op} {s s' : Server}
    (hinv : Inv env s) (h : TruncateInv earlier id s) (ho : Orderly env s ops) (hrun : s.run env ops = some s') : TruncateInv earlier id s' := by
  induction ops generalizing s with
  | nil => cases hrun; exact h
  | cons op ops ih =>
    simp only [Server.run, Option.bind_eq_some_iff] at hrun
    obtain ⟨s₁, h1, h2⟩ := hrun
    exact ih (inv_step hsame hinv ho.1 h1) (truncateInv_step hinv h h1) (ho.2 s₁ h1) h2

/-- Once a request to truncate the table succeeds, all rows in memory, in the log and on disk were received after it was started. -/
theorem C78_truncated_partial (hsame : ∀ t, env.sameColumns t t = true) {before during : List Op} {s s₁ s₂ : Server} {id : Nat} {ok : Bool}
    (horderly : Orderly env Server.empty (before ++ during)) (hbefore : Server.empty.run env before = some s) (hnew : s.requests id = none)
    (hduring : s.run env during = some s₁) (hlast : s₁.requests id = some .truncateDelete) (hstep : s₁.step env (.advance id ok) = some s₂)
    (hresponse : s₂.responses = s₁.responses ++ [(id, true)]) :
    ∀ r, (r ∈ s₂.memory ∨ Logged s₂ r ∨ OnDisk s₂ r) → ReceivedAfter s.received s₂ r := by
  obtain ⟨ho1, ho2⟩ := orderly_append horderly hbefore
  have hinv := inv_run hsame inv_empty ho1 hbefore
  have ht := truncateInv_run hsame hinv (earlier := s.received) (id := id) ⟨⟨[], by simp⟩, by simp [hnew], by simp [hnew]⟩ ho2 hduring
  simp only [Server.step, hlast, Server.advance, Option.some.injEq] at hstep
  split at hstep
  · subst hstep
    rintro r (hr | hr | ⟨t, rows, hd, hr⟩)
    · exact ht.memory (Or.inr hlast) r hr
    · exact ht.log hlast r hr
    · simp only [Server.respond, Option.some.injEq, Prod.mk.injEq] at hd
      rw [← hd.2] at hr
      cases hr
  · subst hstep
    simp [Server.respond] at hresponse

/-- A table that is on disk but not registered. -/
structure StuckInv (s₀ s : Server) : Prop where
  registered : s.registered = none
  disk : s.disk.isSome
  requests : ∀ id p, s.requests id = some p → (s₀.requests id = some p ∧ Phase.Writes p) ∨ ∃ t, p = .createStore t
  responses : ∀ id, (id, true) ∈ s.responses → (id, true) ∈ s₀.responses ∨ ∃ t, s₀.requests id = some (.put t)

theorem stuck_respond {s₀ s : Server} (h : StuckInv s₀ s) {id : Nat} {ok : Bool} (hok : ok = true → ∃ t, s₀.requests id = some (.put t)) :
    StuckInv s₀ (s.respond id ok) := by
  refine ⟨h.registered, h.disk, ?_, ?_⟩
  · intro i p hp
    by_cases hi : i = id
    · subst hi; simp [Server.respond] at hp
    · exact h.requests i p (by simpa [Server.respond, Function.update_of_ne hi] using hp)
  · intro i hi
    simp only [Server.respond, List.mem_append, List.mem_singleton, Prod.mk.injEq] at hi
    rcases hi with hi | ⟨rfl, hi⟩
    · exact h.responses i hi
    · exact Or.inr (hok hi.symm)

theorem save_registered (env : Env) (s : Server) :
    (s.saveMemory env).1.registered = s.registered ∧ (s.saveMemory env).1.responses = s.responses ∧
    (s.disk.isSome → (s.saveMemory env).1.disk.isSome) := by
  unfold Server.saveMemory
  split
  · exact ⟨rfl, rfl, fun h => h⟩
  · split
    · exact ⟨rfl, rfl, fun h => h⟩
    · split <;> exact ⟨rfl, rfl, fun h => by simp_all⟩

theorem stuck_step {s₀ s s' : Server} {op : Op} (h : StuckInv s₀ s) (hstep : s.step env op = some s') : StuckInv s₀ s' := by
  obtain ⟨d, hd⟩ := Option.isSome_iff_exists.mp h.disk
  cases op with
  | start id request =>
    simp only [Server.step] at hstep
    split at hstep
    · cases hstep
      cases request <;> simp only [Server.start, h.registered, Option.isSome_none, Bool.false_eq_true, if_false]
      case create t =>
        refine ⟨h.registered, h.disk, ?_, h.responses⟩
        intro i p hp
        by_cases hi : i = id
        · subst hi
          simp only [Server.next, Function.update_self, Option.some.injEq] at hp
          exact Or.inr ⟨t, hp.symm⟩
        · exact h.requests i p (by simpa [Server.next, Function.update_of_ne hi] using hp)
      all_goals exact stuck_respond h (by simp)
    · cases hstep
  | batch id rows =>
    simp only [Server.step] at hstep
    split at hstep
    · cases hstep
      simp only [Server.insert]
      split
      · split
        · exact stuck_respond h (by simp)
        · exact ⟨h.registered, h.disk, h.requests, h.responses⟩
      · exact ⟨h.registered, h.disk, h.requests, h.responses⟩
    · cases hstep
  | finish id =>
    simp only [Server.step] at hstep
    split at hstep
    · rename_i t hreq
      cases hstep
      refine stuck_respond h fun _ => ?_
      rcases h.requests id _ hreq with ⟨h1, _⟩ | ⟨t', h1⟩
      · exact ⟨t, h1⟩
      · cases h1
    · cases hstep
  | advance id ok =>
    simp only [Server.step] at hstep
    split at hstep
    · cases hstep
    · rename_i phase hput hreq
      cases hstep
      rcases h.requests id phase hreq with ⟨_, h1⟩ | ⟨t, rfl⟩
      · cases phase <;> first | exact absurd rfl (hput _) | exact absurd h1 (by simp [Phase.Writes])
      · have : s.advance env id ok (.createStore t) = s.respond id false := by
          simp only [Server.advance, hd]
        rw [this]
        exact stuck_respond h (by simp)
    · cases hstep
  | save =>
    simp only [Server.step, Option.some.injEq] at hstep
    subst hstep
    obtain ⟨h1, h2, h3⟩ := save_registered env s
    exact ⟨by rw [h1]; exact h.registered, h3 h.disk, by rw [saveMemory_requests]; exact h.requests, by rw [h2]; exact h.responses⟩

theorem stuck_run {s₀ s s' : Server} {ops : List Op} (h : StuckInv s₀ s) (hrun : s.run env ops = some s') : StuckInv s₀ s' := by
  induction ops generalizing s with
  | nil => cases hrun; exact h
  | cons op ops ih =>
    simp only [Server.run, Option.bind_eq_some_iff] at hrun
    obtain ⟨s₁, h1, h2⟩ := hrun
    exact ih (stuck_step h h1) h2

/-- If a request to drop the table fails after the table was deregistered but before it was deleted, the name is of no use until the server is
restarted: whatever is requested, no table is registered and only requests to write rows that had started already succeed. -/
theorem C78_failed_drop (hsame : ∀ t, env.sameColumns t t = true) {ops after : List Op} {s s₁ s' : Server} {id : Nat}
    (horderly : Orderly env Server.empty ops) (hrun : Server.empty.run env ops = some s)
    (hlast : s.requests id = some .dropFlush ∨ s.requests id = some .dropLog) (hstep : s.step env (.advance id false) = some s₁)
    (hafter : s₁.run env after = some s') :
    s'.registered = none ∧ ∀ i, (i, true) ∈ s'.responses → (i, true) ∈ s₁.responses ∨ ∃ t, s₁.requests i = some (.put t) := by
  have hinv := inv_run hsame inv_empty horderly hrun
  have hothers : ∀ phase, s.requests id = some phase → ¬ Phase.Writes phase → ∀ i p, i ≠ id → s.requests i = some p → Phase.Writes p := by
    intro phase hp hw i p hi hq
    by_contra hn
    exact hi (hinv.one i id p phase hq hp hn hw)
  have hstuck : StuckInv s₁ s₁ := by
    rcases hlast with hlast | hlast
    · obtain ⟨hr, hd⟩ := hinv.during id _ hlast
      simp only [Server.step, hlast, Server.advance, Bool.false_and, Bool.false_eq_true, if_false, Option.some.injEq] at hstep
      obtain ⟨h1, h2, h3⟩ := save_registered env s
      subst hstep
      refine ⟨h1.trans hr, h3 hd, ?_, fun i hi => Or.inl hi⟩
      intro i p hp
      by_cases hi : i = id
      · subst hi; simp [Server.respond] at hp
      · refine Or.inl ⟨hp, hothers _ hlast (by simp [Phase.Writes]) i p hi ?_⟩
        simpa [Server.respond, Function.update_of_ne hi, saveMemory_requests] using hp
    · obtain ⟨hr, hd, _⟩ := hinv.during id _ hlast
      have he : s₁ = s.respond id false := by
        simp only [Server.step, hlast, Server.advance, Option.some.injEq] at hstep
        rw [← hstep]
        split <;> simp
      subst he
      refine ⟨hr, hd, ?_, fun i hi => Or.inl hi⟩
      intro i p hp
      by_cases hi : i = id
      · subst hi; simp [Server.respond] at hp
      · refine Or.inl ⟨hp, hothers _ hlast (by simp [Phase.Writes]) i p hi ?_⟩
        simpa [Server.respond, Function.update_of_ne hi] using hp
  have h := stuck_run hstuck hafter
  exact ⟨h.registered, h.responses⟩

/-- A write-ahead log is used and all tables have the same columns. -/
def loggedEnv : Env := ⟨true, fun _ _ => true⟩

/-- No write-ahead log is used and all tables have the same columns. -/
def unloggedEnv : Env := ⟨false, fun _ _ => true⟩

/-- What is left of the table and the responses. -/
structure TableView where
  registered : Option Nat
  disk : Option (Nat × List Row)
  log : Option (List Row)
  memory : List Row
  responses : List (Nat × Bool)
deriving DecidableEq

def viewAfter (env : Env) (ops : List Op) : Option TableView :=
  (Server.empty.run env ops).map fun s => ⟨s.registered, s.disk, s.log, s.memory, s.responses⟩

/-- The request with `id` creates the table. -/
def createOps (id table : Nat) : List Op := [.start id (.create table), .advance id true, .advance id true, .advance id true]

/-- The request with `id` drops the table. -/
def dropOps (id : Nat) : List Op := [.start id .drop, .advance id true, .advance id true, .advance id true, .advance id true]

/-- The property is false in general: the table is dropped and another is created with the same name while a client that has looked up the first
table sends rows. All requests succeed, and the rows that were sent to table 1 are saved in table 2. -/
theorem C78_rows_in_other_table :
    viewAfter loggedEnv (createOps 0 1 ++ [.start 1 .put] ++ dropOps 2 ++ createOps 3 2 ++ [.batch 1 [7], .finish 1, .save]) =
      some ⟨some 2, some (2, [⟨1, 7⟩]), some [], [], [(0, true), (2, true), (3, true), (1, true)]⟩ := by decide +kernel

/-- Without a write-ahead log, rows that are sent after the table was dropped are accepted and then lost. -/
theorem C78_rows_without_table :
    viewAfter unloggedEnv (createOps 0 1 ++ [.start 1 .put] ++ dropOps 2 ++ [.batch 1 [7], .finish 1, .save]) =
      some ⟨none, none, none, [], [(0, true), (2, true), (1, true)]⟩ := by decide +kernel

/-- If two requests drop the table at the same time, the second can delete the table that was created after the first: it is registered and has a
log but it is not on disk, although its creation succeeded and it was not dropped after. -/
theorem C78_created_table_deleted :
    viewAfter unloggedEnv (createOps 0 1 ++ [.start 1 .drop, .start 2 .drop, .advance 1 true, .advance 1 true, .advance 1 true, .advance 2 true,
        .advance 2 true, .advance 2 true, .advance 1 true] ++ createOps 3 2 ++ [.advance 2 true, .start 4 .put, .batch 4 [7], .finish 4, .save]) =
      some ⟨some 2, none, none, [], [(0, true), (1, true), (3, true), (2, true), (4, true)]⟩ := by decide +kernel

/-- If a table is dropped while it is created, the request to create it succeeds but the table is not registered, and the name cannot be used. -/
theorem C78_dropped_while_created :
    viewAfter loggedEnv ([.start 0 (.create 1), .advance 0 true, .advance 0 true, .start 1 .drop, .advance 1 true, .advance 1 true, .advance 1 true,
        .advance 0 true, .start 2 .put, .start 3 (.create 2), .advance 3 true, .start 4 .drop]) =
      some ⟨none, some (1, []), some [], [], [(1, false), (0, true), (2, false), (3, false), (4, false)]⟩ := by decide +kernel

/-- Rows that are sent while the table is truncated can be accepted and kept without being in the log, so they are lost if the server is
restarted without being stopped. -/
theorem C78_rows_not_logged :
    viewAfter loggedEnv (createOps 0 1 ++ [.start 1 .put, .start 2 .truncate, .advance 2 true, .batch 1 [7], .finish 1, .advance 2 true,
        .advance 2 true]) =
      some ⟨some 1, some (1, []), some [], [⟨1, 7⟩], [(0, true), (1, true), (2, true)]⟩ := by decide +kernel

/-- A table is created, rows are sent to it, and it is dropped and created again with further rows being sent to it. -/
def lifetimeOps : List Op :=
  createOps 0 1 ++ [.start 1 .put, .batch 1 [7], .save, .batch 1 [8]] ++ dropOps 2 ++ [.finish 1] ++ createOps 3 2 ++
    [.start 4 .put, .batch 4 [9]]

example : viewAfter loggedEnv lifetimeOps =
    some ⟨some 2, some (2, []), some [⟨2, 9⟩], [⟨2, 9⟩], [(0, true), (2, true), (1, true), (3, true)]⟩ := by decide +kernel

theorem orderly_cons {s s₁ : Server} {op : Op} {ops : List Op} (hstep : s.step env op = some s₁) (ha : Allowed s op) (h : Orderly env s₁ ops) :
    Orderly env s (op :: ops) := by
  refine ⟨ha, fun s' h' => ?_⟩
  rw [hstep] at h'
  cases h'
  exact h

theorem lifetime_orderly : Orderly loggedEnv Server.empty lifetimeOps := by
  simp only [lifetimeOps, createOps, dropOps, List.cons_append, List.nil_append]
  simp [Orderly, Allowed, Unchanging, Server.step, Server.start, Server.empty, Server.next, Server.respond, Server.advance, Server.insert,
    Server.saveMemory, loggedEnv, Function.update_apply, Phase.Writes]
  exact fun id phase h _ h' => absurd h' h

/-- The state after some operations and a request that is processed. -/
theorem state_with {env : Env} {ops : List Op} {id : Nat} {p : Option Phase} (h : (Server.empty.run env ops).map (fun s => s.requests id) = some p) :
    ∃ s, Server.empty.run env ops = some s ∧ s.requests id = p := by
  simpa [Option.map_eq_some_iff] using h

/-- The hypotheses of `C78_rows_partial` are met by these requests, and there are rows in memory and in the log. -/
example : ∃ s, Server.empty.run loggedEnv lifetimeOps = some s ∧ s.memory = [⟨2, 9⟩] ∧ ∀ r ∈ s.memory, ∃ rows, s.disk = some (r.table, rows) := by
  obtain ⟨s, hs, _⟩ := state_with (env := loggedEnv) (ops := lifetimeOps) (id := 4) (p := some (.put 2)) (by decide +kernel)
  refine ⟨s, hs, ?_, (C78_rows_partial (fun _ => rfl) lifetime_orderly hs).2.1⟩
  have : (Server.empty.run loggedEnv lifetimeOps).map (·.memory) = some [⟨2, 9⟩] := by decide +kernel
  simpa [hs] using this

/-- A request to drop the table that is processed while another writes rows: the hypotheses of `C78_dropped_partial` are met. -/
example : ∃ s s', Server.empty.run loggedEnv (lifetimeOps.take 12) = some s ∧ s.step loggedEnv (.advance 2 true) = some s' ∧
    s'.registered = none ∧ s'.disk = none ∧ s'.log = none ∧ s'.memory = [] := by
  have ho := (orderly_append (before := lifetimeOps.take 12) (after := lifetimeOps.drop 12) (by rw [List.take_append_drop]; exact lifetime_orderly)
    (state_with (env := loggedEnv) (id := 2) (p := some .dropDelete) (by decide +kernel)).choose_spec.1).1
  obtain ⟨s, hs, hp⟩ := state_with (env := loggedEnv) (ops := lifetimeOps.take 12) (id := 2) (p := some .dropDelete) (by decide +kernel)
  have hd : (Server.empty.run loggedEnv (lifetimeOps.take 12)).map (fun s => s.disk.isSome) = some true := by decide +kernel
  rw [hs] at hd
  obtain ⟨d, hd⟩ := Option.isSome_iff_exists.mp (Option.some.inj hd)
  have hstep : s.step loggedEnv (.advance 2 true) = some ({ s with disk := none }.respond 2 true) := by
    simp [Server.step, hp, Server.advance, hd]
  exact ⟨s, _, hs, hstep, C78_dropped_partial (fun _ => rfl) ho hs hp hstep rfl⟩

/-- Rows that are sent before and after a save: the hypotheses of `C78_not_lost_partial` and `C78_logged_partial` are met. -/
def writeOps : List Op := createOps 0 1 ++ [.start 1 .put, .batch 1 [7], .save, .batch 1 [8], .finish 1]

theorem write_orderly : Orderly loggedEnv Server.empty writeOps := by
  simp only [writeOps, createOps, List.cons_append, List.nil_append]
  simp [Orderly, Allowed, Unchanging, Server.step, Server.start, Server.empty, Server.next, Server.respond, Server.advance, Server.insert,
    Server.saveMemory, loggedEnv]

theorem write_sent : SentWhenNotRemoving loggedEnv Server.empty writeOps := by
  simp only [writeOps, createOps, List.cons_append, List.nil_append]
  simp [SentWhenNotRemoving, NotRemoving, Server.step, Server.start, Server.empty, Server.next, Server.respond, Server.advance, Server.insert,
    Server.saveMemory, loggedEnv, Function.update_apply, Phase.Removes]

example : ∃ s, Server.empty.run loggedEnv writeOps = some s ∧ s.memory = [⟨1, 8⟩] ∧ ∀ r ∈ s.memory, Logged s r := by
  obtain ⟨s, hs, _⟩ := state_with (env := loggedEnv) (ops := writeOps) (id := 1) (p := none) (by decide +kernel)
  refine ⟨s, hs, ?_, C78_logged_partial (fun _ => rfl) rfl write_orderly write_sent hs⟩
  have : (Server.empty.run loggedEnv writeOps).map (·.memory) = some [⟨1, 8⟩] := by decide +kernel
  simpa [hs] using this

/-- The state of the server with table 1 and a request to write to it. -/
def writing : Server :=
  { Server.empty with registered := some 1, disk := some (1, []), log := some [],
                      requests := Function.update (Function.update (Function.update (Function.update (Function.update (fun _ => none) 0
                        (some (.createStore 1))) 0 (some (.createRegister 1))) 0 (some (.createLog 1))) 0 none) 1 (some (.put 1)),
                      responses := [(0, true)] }

example : ∃ s', writing.run loggedEnv [.batch 1 [7], .save, .batch 1 [8], .finish 1] = some s' ∧ Held s' ⟨1, 7⟩ := by
  have hbefore : Server.empty.run loggedEnv (createOps 0 1 ++ [.start 1 .put]) = some writing := by rfl
  have hnot : NotRemoving writing := by
    intro id p hp
    simp only [writing, Function.update_apply] at hp
    split at hp
    · cases hp; simp [Phase.Removes]
    · split at hp <;> cases hp
  obtain ⟨s', hs', _⟩ : ∃ s', (writing.insert loggedEnv 1 1 [7]).run loggedEnv [.save, .batch 1 [8], .finish 1] = some s' ∧ s'.requests 1 = none := by
    refine ⟨_, rfl, ?_⟩
    decide +kernel
  obtain ⟨t, ht, hheld⟩ := C78_not_lost_partial (env := loggedEnv) (before := createOps 0 1 ++ [Op.start 1 Request.put]) (id := 1) (rows := [7])
    (after := [.save, .batch 1 [8], .finish 1]) (s := writing) (s₁ := writing.insert loggedEnv 1 1 [7]) (s' := s') (fun _ => rfl)
    write_orderly hbefore rfl (by decide +kernel) hs' hnot (by simp [Op.Removes])
  refine ⟨s', hs', ?_⟩
  cases ht
  exact hheld 7 (by simp)

/-- A table is truncated while rows are sent to it: the hypotheses of `C78_truncated_partial` are met. -/
def truncateOps : List Op :=
  createOps 0 1 ++ [.start 1 .put, .batch 1 [7]] ++ [.start 2 .truncate, .advance 2 true, .batch 1 [8], .save, .batch 1 [9], .advance 2 true]

theorem truncate_orderly : Orderly loggedEnv Server.empty truncateOps := by
  simp only [truncateOps, createOps, List.cons_append, List.nil_append]
  simp [Orderly, Allowed, Unchanging, Server.step, Server.start, Server.empty, Server.next, Server.respond, Server.advance, Server.insert,
    Server.saveMemory, loggedEnv, Function.update_apply, Phase.Writes]

example : ∃ s s₁ s₂, Server.empty.run loggedEnv (truncateOps.take 6) = some s ∧ s.run loggedEnv (truncateOps.drop 6) = some s₁ ∧
    s₁.step loggedEnv (.advance 2 true) = some s₂ ∧ s₂.memory = [⟨1, 9⟩] ∧
    ∀ r, (r ∈ s₂.memory ∨ Logged s₂ r ∨ OnDisk s₂ r) → ReceivedAfter s.received s₂ r := by
  refine ⟨_, _, _, rfl, rfl, rfl, rfl, ?_⟩
  exact C78_truncated_partial (env := loggedEnv) (before := truncateOps.take 6) (during := truncateOps.drop 6) (id := 2) (ok := true) (fun _ => rfl)
    (by rw [List.take_append_drop]; exact truncate_orderly) rfl rfl rfl rfl rfl rfl

/-- A request to drop the table fails as its data cannot be saved: the hypotheses of `C78_failed_drop` are met. A client that was writing to the
table succeeds, and the name can neither be used for a new table nor dropped. -/
example : viewAfter loggedEnv (lifetimeOps.take 10 ++ [.advance 2 false, .finish 1, .start 3 (.create 2), .advance 3 true, .start 4 .put,
      .start 5 .drop, .start 6 .truncate]) =
    some ⟨none, some (1, [⟨1, 7⟩, ⟨1, 8⟩]), some [], [], [(0, true), (2, false), (1, true), (3, false), (4, false), (5, false), (6, false)]⟩ := by
  decide +kernel

example : ∃ s s₁, Server.empty.run loggedEnv (lifetimeOps.take 10) = some s ∧ s.step loggedEnv (.advance 2 false) = some s₁ ∧
    ∀ after s', s₁.run loggedEnv after = some s' → s'.registered = none := by
  refine ⟨_, _, rfl, rfl, fun after s' h => ?_⟩
  exact (C78_failed_drop (env := loggedEnv) (ops := lifetimeOps.take 10) (id := 2) (fun _ => rfl)
    (orderly_append (after := lifetimeOps.drop 10) (by rw [List.take_append_drop]; exact lifetime_orderly) rfl).1 rfl (Or.inl rfl) rfl h).1

end ModelarDB.Props
