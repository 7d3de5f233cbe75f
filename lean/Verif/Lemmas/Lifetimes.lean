import Verif.Spec.Lifetimes
/-
Lemmas on requests that use a table at the same time, for C78.
-/
namespace ModelarDB.Lemmas.Lifetimes
open Model.Lifetimes Spec.Lifetimes

variable {env : Env}

/-- What holds for the table if requests are orderly. -/
structure Core (env : Env) (s : Server) : Prop where
  disk : ∀ t rows, s.disk = some (t, rows) → ∀ r ∈ rows, r.table = t
  memory : ∀ r ∈ s.memory, ∃ rows, s.disk = some (r.table, rows)
  log : ∀ l, s.log = some l → ∀ r ∈ l, ∃ rows, s.disk = some (r.table, rows)
  registered : ∀ t, s.registered = some t → ∃ rows, s.disk = some (t, rows)
  noLog : env.wal = false → s.log = none

/-- What holds while a request is processed. -/
def During (s : Server) : Phase → Prop
  | .put _ => True
  | .createStore _ => s.registered = none
  | .createRegister t => s.registered = none ∧ ∃ rows, s.disk = some (t, rows)
  | .createLog t => s.registered = some t
  | .dropDeregister => s.disk.isSome
  | .dropFlush => s.registered = none ∧ s.disk.isSome
  | .dropLog => s.registered = none ∧ s.disk.isSome ∧ s.memory = []
  | .dropDelete => s.registered = none ∧ s.memory = [] ∧ s.log = none
  | .truncateFlush | .truncateLog | .truncateDelete => s.registered.isSome

structure Inv (env : Env) (s : Server) : Prop where
  core : Core env s
  during : ∀ id p, s.requests id = some p → During s p
  one : ∀ i j p q, s.requests i = some p → s.requests j = some q → ¬ Phase.Writes p → ¬ Phase.Writes q → i = j

theorem inv_empty : Inv env Server.empty where
  core := by constructor <;> simp [Server.empty]
  during := by simp [Server.empty]
  one := by simp [Server.empty]

/-- The effect of a save. -/
theorem saveMemory_cases (hsame : ∀ t, env.sameColumns t t = true) {s : Server} (h : Core env s) :
    (s.memory = [] ∧ s.saveMemory env = (s, true)) ∨
    ∃ t rows, s.disk = some (t, rows) ∧ (∀ r ∈ s.memory, r.table = t) ∧ s.saveMemory env =
      ({ s with memory := [], disk := some (t, rows ++ s.memory), log := s.log.map fun l => l.filter fun r => r ∉ s.memory },
        !env.wal || s.log.isSome) := by
  cases hm : s.memory with
  | nil => exact Or.inl ⟨rfl, by simp [Server.saveMemory, hm]⟩
  | cons r rs =>
    refine Or.inr ?_
    obtain ⟨rows, hd⟩ := h.memory r (by simp [hm])
    have hall : ∀ r' ∈ s.memory, r'.table = r.table := by
      intro r' hr'
      obtain ⟨rows', hd'⟩ := h.memory r' hr'
      rw [hd] at hd'
      simp only [Option.some.injEq, Prod.mk.injEq] at hd'
      exact hd'.1.symm
    refine ⟨r.table, rows, hd, by rw [← hm]; exact hall, ?_⟩
    unfold Server.saveMemory
    have hall' : (s.memory.all fun r' => env.sameColumns r'.table r.table) = true := by
      rw [List.all_eq_true]
      intro r' hr'
      rw [hall r' hr']
      exact hsame _
    rw [if_neg (by simp [hm]), hd]
    rw [hm] at hall'
    simp only [hm, hall', if_true]

theorem core_save (hsame : ∀ t, env.sameColumns t t = true) {s : Server} (h : Core env s) : Core env (s.saveMemory env).1 := by
  rcases saveMemory_cases hsame h with ⟨_, he⟩ | ⟨t, rows, hd, hall, he⟩
  · rw [he]; exact h
  · rw [he]
    refine ⟨?_, by simp, ?_, ?_, ?_⟩
    · intro t' rows' heq r hr
      simp only [Option.some.injEq, Prod.mk.injEq] at heq
      obtain ⟨rfl, rfl⟩ := heq
      rcases List.mem_append.mp hr with hr | hr
      · exact h.disk _ _ hd r hr
      · exact hall r hr
    · intro l hl r hr
      simp only [Option.map_eq_some_iff] at hl
      obtain ⟨l', hl', rfl⟩ := hl
      obtain ⟨rows', hd'⟩ := h.log l' hl' r (List.mem_filter.mp hr).1
      rw [hd] at hd'
      simp only [Option.some.injEq, Prod.mk.injEq] at hd'
      exact ⟨_, by rw [hd'.1]⟩
    · intro t' ht'
      obtain ⟨rows', hd'⟩ := h.registered t' ht'
      rw [hd] at hd'
      simp only [Option.some.injEq, Prod.mk.injEq] at hd'
      exact ⟨_, by rw [hd'.1]⟩
    · intro hw
      simp [h.noLog hw]

theorem save_same (hsame : ∀ t, env.sameColumns t t = true) {s : Server} (h : Core env s) :
    (s.saveMemory env).1.registered = s.registered ∧ (s.saveMemory env).1.requests = s.requests ∧
      (s.saveMemory env).1.memory = [] ∧ (s.saveMemory env).1.received = s.received ∧ (s.saveMemory env).1.responses = s.responses ∧
      ((s.saveMemory env).1.disk.map Prod.fst = s.disk.map Prod.fst) ∧ (s.log = none → (s.saveMemory env).1.log = none) := by
  rcases saveMemory_cases hsame h with ⟨hm, he⟩ | ⟨t, rows, hd, _, he⟩
  · rw [he]; simp [hm]
  · rw [he]; simp +contextual [hd]

theorem isSome_of_map {α β : Type} {f : α → β} {a b : Option α} (h : a.map f = b.map f) : a.isSome = b.isSome := by
  cases a <;> cases b <;> simp_all

theorem map_fst_some {α β : Type} {a b : Option (α × β)} (h : a.map Prod.fst = b.map Prod.fst) {t : α} (hb : ∃ y, b = some (t, y)) :
    ∃ y, a = some (t, y) := by
  obtain ⟨y, rfl⟩ := hb
  cases a with
  | none => simp at h
  | some p =>
    simp at h
    exact ⟨p.2, by rw [← h]⟩

theorem during_save (hsame : ∀ t, env.sameColumns t t = true) {s : Server} (h : Core env s) {p : Phase} (hp : During s p) :
    During (s.saveMemory env).1 p := by
  obtain ⟨h1, _, h3, _, _, h6, h7⟩ := save_same hsame h
  cases p <;> simp only [During, h1, h3, and_true, true_and] at hp ⊢
  case createStore => exact hp
  case createRegister => exact ⟨hp.1, map_fst_some h6 hp.2⟩
  case createLog => exact hp
  case dropDeregister => rw [isSome_of_map h6]; exact hp
  case dropFlush => rw [isSome_of_map h6]; exact hp
  case dropLog => rw [isSome_of_map h6]; exact ⟨hp.1, hp.2.1⟩
  case dropDelete => exact ⟨hp.1, h7 hp.2.2⟩
  all_goals exact hp

theorem inv_save (hsame : ∀ t, env.sameColumns t t = true) {s : Server} (h : Inv env s) : Inv env (s.saveMemory env).1 := by
  have h2 := (save_same hsame h.core).2.1
  refine ⟨core_save hsame h.core, ?_, ?_⟩
  · intro id p hp
    rw [h2] at hp
    exact during_save hsame h.core (h.during id p hp)
  · rw [h2]
    exact h.one

/-- Responding to a request keeps what holds. -/
theorem inv_respond {s : Server} (id : Nat) (ok : Bool) (hc : Core env s) (hd : ∀ i p, i ≠ id → s.requests i = some p → During s p)
    (ho : ∀ i j p q, s.requests i = some p → s.requests j = some q → ¬ Phase.Writes p → ¬ Phase.Writes q → i = j) :
    Inv env (s.respond id ok) := by
  refine ⟨⟨hc.disk, hc.memory, hc.log, hc.registered, hc.noLog⟩, ?_, ?_⟩
  · intro i p hp
    simp only [Server.respond] at hp
    by_cases hi : i = id
    · subst hi; simp at hp
    · rw [Function.update_of_ne hi] at hp
      have := hd i p hi hp
      cases p <;> exact this
  · intro i j p q hp hq hwp hwq
    simp only [Server.respond] at hp hq
    by_cases hi : i = id
    · subst hi; simp at hp
    · by_cases hj : j = id
      · subst hj; simp at hq
      · rw [Function.update_of_ne hi] at hp
        rw [Function.update_of_ne hj] at hq
        exact ho i j p q hp hq hwp hwq

/-- Continuing with a request keeps what holds. -/
theorem inv_next {s : Server} (id : Nat) (phase : Phase) (hc : Core env s) (hd : ∀ i p, i ≠ id → s.requests i = some p → During s p)
    (hphase : During s phase)
    (ho : ∀ i j p q, s.requests i = some p → s.requests j = some q → ¬ Phase.Writes p → ¬ Phase.Writes q → i = j)
    (hother : ¬ Phase.Writes phase → ∀ i p, i ≠ id → s.requests i = some p → Phase.Writes p) : Inv env (s.next id phase) := by
  have hphase' : During (s.next id phase) phase := by cases phase <;> exact hphase
  refine ⟨⟨hc.disk, hc.memory, hc.log, hc.registered, hc.noLog⟩, ?_, ?_⟩
  · intro i p hp
    simp only [Server.next] at hp
    by_cases hi : i = id
    · subst hi
      simp only [Function.update_self, Option.some.injEq] at hp
      subst hp
      exact hphase'
    · rw [Function.update_of_ne hi] at hp
      have := hd i p hi hp
      cases p <;> exact this
  · intro i j p q hp hq hwp hwq
    simp only [Server.next] at hp hq
    by_cases hi : i = id
    · by_cases hj : j = id
      · rw [hi, hj]
      · rw [Function.update_of_ne hj] at hq
        subst hi
        simp only [Function.update_self, Option.some.injEq] at hp
        subst hp
        exact absurd (hother hwp j q hj hq) hwq
    · by_cases hj : j = id
      · rw [Function.update_of_ne hi] at hp
        subst hj
        simp only [Function.update_self, Option.some.injEq] at hq
        subst hq
        exact absurd (hother hwq i p hi hp) hwp
      · rw [Function.update_of_ne hi] at hp
        rw [Function.update_of_ne hj] at hq
        exact ho i j p q hp hq hwp hwq

/-- Writes do not depend on the table. -/
theorem during_writes {s : Server} {p : Phase} (h : Phase.Writes p) : During s p := by
  cases p <;> trivial

theorem inv_advance (hsame : ∀ t, env.sameColumns t t = true) {s : Server} (h : Inv env s) {id : Nat} {ok : Bool} {phase : Phase}
    (hreq : s.requests id = some phase) (hw : ¬ Phase.Writes phase) : Inv env (s.advance env id ok phase) := by
  have hother : ∀ i p, i ≠ id → s.requests i = some p → Phase.Writes p := by
    intro i p hi hp
    by_contra hn
    exact hi (h.one i id p phase hp hreq hn hw)
  have hp := h.during id phase hreq
  have hfail : Inv env (s.respond id false) := inv_respond id false h.core (fun i p _ hp => h.during i p hp) h.one
  have hdo : ∀ s' : Server, ∀ i p, i ≠ id → s.requests i = some p → During s' p := fun s' i p hi hp => during_writes (hother i p hi hp)
  have hc := h.core
  cases phase with
  | put t => exact absurd trivial hw
  | createStore t =>
    simp only [Server.advance]
    split
    · rename_i hdisk
      refine inv_next id _ ⟨?_, ?_, ?_, ?_, hc.noLog⟩ (hdo _) ⟨hp, [], rfl⟩ h.one fun _ => hother
      · intro t' rows heq
        simp only [Option.some.injEq, Prod.mk.injEq] at heq
        obtain ⟨_, rfl⟩ := heq
        simp
      · intro r hr
        obtain ⟨rows, hd⟩ := hc.memory r hr
        rw [hdisk] at hd
        cases hd
      · intro l hl r hr
        obtain ⟨rows, hd⟩ := hc.log l hl r hr
        rw [hdisk] at hd
        cases hd
      · intro t' ht'
        exact absurd (hp.symm.trans ht') (by simp)
    · exact hfail
  | createRegister t =>
    simp only [Server.advance]
    split
    · refine inv_next id _ ⟨hc.disk, hc.memory, hc.log, ?_, hc.noLog⟩ (hdo _) rfl h.one fun _ => hother
      intro t' ht'
      cases ht'
      exact hp.2
    · exact hfail
  | createLog t =>
    simp only [Server.advance]
    split
    · rename_i hwal
      split
      · refine inv_respond id true ⟨hc.disk, hc.memory, ?_, hc.registered, by simp [hwal]⟩ (hdo _) h.one
        intro l hl
        cases hl
        simp
      · exact hfail
    · exact inv_respond id true hc (hdo _) h.one
  | dropDeregister =>
    simp only [Server.advance]
    split
    · exact inv_next id _ ⟨hc.disk, hc.memory, hc.log, by simp, hc.noLog⟩ (hdo _) ⟨rfl, hp⟩ h.one fun _ => hother
    · exact hfail
  | dropFlush =>
    simp only [Server.advance]
    have hs := inv_save hsame h
    obtain ⟨h1, h2, h3, _, _, h6, _⟩ := save_same hsame h.core
    split
    · refine inv_next id _ hs.core (fun i p _ hp => hs.during i p hp) ?_ hs.one fun _ => by rw [h2]; exact hother
      exact ⟨h1.trans hp.1, by rw [isSome_of_map h6]; exact hp.2, h3⟩
    · exact inv_respond id false hs.core (fun i p _ hp => hs.during i p hp) hs.one
  | dropLog =>
    simp only [Server.advance]
    split
    · rename_i hwal
      simp only [Bool.and_eq_true] at hwal
      split
      · exact inv_next id _ ⟨hc.disk, hc.memory, by simp, hc.registered, fun _ => rfl⟩ (hdo _) ⟨hp.1, hp.2.2, rfl⟩ h.one fun _ => hother
      · exact hfail
    · rename_i hwal
      simp only [hp.2.1, Bool.true_and, Bool.not_eq_true] at hwal
      split
      · exact inv_next id _ hc (hdo _) ⟨hp.1, hp.2.2, hc.noLog hwal⟩ h.one fun _ => hother
      · exact hfail
  | dropDelete =>
    simp only [Server.advance]
    split
    · refine inv_respond id true ⟨by simp, ?_, ?_, ?_, hc.noLog⟩ (hdo _) h.one
      · intro r hr
        simp only [hp.2.1, List.not_mem_nil] at hr
      · intro l hl
        exact absurd (hp.2.2.symm.trans hl) (by simp)
      · intro t ht
        exact absurd (hp.1.symm.trans ht) (by simp)
    · exact hfail
  | truncateFlush =>
    simp only [Server.advance]
    have hs := inv_save hsame h
    obtain ⟨h1, h2, _, _, _, _, _⟩ := save_same hsame h.core
    split
    · refine inv_next id _ hs.core (fun i p _ hp => hs.during i p hp) ?_ hs.one fun _ => by rw [h2]; exact hother
      show (s.saveMemory env).1.registered.isSome
      rw [h1]
      exact hp
    · exact inv_respond id false hs.core (fun i p _ hp => hs.during i p hp) hs.one
  | truncateLog =>
    simp only [Server.advance]
    split
    · rename_i hwal
      simp only [Bool.and_eq_true] at hwal
      split
      · refine inv_next id _ ⟨hc.disk, hc.memory, ?_, hc.registered, by simp [hwal.2]⟩ (hdo _) hp h.one fun _ => hother
        intro l hl
        cases hl
        simp
      · exact hfail
    · split
      · exact inv_next id _ hc (hdo _) hp h.one fun _ => hother
      · exact hfail
  | truncateDelete =>
    simp only [Server.advance]
    split
    · rename_i t rows hdisk
      have hback : ∀ t', (∃ rows', s.disk = some (t', rows')) → ∃ rows', some (t, ([] : List Row)) = some (t', rows') := by
        rintro t' ⟨rows', hd'⟩
        rw [hdisk] at hd'
        simp only [Option.some.injEq, Prod.mk.injEq] at hd'
        exact ⟨[], by rw [hd'.1]⟩
      refine inv_respond id true ⟨?_, fun r hr => hback _ (hc.memory r hr), fun l hl r hr => hback _ (hc.log l hl r hr),
        fun t' ht' => hback _ (hc.registered t' ht'), hc.noLog⟩ (hdo _) h.one
      intro t' rows' heq
      simp only [Option.some.injEq, Prod.mk.injEq] at heq
      obtain ⟨_, rfl⟩ := heq
      simp
    · exact hfail

theorem inv_step (hsame : ∀ t, env.sameColumns t t = true) {s s' : Server} (h : Inv env s) {op : Op} (ha : Allowed s op)
    (hstep : s.step env op = some s') : Inv env s' := by
  have hrespond : ∀ id ok, Inv env (s.respond id ok) := fun id ok => inv_respond id ok h.core (fun i p _ hp => h.during i p hp) h.one
  cases op with
  | start id request =>
    simp only [Server.step] at hstep
    split at hstep
    · cases hstep
      have hnext : ∀ phase, During s phase → (¬ Phase.Writes phase → Unchanging s) → Inv env (s.next id phase) := fun phase hp hu =>
        inv_next id phase h.core (fun i p _ hp => h.during i p hp) hp h.one fun hw i p _ hp => hu hw i p hp
      cases request with
      | put =>
        simp only [Server.start]
        split
        · exact hnext _ trivial fun hw => absurd trivial hw
        · exact hrespond _ _
      | create t =>
        simp only [Server.start]
        split
        · exact hrespond _ _
        · rename_i hr
          exact hnext _ (by simpa [During] using hr) fun _ => ha
      | drop =>
        simp only [Server.start]
        split
        · rename_i hr
          refine hnext _ ?_ fun _ => ha
          obtain ⟨t, ht⟩ := Option.isSome_iff_exists.mp hr
          obtain ⟨rows, hd⟩ := h.core.registered t ht
          simp [During, hd]
        · exact hrespond _ _
      | truncate =>
        simp only [Server.start]
        split
        · rename_i hr
          exact hnext _ hr fun _ => ha
        · exact hrespond _ _
    · cases hstep
  | batch id rows =>
    simp only [Server.step] at hstep
    split at hstep
    · rename_i t hreq
      cases hstep
      have hreg := ha t hreq
      obtain ⟨saved, hd⟩ := h.core.registered t hreg
      have hc := h.core
      have hnew : ∀ r ∈ rows.map (Row.mk t), ∃ saved', s.disk = some (r.table, saved') := by
        intro r hr
        obtain ⟨n, _, rfl⟩ := List.mem_map.mp hr
        exact ⟨saved, hd⟩
      have hduring : ∀ (log : Option (List Row)), ∀ id p, s.requests id = some p → During { s with
          log := log, memory := s.memory ++ rows.map (Row.mk t), received := s.received ++ rows.map (Row.mk t) } p := by
        intro log id p hp
        have := h.during id p hp
        cases p <;> simp only [During, hreg, reduceCtorEq, false_and] at this ⊢ <;> exact this
      simp only [Server.insert]
      split
      · rename_i hwal
        split
        · exact hrespond _ _
        · rename_i log hlog
          refine ⟨⟨hc.disk, ?_, ?_, hc.registered, by simp [hwal]⟩, hduring _, h.one⟩
          · intro r hr
            rcases List.mem_append.mp hr with hr | hr
            · exact hc.memory r hr
            · exact hnew r hr
          · intro l hl r hr
            cases hl
            rcases List.mem_append.mp hr with hr | hr
            · exact hc.log _ hlog r hr
            · exact hnew r hr
      · refine ⟨⟨hc.disk, ?_, hc.log, hc.registered, hc.noLog⟩, hduring _, h.one⟩
        intro r hr
        rcases List.mem_append.mp hr with hr | hr
        · exact hc.memory r hr
        · exact hnew r hr
    · cases hstep
  | finish id =>
    simp only [Server.step] at hstep
    split at hstep
    · cases hstep
      exact hrespond _ _
    · cases hstep
  | advance id ok =>
    simp only [Server.step] at hstep
    split at hstep
    · cases hstep
    · rename_i phase hput hreq
      cases hstep
      refine inv_advance hsame h hreq ?_
      intro hw
      cases phase <;> first | exact hput _ rfl | exact hw
    · cases hstep
  | save =>
    simp only [Server.step, Option.some.injEq] at hstep
    subst hstep
    exact inv_save hsame h

theorem inv_run (hsame : ∀ t, env.sameColumns t t = true) {ops : List Op} {s s' : Server} (h : Inv env s) (ho : Orderly env s ops)
    (hrun : s.run env ops = some s') : Inv env s' := by
  induction ops generalizing s with
  | nil => cases hrun; exact h
  | cons op ops ih =>
    simp only [Server.run, Option.bind_eq_some_iff] at hrun
    obtain ⟨s₁, h1, h2⟩ := hrun
    exact ih (inv_step hsame h ho.1 h1) (ho.2 s₁ h1) h2

end ModelarDB.Lemmas.Lifetimes
