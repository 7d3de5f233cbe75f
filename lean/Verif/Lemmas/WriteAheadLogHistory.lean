import Verif.Lemmas.WriteAheadLogInv
/-
How the history of a write-ahead log grows, and a notation for concrete histories.
-/
namespace ModelarDB.Lemmas.Wal
open Model.Wal Spec.Wal

variable {β : Type}

/-- What a step does to the history. -/
theorem step_history {cfg : Config} {op : Op} {w w' : World β} (h : Step cfg op w w') :
    ∃ new, w'.history = w.history ++ new ∧ w'.live.Sublist (w.live ++ new) ∧
      (op ≠ .truncate → op ≠ .truncateCrash → w'.live = w.live ++ new) := by
  cases h with
  | append => exact ⟨_, rfl, List.Sublist.refl _, fun _ _ => rfl⟩
  | appendCrash => exact ⟨_, rfl, List.Sublist.refl _, fun _ _ => rfl⟩
  | truncate => exact ⟨[], by simp, by simp, fun h => absurd rfl h⟩
  | truncateCrash => exact ⟨[], by simp, by simp, fun _ h => absurd rfl h⟩
  | _ => exact ⟨[], by simp, by simp, fun _ _ => by simp⟩

theorem steps_history {cfg : Config} {ops : List Op} {w w' : World β} (h : Steps cfg ops w w') :
    ∃ new, w'.history = w.history ++ new ∧ w'.live.Sublist (w.live ++ new) ∧
      (.truncate ∉ ops → .truncateCrash ∉ ops → w'.live = w.live ++ new) := by
  induction h with
  | refl => exact ⟨[], by simp, by simp, fun _ _ => by simp⟩
  | @tail ops op _ w₂ w₃ _ hs ih =>
    obtain ⟨n1, h1, h2, h3⟩ := ih
    obtain ⟨n2, h4, h5, h6⟩ := step_history hs
    refine ⟨n1 ++ n2, by rw [h4, h1, List.append_assoc], ?_, ?_⟩
    · rw [← List.append_assoc]
      exact h5.trans (h2.append (List.Sublist.refl _))
    · intro ht1 ht2
      simp only [List.mem_append, List.mem_singleton, not_or] at ht1 ht2
      rw [h6 (fun e => ht1.2 e.symm) (fun e => ht2.2 e.symm), h3 ht1.1 ht2.1, List.append_assoc]

theorem Steps.reachable {cfg : Config} {ops : List Op} {w w' : World β} (h : Reachable cfg w) (hs : Steps cfg ops w w') :
    Reachable cfg w' := by
  induction hs with
  | refl => exact h
  | tail _ hs ih =>
    obtain ⟨o, ho⟩ := ih h
    exact ⟨_, ho.tail hs⟩

/-- Concrete histories, for examples and witnesses. `crashAt k` is a crash that leaves the folder number `k`
of those that a restart can leave. -/
inductive Cmd (β : Type) where
  | restart (threshold : Nat)
  | append (b : β) (size : Nat)
  | appendFails (b : β)
  | commitMark (n : Nat)
  | crash
  | restartCrash (threshold k : Nat)
  | truncate

/-- The history after a command. -/
def exec (w : World β) : Cmd β → Option (World β)
  | .restart threshold =>
    match w.log, (restart threshold w.disk w.commits).result with
    | none, some (log', d') => some { w with disk := d', log := some log' }
    | _, _ => none
  | .append b size =>
    match w.log with
    | none => none
    | some log =>
      match (appendAndSync log w.disk b size).result with
      | none => none
      | some ((id, log'), d') => some { w with
          disk := d', log := some log', live := w.live ++ [⟨id, b, true⟩], history := w.history ++ [⟨id, b, true⟩] }
  | .appendFails b =>
    match w.log with
    | none => none
    | some log =>
      match writeBatch log w.disk b with
      | none => none
      | some d' => some { w with disk := d' }
  | .commitMark n =>
    match w.log, w.history[n]? with
    | some log, some e =>
      match (markBatchesAsPersisted log w.disk [e.id]).result with
      | none => none
      | some (log', d') =>
        some { w with disk := d', log := some log', commits := w.commits ++ [e.id], saved := w.saved ++ [e] }
    | _, _ => none
  | .crash => some { w with log := none }
  | .restartCrash threshold k =>
    match w.log, (restart threshold w.disk w.commits).crashes[k]? with
    | none, some d' => some { w with disk := d' }
    | _, _ => none
  | .truncate =>
    match w.log with
    | none => none
    | some log =>
      match (Model.Wal.truncate log w.disk).result with
      | none => none
      | some (log', d') => some { w with disk := d', log := some log', live := [] }

/-- `Orderly` can be computed. -/
def orderly (log : Log) (persisted : List Nat) : Bool :=
  log.closed.all fun s => log.closed.all fun t =>
    decide (s.1 < t.1 → isFullyPersisted persisted t = true → isFullyPersisted persisted s = true)

theorem orderly_iff {log : Log} {persisted : List Nat} : orderly log persisted = true ↔ Orderly log persisted := by
  simp only [orderly, Orderly, List.all_eq_true, decide_eq_true_eq]

/-- What a restart needs. -/
def restartAllowed (cfg : Config) (w : World β) (threshold : Nat) : Bool :=
  cfg.outOfOrder || match (tryNew threshold w.disk).result with
    | none => true
    | some (log, _) => orderly log w.commits

theorem restartAllowed_iff {cfg : Config} {w : World β} {threshold : Nat} (h : restartAllowed cfg w threshold = true) :
    cfg.outOfOrder = true ∨ ∀ log d, (tryNew threshold w.disk).result = some (log, d) → Orderly log w.commits := by
  unfold restartAllowed at h
  rw [Bool.or_eq_true] at h
  refine h.imp id fun h log d hr => ?_
  rw [hr] at h
  exact orderly_iff.mp h

/-- What a command needs. -/
def Cmd.allowed (cfg : Config) (w : World β) : Cmd β → Bool
  | .restart threshold => restartAllowed cfg w threshold
  | .appendFails _ => cfg.failedSync
  | .commitMark n => cfg.outOfOrder || match w.log, w.history[n]? with
      | some log, some e => orderly log (log.persisted ++ [e.id])
      | _, _ => true
  | .restartCrash threshold k => restartAllowed cfg w threshold &&
      match (Model.Wal.restart threshold w.disk w.commits).crashes[k]? with
      | none => true
      | some d => (cfg.tornCreate || d.all File.schema) && (cfg.emptied || !d.isEmpty)
  | _ => true

/-- The steps of a command. -/
def Cmd.ops : Cmd β → List Op
  | .restart _ => [.restart]
  | .append .. => [.append]
  | .appendFails _ => [.appendFails]
  | .commitMark _ => [.commit, .mark]
  | .crash => [.crash]
  | .restartCrash .. => [.restartCrash]
  | .truncate => [.truncate]

theorem exec_steps {cfg : Config} {w w' : World β} {c : Cmd β} (he : exec w c = some w')
    (ha : c.allowed cfg w = true) : Steps cfg c.ops w w' := by
  cases c with
  | restart threshold =>
    simp only [exec] at he
    split at he
    · rename_i log' d' hl hr
      obtain rfl := Option.some.inj he
      exact (Steps.refl w).tail (.restart threshold hl (restartAllowed_iff ha) hr)
    · cases he
  | append b size =>
    simp only [exec] at he
    split at he
    · cases he
    · rename_i log hl
      split at he
      · cases he
      · rename_i id log' d' hr
        obtain rfl := Option.some.inj he
        exact (Steps.refl w).tail (.append b size hl hr)
  | appendFails b =>
    simp only [exec] at he
    split at he
    · cases he
    · rename_i log hl
      split at he
      · cases he
      · rename_i d' hr
        obtain rfl := Option.some.inj he
        exact (Steps.refl w).tail (.appendFails b hl hr ha)
  | commitMark n =>
    simp only [exec] at he
    split at he
    · rename_i log e hl hn
      split at he
      · cases he
      · rename_i log' d' hr
        obtain rfl := Option.some.inj he
        have h1 := Step.commit (cfg := cfg) (w := w) [e] (by
          intro x hx
          rw [List.mem_singleton.mp hx]
          exact List.mem_of_getElem? hn)
        have ho : cfg.outOfOrder = true ∨ Orderly log (log.persisted ++ [e.id]) := by
          simp only [Cmd.allowed, hl, hn, Bool.or_eq_true] at ha
          exact ha.imp id orderly_iff.mp
        have h2 := Step.mark (cfg := cfg) (w := { w with commits := w.commits ++ [e].map Entry.id, saved := w.saved ++ [e] })
          (log := log) (log' := log') (d' := d') [e.id] hl (by simp) ho hr
        exact ((Steps.refl w).tail h1).tail h2
    · cases he
  | crash =>
    obtain rfl := Option.some.inj he
    exact (Steps.refl w).tail .crash
  | restartCrash threshold k =>
    simp only [exec] at he
    split at he
    · rename_i d' hl hr
      obtain rfl := Option.some.inj he
      simp only [Cmd.allowed, Bool.and_eq_true] at ha
      refine (Steps.refl w).tail (.restartCrash threshold hl (restartAllowed_iff ha.1) (List.mem_of_getElem? hr) ?_)
      have h2 := ha.2
      rw [hr] at h2
      simpa [Config.allows] using h2
    · cases he
  | truncate =>
    simp only [exec] at he
    split at he
    · cases he
    · rename_i log hl
      split at he
      · cases he
      · rename_i log' d' hr
        obtain rfl := Option.some.inj he
        exact (Steps.refl w).tail (.truncate hl hr)

/-- The history after commands. -/
def execAll (w : World β) (cs : List (Cmd β)) : Option (World β) := cs.foldlM exec w

/-- All commands are allowed. -/
def allAllowed (cfg : Config) : World β → List (Cmd β) → Bool
  | _, [] => true
  | w, c :: cs => c.allowed cfg w && match exec w c with
    | none => true
    | some w' => allAllowed cfg w' cs

theorem Steps.trans {cfg : Config} {o₁ o₂ : List Op} {w₁ w₂ w₃ : World β} (h1 : Steps cfg o₁ w₁ w₂) (h2 : Steps cfg o₂ w₂ w₃) :
    Steps cfg (o₁ ++ o₂) w₁ w₃ := by
  induction h2 with
  | refl => rw [List.append_nil]; exact h1
  | tail _ hs ih => rw [← List.append_assoc]; exact (ih h1).tail hs

theorem execAll_steps {cfg : Config} {w w' : World β} {cs : List (Cmd β)} (he : execAll w cs = some w')
    (ha : allAllowed cfg w cs = true) : Steps cfg (cs.flatMap Cmd.ops) w w' := by
  induction cs generalizing w with
  | nil => obtain rfl := Option.some.inj he; exact .refl w
  | cons c cs ih =>
    unfold execAll at he
    rw [List.foldlM_cons] at he
    unfold allAllowed at ha
    rw [Bool.and_eq_true] at ha
    cases hc : exec w c with
    | none => rw [hc] at he; cases he
    | some w1 =>
      rw [hc] at he
      have h2 := ha.2
      rw [hc] at h2
      exact Steps.trans (exec_steps hc ha.1) (ih he h2)

theorem execAll_reachable {cfg : Config} {w' : World β} {cs : List (Cmd β)} (he : execAll .initial cs = some w')
    (ha : allAllowed cfg .initial cs = true) : Reachable cfg w' := ⟨_, execAll_steps he ha⟩

/-- A crash in truncate that leaves an empty folder. -/
theorem truncateCrash_empty {cfg : Config} {w : World β} {log : Log} (hlog : w.log = some log)
    (h : [] ∈ (Model.Wal.truncate log w.disk).crashes) (he : cfg.emptied = true) :
    Step cfg .truncateCrash w { w with disk := [], log := none, live := [] } := by
  classical
  have h2 := Step.truncateCrash (cfg := cfg) hlog h ⟨Or.inr (by simp), Or.inl he⟩
  rw [List.filter_eq_nil_iff.mpr] at h2
  · exact h2
  · intro e _
    rw [decide_eq_true_eq]
    rintro ⟨f, hf, _⟩
    cases hf

end ModelarDB.Lemmas.Wal
