import Verif.Spec.LoggedServer
import Verif.Lemmas.RestartsOrder
import Verif.Lemmas.WriteAheadLogHistory
import Verif.Props.C17
import Verif.Props.C18
/-
A server with the files of its write-ahead log does what the server with an abstract log does.
-/
namespace ModelarDB.Lemmas.LoggedServer
open Model Model.Storage Model.Restarts Model.LoggedServer Spec Spec.Storage Spec.Restarts Spec.LoggedServer Lemmas.Restarts

variable {α : Type}

/-! ### The ids in commits -/

theorem saveCompressedData_commits {s s' : Compressed α} {table : String} (h : saveCompressedData s table = some s') :
    ∃ l, s'.commits = s.commits ++ l := by
  unfold saveCompressedData at h
  split at h
  · cases h
  · cases h
    exact ⟨_, rfl⟩

theorem saveToFreeMemory_commits {size : Nat} {queue : List String} {s s' : Compressed α} (h : saveToFreeMemory size queue s = some s') :
    ∃ l, s'.commits = s.commits ++ l := by
  induction queue generalizing s with
  | nil =>
    unfold saveToFreeMemory at h
    split at h
    · cases h
    · cases h
      exact ⟨[], by simp⟩
  | cons table queue ih =>
    unfold saveToFreeMemory at h
    split at h
    · split at h
      · cases h
      · rename_i s₁ h1
        obtain ⟨l, hl⟩ := saveCompressedData_commits h1
        obtain ⟨l', hl'⟩ := ih h
        exact ⟨l ++ l', by rw [hl', hl, List.append_assoc]⟩
    · cases h
      exact ⟨[], by simp⟩

theorem flushCompressed_commits {queue : List String} {s s' : Compressed α} (h : flushCompressed queue s = some s') :
    ∃ l, s'.commits = s.commits ++ l := by
  induction queue generalizing s with
  | nil =>
    cases h
    exact ⟨[], by simp⟩
  | cons table queue ih =>
    unfold flushCompressed at h
    split at h
    · cases h
    · rename_i s₁ h1
      obtain ⟨l, hl⟩ := saveCompressedData_commits h1
      obtain ⟨l', hl'⟩ := ih h
      exact ⟨l ++ l', by rw [hl', hl, List.append_assoc]⟩

theorem appendChunk_commits (s : Compressed α) (c : Chunk α) : (appendChunk s c).1.commits = s.commits := by
  unfold appendChunk
  split <;> rfl

theorem insertCompressedSegments_commits {s s' : Compressed α} {c : Chunk α} (h : insertCompressedSegments s c = some s') :
    ∃ l, s'.commits = s.commits ++ l := by
  unfold insertCompressedSegments at h
  have hc := appendChunk_commits s c
  revert h hc
  generalize appendChunk s c = p
  obtain ⟨s₁, size⟩ := p
  intro h hc
  dsimp only at h hc
  split at h
  · cases h
    exact ⟨[], by simp [hc]⟩
  · split at h
    · cases h
    · rename_i s₂ h2
      cases h
      obtain ⟨l, hl⟩ := saveToFreeMemory_commits h2
      exact ⟨l, by simp only [hl, hc]⟩

theorem engine_commits {env : Env α} {e e' : Engine α} {op : Op α} (h : e.step env op = some e') : ∃ l, e'.c.commits = e.c.commits ++ l := by
  cases op <;> simp only [Engine.step] at h
  case write =>
    split at h
    · split at h
      · cases h
      · obtain ⟨c, h1, rfl⟩ := Option.map_eq_some_iff.mp h
        exact insertCompressedSegments_commits h1
      all_goals
        obtain ⟨c, h1, rfl⟩ := Option.map_eq_some_iff.mp h
        exact flushCompressed_commits h1
    · cases h
  case adjustCompressed =>
    obtain ⟨c, h1, rfl⟩ := Option.map_eq_some_iff.mp h
    exact saveToFreeMemory_commits (s := { e.c with remaining := e.c.remaining + _ }) h1
  all_goals
    repeat' split at h
    all_goals cases h
    all_goals exact ⟨[], by simp⟩

/-- The ids in commits are those of batches in the log. -/
theorem commit_logged {env : Env α} (hs : Sorts env) (hcap : 2 ≤ env.capacity) {s : Server α} (h : Restarts.Inv env s) (hg : Good env (rowsIn s.log))
    {p : String × Nat} (hp : p ∈ s.commits ++ s.engine.c.commits) : ∃ b ∈ s.log, ident b = p := by
  rcases List.mem_append.mp hp with hp | hp
  · obtain ⟨b, hb, he, _⟩ := h.diskIds p hp
    exact ⟨b, hb, he⟩
  · have hids := h.engine_ids hs hcap hg
    obtain ⟨x, hx, h1, h2⟩ := (hids.c.commits p.1 p.2).mp hp
    obtain ⟨b, hb, h3, h4, _⟩ := (hids.c.saved x hx).ids _ h2
    exact ⟨b, (h.live b (by simp [Restarts.live, hb])).1, Prod.ext (h3.trans h1) h4⟩

theorem idsOf_append (table : String) (l l' : List (String × Nat)) : idsOf table (l ++ l') = idsOf table l ++ idsOf table l' :=
  List.filterMap_append

theorem mem_idsOf {table : String} {l : List (String × Nat)} {id : Nat} : id ∈ idsOf table l ↔ (table, id) ∈ l := by
  unfold idsOf
  rw [List.mem_filterMap]
  constructor
  · rintro ⟨⟨t, i⟩, hp, h⟩
    dsimp only at h
    split at h
    · rename_i ht
      cases h
      subst ht
      exact hp
    · cases h
  · exact fun h => ⟨_, h, by simp⟩

/-! ### The logs of the tables -/

/-- What is considered: all crashes that leave the folders intact. -/
def config : Wal.Config := ⟨false, false, false, false, true⟩

theorem config_allows {disk : Model.Wal.Disk (List (Row α))} (h : Intact disk) : config.allows disk := ⟨Or.inr h.1, Or.inr h.2⟩

/-- The log of a table has a history in which the batches of the table were written. -/
structure Follows (n : Node α) (table : String) (w : Wal.World (List (Row α))) : Prop where
  reachable : Wal.Reachable config w
  disk : w.disk = (n.logs table).1
  log : w.log = (n.logs table).2
  commits : w.commits = n.commits table
  live : w.live = w.history
  history : w.history.map Wal.Entry.pair = (n.server.log.filter fun b => b.1 = table).map Prod.snd

structure Inv (n : Node α) : Prop where
  follows : ∀ table, ∃ w, Follows n table w
  stopped : n.running = false → ∀ table, (n.logs table).2 = none

theorem inv_new (i u c : Nat) : Inv (Node.new (α := α) i u c) :=
  ⟨fun _ => ⟨.initial, ⟨[], .refl _⟩, rfl, rfl, rfl, rfl, rfl⟩, fun _ _ => rfl⟩

theorem reachable_step {w w' : Wal.World (List (Row α))} {op : Wal.Op} (h : Wal.Reachable config w) (hs : Wal.Step config op w w') :
    Wal.Reachable config w' := by
  obtain ⟨ops, h⟩ := h
  exact ⟨_, h.tail hs⟩

theorem Follows.entry {n : Node α} {table : String} {w : Wal.World (List (Row α))} (h : Follows n table w) {id : Nat}
    (hid : ∃ b ∈ n.server.log, ident b = (table, id)) : ∃ e ∈ w.history, e.id = id := by
  obtain ⟨b, hb, he⟩ := hid
  have h1 : b.2 ∈ w.history.map Wal.Entry.pair := by
    rw [h.history]
    refine List.mem_map_of_mem (List.mem_filter.mpr ⟨hb, ?_⟩)
    have h2 : b.1 = table := congrArg Prod.fst he
    simp [h2]
  obtain ⟨e, he', hp⟩ := List.mem_map.mp h1
  refine ⟨e, he', ?_⟩
  have h2 : e.pair.1 = b.2.1 := congrArg Prod.fst hp
  exact h2.trans (congrArg Prod.snd he)

theorem entries_of_ids {β : Type} {history : List (Wal.Entry β)} {ids : List Nat} (h : ∀ id ∈ ids, ∃ e ∈ history, e.id = id) :
    ∃ es : List (Wal.Entry β), (∀ e ∈ es, e ∈ history) ∧ es.map Wal.Entry.id = ids := by
  induction ids with
  | nil => exact ⟨[], by simp, rfl⟩
  | cons id ids ih =>
    obtain ⟨es, h1, h2⟩ := ih fun id hid => h id (List.mem_cons_of_mem _ hid)
    obtain ⟨e, he, rfl⟩ := h _ (List.mem_cons_self ..)
    refine ⟨e :: es, ?_, by simp [h2]⟩
    intro x hx
    rcases List.mem_cons.mp hx with rfl | hx
    · exact he
    · exact h1 x hx

/-- The server has saved something. -/
theorem Follows.server {n : Node α} {table : String} {w : Wal.World (List (Row α))} (h : Follows n table w) {s : Server α}
    (hlog : s.log = n.server.log) {l : List (String × Nat)}
    (hc : s.commits ++ s.engine.c.commits = n.server.commits ++ n.server.engine.c.commits ++ l)
    (hl : ∀ p ∈ l, ∃ b ∈ n.server.log, ident b = p) (running : Bool) : ∃ w, Follows ⟨n.logs, s, running⟩ table w := by
  obtain ⟨es, h1, h2⟩ := entries_of_ids (history := w.history) (ids := idsOf table l) fun id hid => h.entry (hl _ (mem_idsOf.mp hid))
  refine ⟨_, reachable_step h.reachable (.commit es h1), h.disk, h.log, ?_, h.live, ?_⟩
  · simp only [Node.commits, hc, idsOf_append, h2, h.commits]
  · simp only [hlog]
    exact h.history

theorem Follows.congr {n n' : Node α} {table : String} {w : Wal.World (List (Row α))} (h : Follows n table w) (h1 : n'.logs table = n.logs table)
    (h2 : n'.commits table = n.commits table)
    (h3 : (n'.server.log.filter fun b => b.1 = table) = n.server.log.filter fun b => b.1 = table) : Follows n' table w :=
  ⟨h.reachable, by rw [h1]; exact h.disk, by rw [h1]; exact h.log, by rw [h2]; exact h.commits, h.live, by rw [h3]; exact h.history⟩

/-- The memory of the log is lost. -/
theorem Follows.crash {n n' : Node α} {table : String} {w : Wal.World (List (Row α))} (h : Follows n table w)
    (h1 : n'.logs table = ((n.logs table).1, none)) (h2 : n'.commits table = n.commits table)
    (h3 : (n'.server.log.filter fun b => b.1 = table) = n.server.log.filter fun b => b.1 = table) : ∃ w, Follows n' table w :=
  ⟨_, reachable_step h.reachable .crash, by rw [h1]; exact h.disk, by rw [h1], by rw [h2]; exact h.commits, h.live, by rw [h3]; exact h.history⟩

theorem filter_append_ne {log : List (Batch α)} {table t : String} (ht : t ≠ table) (id : Nat) (rows : List (Row α)) :
    ((log ++ [(table, id, rows)]).filter fun b => b.1 = t) = log.filter fun b => b.1 = t := by
  rw [List.filter_append, List.filter_singleton]
  simp [Ne.symm ht]

theorem filter_append_self (log : List (Batch α)) (table : String) (id : Nat) (rows : List (Row α)) :
    ((log ++ [(table, id, rows)]).filter fun b => b.1 = table) = (log.filter fun b => b.1 = table) ++ [(table, id, rows)] := by
  rw [List.filter_append, List.filter_singleton]
  simp

/-- The ids of a log are not used twice. -/
theorem Follows.fresh {n : Node α} {table : String} {w : Wal.World (List (Row α))} (h : Follows n table w) {id : Nat} {rows : List (Row α)}
    {acked : Bool} {disk : Model.Wal.Disk (List (Row α))} {log : Option Model.Wal.Log}
    (hr : Wal.Reachable config { w with disk := disk, log := log, live := w.live ++ [⟨id, rows, acked⟩], history := w.history ++ [⟨id, rows, acked⟩] }) :
    (n.server.log.any fun b => b.1 = table && b.2.1 = id) = false := by
  have h1 := Props.C17_ids_never_reused_partial rfl rfl rfl rfl hr
  dsimp only at h1
  rw [List.pairwise_append] at h1
  rw [List.any_eq_false]
  intro b hb hc
  simp only [Bool.and_eq_true, decide_eq_true_eq] at hc
  obtain ⟨e, he, hid⟩ := h.entry ⟨b, hb, Prod.ext hc.1 hc.2⟩
  have := h1.2.2 e he _ (List.mem_singleton.mpr rfl)
  dsimp only at this
  omega

/-- What is replayed. -/
theorem Follows.toReplay {n : Node α} {table : String} {w : Wal.World (List (Row α))} (h : Follows n table w) (threshold : Nat) :
    n.toReplay threshold table = some (n.server.log.filter fun b =>
      decide (b.1 = table) && decide ((b.1, b.2.1) ∉ n.server.commits ++ n.server.engine.c.commits)) := by
  have h1 := (Props.C18_replay_exact_partial rfl rfl h.reachable threshold).1
  have h2 : n.toReplay threshold table = (Wal.replay threshold w).map fun l => l.map fun p => (table, p.1, p.2) := by
    unfold Node.toReplay Node.openLog Wal.replay
    rw [← h.disk, ← h.commits]
    cases (Model.Wal.restart threshold w.disk w.commits).result with
    | none => rfl
    | some p => rfl
  rw [h2, h1]
  simp only [Option.map_some, Option.some.injEq]
  have h3 : (w.live.filter fun e => e.id ∉ w.commits).map Wal.Entry.pair = (w.live.map Wal.Entry.pair).filter fun p => p.1 ∉ w.commits := by
    rw [List.filter_map]
    rfl
  rw [h3, h.live, h.history, List.filter_map, List.map_map, h.commits, List.filter_filter]
  have h4 : ∀ l : List (Batch α), (∀ b ∈ l, b.1 = table) → l.map ((fun p : Nat × List (Row α) => (table, p.1, p.2)) ∘ Prod.snd) = l := by
    intro l hl
    induction l with
    | nil => rfl
    | cons b l ih =>
      rw [List.map_cons, ih fun b hb => hl b (List.mem_cons_of_mem _ hb)]
      obtain ⟨t, i, r⟩ := b
      have : t = table := hl _ (List.mem_cons_self ..)
      subst this
      rfl
  rw [h4]
  · refine List.filter_congr fun b _ => ?_
    by_cases hb : b.1 = table
    · simp only [hb, decide_true, Bool.and_true, Bool.true_and, Function.comp, Node.commits, mem_idsOf]
    · simp [hb]
  · intro b hb
    have := (List.mem_filter.mp hb).2
    simp only [Bool.and_eq_true, decide_eq_true_eq] at this
    exact this.2

/-! ### Steps -/

theorem setLog_self (logs : String → TableLog α) (table : String) (l : TableLog α) : setLog logs table l table = l := by simp [setLog]

theorem setLog_ne (logs : String → TableLog α) {table t : String} (l : TableLog α) (ht : t ≠ table) : setLog logs table l t = logs t := by
  simp [setLog, ht]

theorem append_step {env : Env α} {n n' : Node α} {table : String} {rows : List (Row α)} {size : Nat} (h : Inv n)
    (hstep : n.step env (.append table rows size) = some n') :
    Inv n' ∧ ∃ id, n.server.step env (.append table id rows) = some n'.server := by
  simp only [Node.step] at hstep
  split at hstep
  case isFalse => cases hstep
  rename_i hcond
  simp only [Bool.and_eq_true] at hcond
  split at hstep
  · cases hstep
  rename_i log hlog
  split at hstep
  · cases hstep
  rename_i id log' disk hres
  cases hstep
  obtain ⟨w, hw⟩ := h.follows table
  have hr := reachable_step hw.reachable (.append rows size (hw.log.trans hlog) (by rw [hw.disk]; exact hres))
  have hfresh := hw.fresh hr
  refine ⟨⟨fun t => ?_, fun hrun => ?_⟩, id, ?_⟩
  · by_cases ht : t = table
    · subst ht
      refine ⟨_, hr, by simp [setLog], by simp [setLog], hw.commits, by simp only [hw.live], ?_⟩
      simp only [List.map_append, hw.history, filter_append_self]
      rfl
    · obtain ⟨w', hw'⟩ := h.follows t
      exact ⟨w', hw'.congr (setLog_ne _ _ ht) rfl (filter_append_ne ht _ _)⟩
  · rw [hcond.1.1] at hrun
    cases hrun
  · simp only [Server.step, hcond.1.2, hcond.2, hfresh, Bool.not_false, Bool.and_self, if_true]

theorem appendCrash_step {env : Env α} {n n' : Node α} {table : String} {rows : List (Row α)} {size k : Nat} (h : Inv n)
    (hok : Event.ok n (.appendCrash table rows size k)) (hstep : n.step env (.appendCrash table rows size k) = some n') :
    Inv n' ∧ ∃ id, n.server.step env (.append table id rows) = some n'.server := by
  simp only [Node.step] at hstep
  split at hstep
  case isFalse => cases hstep
  rename_i hcond
  simp only [Bool.and_eq_true] at hcond
  split at hstep
  · cases hstep
  rename_i log hlog
  split at hstep
  · cases hstep
  rename_i disk hres
  cases hstep
  obtain ⟨w, hw⟩ := h.follows table
  have hr := reachable_step hw.reachable (.appendCrash rows size (hw.log.trans hlog)
    (by rw [hw.disk]; exact List.mem_of_getElem? hres) (config_allows (hok.2 log hlog disk hres)) rfl)
  have hfresh := hw.fresh hr
  refine ⟨⟨fun t => ?_, fun _ _ => rfl⟩, log.nextBatchId, ?_⟩
  · by_cases ht : t = table
    · subst ht
      refine ⟨_, hr, by simp [setLog, stopped], rfl, hw.commits, by simp only [hw.live], ?_⟩
      simp only [List.map_append, hw.history, filter_append_self]
      rfl
    · obtain ⟨w', hw'⟩ := h.follows t
      exact hw'.crash (by simp [stopped, setLog, ht]) rfl (filter_append_ne ht _ _)
  · simp only [Server.step, hcond.1.2, hcond.2, hfresh, Bool.not_false, Bool.and_self, if_true]

theorem server_log {env : Env α} {s s' : Server α} {a : Action α} (ha : isOwn a = true) (h : s.step env a = some s') :
    s'.log = s.log ∧ s'.commits = s.commits ∧ ∃ l, s'.engine.c.commits = s.engine.c.commits ++ l := by
  cases a <;> simp only [Server.step] at h
  case append => cases ha
  case restart => cases ha
  case replay =>
    split at h
    · cases h
    · obtain ⟨e, he, rfl⟩ := Option.map_eq_some_iff.mp h
      exact ⟨rfl, rfl, engine_commits he⟩
  case send =>
    split at h
    · cases h
    · obtain ⟨e, he, rfl⟩ := Option.map_eq_some_iff.mp h
      exact ⟨rfl, rfl, engine_commits he⟩
  case engine =>
    split at h
    · cases h
    · obtain ⟨e, he, rfl⟩ := Option.map_eq_some_iff.mp h
      exact ⟨rfl, rfl, engine_commits he⟩

theorem server_step {env : Env α} (hs : Sorts env) (hcap : 2 ≤ env.capacity) {n n' : Node α} {a : Action α} (hok : Action.ok a) (h : Inv n)
    (hi : Restarts.Inv env n.server) (hstep : n.step env (.server a) = some n') (hg : Good env (rowsIn n'.server.log)) :
    Inv n' ∧ n.server.step env a = some n'.server ∧ isOwn a = true := by
  simp only [Node.step] at hstep
  split at hstep
  case isFalse => cases hstep
  rename_i hcond
  simp only [Bool.and_eq_true] at hcond
  obtain ⟨s, h1, rfl⟩ := Option.map_eq_some_iff.mp hstep
  obtain ⟨h2, h3, l, h4⟩ := server_log hcond.2 h1
  have hi' := inv_step hs hcap hok hi h1 hg
  refine ⟨⟨fun t => ?_, h.stopped⟩, h1, hcond.2⟩
  obtain ⟨w, hw⟩ := h.follows t
  have hc : s.commits ++ s.engine.c.commits = n.server.commits ++ n.server.engine.c.commits ++ l := by rw [h3, h4, List.append_assoc]
  refine hw.server h2 hc (fun p hp => ?_) n.running
  rw [← h2]
  exact commit_logged hs hcap hi' hg (by rw [hc]; exact List.mem_append_right _ hp)

theorem marked {n : Node α} {table : String} {ids : List Nat} (h : (ids.all fun id => (n.commits table).contains id) = true) :
    ∀ id ∈ ids, id ∈ n.commits table := by
  intro id hid
  simpa using List.all_eq_true.mp h id hid

theorem mark_step {env : Env α} {n n' : Node α} {table : String} {ids : List Nat} (h : Inv n) (hok : Event.ok n (.mark table ids))
    (hstep : n.step env (.mark table ids) = some n') : Inv n' ∧ n'.server = n.server := by
  simp only [Node.step] at hstep
  split at hstep
  case isFalse => cases hstep
  rename_i hcond
  rw [Bool.and_eq_true] at hcond
  split at hstep
  · cases hstep
  rename_i log hlog
  split at hstep
  · cases hstep
  rename_i log' disk hres
  cases hstep
  obtain ⟨w, hw⟩ := h.follows table
  have hr := reachable_step hw.reachable (.mark ids (hw.log.trans hlog) (by rw [hw.commits]; exact marked hcond.2) (Or.inr (hok log hlog))
    (by rw [hw.disk]; exact hres))
  refine ⟨⟨fun t => ?_, fun hrun => ?_⟩, rfl⟩
  · by_cases ht : t = table
    · subst ht
      exact ⟨_, hr, by simp [setLog], by simp [setLog], hw.commits, hw.live, hw.history⟩
    · obtain ⟨w', hw'⟩ := h.follows t
      exact ⟨w', hw'.congr (setLog_ne _ _ ht) rfl rfl⟩
  · rw [hcond.1] at hrun
    cases hrun

theorem markCrash_step {env : Env α} {n n' : Node α} {table : String} {ids : List Nat} {k : Nat} (h : Inv n)
    (hok : Event.ok n (.markCrash table ids k)) (hstep : n.step env (.markCrash table ids k) = some n') : Inv n' ∧ n'.server = n.server := by
  simp only [Node.step] at hstep
  split at hstep
  case isFalse => cases hstep
  rename_i hcond
  rw [Bool.and_eq_true] at hcond
  split at hstep
  · cases hstep
  rename_i log hlog
  split at hstep
  · cases hstep
  rename_i disk hres
  cases hstep
  obtain ⟨w, hw⟩ := h.follows table
  have hr := reachable_step hw.reachable (.markCrash ids (hw.log.trans hlog) (by rw [hw.commits]; exact marked hcond.2) (Or.inr (hok log hlog))
    (by rw [hw.disk]; exact List.mem_of_getElem? hres))
  refine ⟨⟨fun t => ?_, fun _ _ => rfl⟩, rfl⟩
  by_cases ht : t = table
  · subst ht
    exact ⟨_, hr, by simp [setLog, stopped], rfl, hw.commits, hw.live, hw.history⟩
  · obtain ⟨w', hw'⟩ := h.follows t
    exact hw'.crash (by simp [stopped, setLog, ht]) rfl rfl

theorem setThreshold_step {env : Env α} {n n' : Node α} {threshold : Nat} (h : Inv n) (hstep : n.step env (.setThreshold threshold) = some n') :
    Inv n' ∧ n'.server = n.server := by
  simp only [Node.step] at hstep
  split at hstep
  case isFalse => cases hstep
  rename_i hrunning
  cases hstep
  refine ⟨⟨fun t => ?_, fun hrun => ?_⟩, rfl⟩
  · obtain ⟨w, hw⟩ := h.follows t
    cases hlog : (n.logs t).2 with
    | none => exact ⟨w, hw.congr (Prod.ext rfl (by simp [hlog])) rfl rfl⟩
    | some log =>
      exact ⟨_, reachable_step hw.reachable (.setThreshold threshold (hw.log.trans hlog)), hw.disk, by simp [hlog], hw.commits, hw.live, hw.history⟩
  · rw [hrunning] at hrun
    cases hrun

theorem crash_step {env : Env α} {n n' : Node α} (h : Inv n) (hstep : n.step env .crash = some n') : Inv n' ∧ n'.server = n.server := by
  simp only [Node.step] at hstep
  split at hstep
  case isFalse => cases hstep
  cases hstep
  refine ⟨⟨fun t => ?_, fun _ _ => rfl⟩, rfl⟩
  obtain ⟨w, hw⟩ := h.follows t
  exact hw.crash rfl rfl rfl

theorem restartCrash_step {env : Env α} {n n' : Node α} {table : String} {threshold k : Nat} (h : Inv n)
    (hok : Event.ok n (.restartCrash table threshold k)) (hstep : n.step env (.restartCrash table threshold k) = some n') :
    Inv n' ∧ n'.server = n.server := by
  simp only [Node.step] at hstep
  split at hstep
  · cases hstep
  rename_i hrunning
  have hnone := h.stopped (by simpa using hrunning)
  split at hstep
  · cases hstep
  rename_i disk hres
  cases hstep
  obtain ⟨w, hw⟩ := h.follows table
  have hr := reachable_step hw.reachable (.restartCrash threshold (hw.log.trans (hnone table))
    (Or.inr (by rw [hw.disk, hw.commits]; exact hok.1)) (by rw [hw.disk, hw.commits]; exact List.mem_of_getElem? hres)
    (config_allows (hok.2 disk hres)))
  refine ⟨⟨fun t => ?_, fun hrun t => ?_⟩, rfl⟩
  · by_cases ht : t = table
    · subst ht
      exact ⟨_, hr, by simp [setLog], by simp [setLog, hw.log, hnone], hw.commits, hw.live, hw.history⟩
    · obtain ⟨w', hw'⟩ := h.follows t
      exact ⟨w', hw'.congr (setLog_ne _ _ ht) rfl rfl⟩
  · by_cases ht : t = table
    · simp [setLog, ht]
    · show (setLog n.logs table (disk, none) t).2 = none
      rw [setLog_ne _ _ ht]
      exact hnone t

theorem mapM_flatten {β γ : Type} {f : β → Option (List γ)} {g : β → List γ} {l : List β} (h : ∀ x ∈ l, f x = some (g x)) :
    (l.mapM f).map List.flatten = some (l.flatMap g) := by
  induction l with
  | nil => rfl
  | cons x l ih =>
    have ih := ih fun x hx => h x (List.mem_cons_of_mem _ hx)
    obtain ⟨ys, h1, h2⟩ := Option.map_eq_some_iff.mp ih
    rw [List.mapM_cons, h x (List.mem_cons_self ..), h1]
    simp only [Option.pure_def, Option.bind_eq_bind, Option.bind_some, Option.map_some, List.flatten_cons, h2, List.flatMap_cons]

theorem restart_step {env : Env α} {n n' : Node α} {tables : List String} {threshold i u c : Nat} (h : Inv n)
    (hok : Event.ok n (.restart tables threshold i u c)) (hstep : n.step env (.restart tables threshold i u c) = some n') :
    Inv n' ∧ n.server.step env (.restart tables i u c) = some n'.server := by
  simp only [Node.step] at hstep
  split at hstep
  case isFalse => cases hstep
  rename_i hcond
  simp only [Bool.and_eq_true, decide_eq_true_eq, Bool.not_eq_true'] at hcond
  have hnone := h.stopped hcond.1
  obtain ⟨batches, h1, rfl⟩ := Option.map_eq_some_iff.mp hstep
  have h2 := mapM_flatten (l := tables) (f := n.toReplay threshold) fun t _ => (h.follows t).choose_spec.toReplay threshold
  rw [h1] at h2
  simp only [Option.map_some, Option.some.injEq] at h2
  refine ⟨⟨fun t => ?_, fun hrun => by cases hrun⟩, ?_⟩
  · obtain ⟨w, hw⟩ := h.follows t
    have hcommits : ∀ logs, idsOf t (n.server.commits ++ n.server.engine.c.commits) =
        (⟨logs, { n.server with
            saved := n.server.saved ++ n.server.engine.c.saved, commits := n.server.commits ++ n.server.engine.c.commits
            pending := batches.flatten, writing := none, engine := .new i u c }, true⟩ : Node α).commits t := by
      intro logs
      simp [Node.commits, Engine.new]
    by_cases ht : t ∈ tables
    · cases ho : n.openLog threshold t with
      | none =>
        have := hw.toReplay threshold
        simp [Node.toReplay, ho] at this
      | some p =>
        obtain ⟨log, disk⟩ := p
        have hr := reachable_step hw.reachable (.restart threshold (hw.log.trans (hnone t)) (Or.inr (by rw [hw.disk, hw.commits]; exact hok t ht))
          (by rw [hw.disk, hw.commits]; exact ho))
        exact ⟨_, hr, by simp [ht, ho], by simp [ht, ho], hw.commits.trans (hcommits _), hw.live, hw.history⟩
    · exact ⟨w, hw.congr (by simp [ht]) (hcommits _).symm rfl⟩
  · simp only [Server.step, if_pos hcond.2, h2]
    rfl

/-- A step of the server with the files of the log is one or no step of the server with an abstract log. -/
theorem node_step {env : Env α} (hs : Sorts env) (hcap : 2 ≤ env.capacity) {n n' : Node α} {e : Event α} (hok : Event.ok n e) (h : Inv n)
    (hi : Restarts.Inv env n.server) (hstep : n.step env e = some n') (hg : Good env (rowsIn n'.server.log)) :
    Inv n' ∧ ∃ actions, n.server.run env actions = some n'.server ∧ (∀ a ∈ actions, Action.ok a) ∧
      (Event.keepsRunning e = true → ∀ a ∈ actions, Action.isRestart a = false) ∧
      actions.countP Action.isRequest = if Event.isRequest e then 1 else 0 := by
  have hnone : ∀ {s : Server α}, s = n.server → ∃ actions : List (Action α), n.server.run env actions = some s ∧ (∀ a ∈ actions, Action.ok a) ∧
      (Event.keepsRunning e = true → ∀ a ∈ actions, Action.isRestart a = false) ∧ actions.countP Action.isRequest = 0 :=
    fun hs => ⟨[], by rw [hs]; rfl, by simp, by simp, rfl⟩
  have hone : ∀ {s : Server α} {a : Action α}, n.server.step env a = some s → Action.ok a →
      (Event.keepsRunning e = true → Action.isRestart a = false) → ∃ actions : List (Action α), n.server.run env actions = some s ∧
      (∀ a ∈ actions, Action.ok a) ∧ (Event.keepsRunning e = true → ∀ a ∈ actions, Action.isRestart a = false) ∧
      actions.countP Action.isRequest = if Action.isRequest a then 1 else 0 := by
    intro s a h1 h2 h3
    refine ⟨[a], by simp [Server.run, h1], by simpa using h2, fun hk => by simpa using h3 hk, ?_⟩
    simp only [List.countP_cons, List.countP_nil, Nat.zero_add]
  cases e with
  | append table rows size =>
    obtain ⟨h1, id, h2⟩ := append_step h hstep
    exact ⟨h1, hone h2 hok fun _ => rfl⟩
  | appendCrash table rows size k =>
    obtain ⟨h1, id, h2⟩ := appendCrash_step h hok hstep
    exact ⟨h1, hone h2 hok.1 fun _ => rfl⟩
  | server a =>
    obtain ⟨h1, h2, h3⟩ := server_step hs hcap hok h hi hstep hg
    exact ⟨h1, hone h2 hok fun _ => by cases a <;> first | rfl | cases h3⟩
  | mark table ids =>
    obtain ⟨h1, h2⟩ := mark_step h hok hstep
    exact ⟨h1, hnone h2⟩
  | markCrash table ids k =>
    obtain ⟨h1, h2⟩ := markCrash_step h hok hstep
    exact ⟨h1, hnone h2⟩
  | setThreshold threshold =>
    obtain ⟨h1, h2⟩ := setThreshold_step h hstep
    exact ⟨h1, hnone h2⟩
  | crash =>
    obtain ⟨h1, h2⟩ := crash_step h hstep
    exact ⟨h1, hnone h2⟩
  | restart tables threshold i u c =>
    obtain ⟨h1, h2⟩ := restart_step h hok hstep
    exact ⟨h1, hone h2 trivial fun hk => by cases hk⟩
  | restartCrash table threshold k =>
    obtain ⟨h1, h2⟩ := restartCrash_step h hok hstep
    exact ⟨h1, hnone h2⟩

/-- Batches are added to the log. -/
theorem node_log {env : Env α} {n n' : Node α} {e : Event α} (hstep : n.step env e = some n') :
    ∃ l, n'.server.log = n.server.log ++ l := by
  cases e <;> simp only [Node.step] at hstep
  case append =>
    repeat' split at hstep
    all_goals cases hstep
    exact ⟨_, rfl⟩
  case appendCrash =>
    repeat' split at hstep
    all_goals cases hstep
    exact ⟨_, rfl⟩
  case server =>
    split at hstep
    · obtain ⟨s, h1, rfl⟩ := Option.map_eq_some_iff.mp hstep
      exact log_step h1
    · cases hstep
  case restart =>
    split at hstep
    · obtain ⟨s, h1, rfl⟩ := Option.map_eq_some_iff.mp hstep
      exact ⟨[], by simp⟩
    · cases hstep
  all_goals
    repeat' split at hstep
    all_goals cases hstep
    all_goals exact ⟨[], by simp⟩

theorem node_run_log {env : Env α} {events : List (Event α)} {n n' : Node α} (hrun : n.run env events = some n') :
    ∃ l, n'.server.log = n.server.log ++ l := by
  induction events generalizing n with
  | nil => cases hrun; exact ⟨[], by simp⟩
  | cons e events ih =>
    obtain ⟨n₁, h1, h2⟩ := Option.bind_eq_some_iff.mp hrun
    obtain ⟨l, hl⟩ := node_log h1
    obtain ⟨l', hl'⟩ := ih h2
    exact ⟨l ++ l', by rw [hl', hl, List.append_assoc]⟩

theorem good_node_run {env : Env α} {events : List (Event α)} {n n' : Node α} (hrun : n.run env events = some n')
    (hg : Good env (rowsIn n'.server.log)) : Good env (rowsIn n.server.log) := by
  obtain ⟨l, hl⟩ := node_run_log hrun
  rw [hl, rowsIn_append] at hg
  exact hg.mono

theorem good_node_step {env : Env α} {e : Event α} {n n' : Node α} (hstep : n.step env e = some n') (hg : Good env (rowsIn n'.server.log)) :
    Good env (rowsIn n.server.log) := by
  obtain ⟨l, hl⟩ := node_log hstep
  rw [hl, rowsIn_append] at hg
  exact hg.mono

theorem node_run {env : Env α} (hs : Sorts env) (hcap : 2 ≤ env.capacity) {events : List (Event α)} {n n' : Node α}
    (hok : Careful env n events) (h : Inv n) (hi : Restarts.Inv env n.server) (hrun : n.run env events = some n')
    (hg : Good env (rowsIn n'.server.log)) :
    Inv n' ∧ Restarts.Inv env n'.server ∧ ∃ actions, n.server.run env actions = some n'.server ∧ (∀ a ∈ actions, Action.ok a) ∧
      ((∀ e ∈ events, Event.keepsRunning e = true) → ∀ a ∈ actions, Action.isRestart a = false) ∧
      actions.countP Action.isRequest = events.countP Event.isRequest := by
  induction events generalizing n with
  | nil => cases hrun; exact ⟨h, hi, [], rfl, by simp, by simp, rfl⟩
  | cons e events ih =>
    obtain ⟨n₁, h1, h2⟩ := Option.bind_eq_some_iff.mp hrun
    have hg1 := good_node_run h2 hg
    obtain ⟨a1, actions, a2, a3, a4, a5⟩ := node_step hs hcap hok.1 h hi h1 hg1
    have hi1 := inv_run hs hcap actions a3 hi a2 hg1
    obtain ⟨b1, b2, actions', b3, b4, b5, b6⟩ := ih (hok.2 n₁ h1) a1 hi1 h2
    refine ⟨b1, b2, actions ++ actions', by rw [server_run_append, a2]; exact b3, ?_, ?_, ?_⟩
    · intro a ha
      rcases List.mem_append.mp ha with ha | ha
      · exact a3 a ha
      · exact b4 a ha
    · intro hk a ha
      rcases List.mem_append.mp ha with ha | ha
      · exact a4 (hk e (List.mem_cons_self ..)) a ha
      · exact b5 (fun e he => hk e (List.mem_cons_of_mem _ he)) a ha
    · rw [List.countP_append, a5, b6, List.countP_cons]
      omega

theorem good_recovered {env : Env α} {stopped requested n : Node α} {r : Recovery α} (hr : LoggedServer.Recovered env stopped r requested n)
    (hg : Good env (rowsIn n.server.log)) : Good env (rowsIn stopped.server.log) := by
  obtain ⟨n₁, n₃, _, r2, r3, _, _, r6, r7, _⟩ := hr
  exact good_node_step r2 (good_node_run r3 (good_node_step r6 (good_node_run r7 hg)))

theorem careful_append {env : Env α} {l l' : List (Event α)} {n n' : Node α} (h : Careful env n (l ++ l')) (hrun : n.run env l = some n') :
    Careful env n l ∧ Careful env n' l' := by
  induction l generalizing n with
  | nil => cases hrun; exact ⟨trivial, h⟩
  | cons e l ih =>
    obtain ⟨n₁, h1, h2⟩ := Option.bind_eq_some_iff.mp hrun
    obtain ⟨h3, h4⟩ := ih (h.2 n₁ h1) h2
    refine ⟨⟨h.1, fun n₂ hn => ?_⟩, h4⟩
    rw [h1] at hn
    cases hn
    exact h3

/-- The server with an abstract log is stopped and started again. -/
theorem recovered_server {env : Env α} (hs : Sorts env) (hcap : 2 ≤ env.capacity) {stopped requested n : Node α} (h : Inv stopped)
    (hi : Restarts.Inv env stopped.server) {r : Recovery α} (hcareful : Careful env stopped r.events)
    (hr : LoggedServer.Recovered env stopped r requested n) (hg : Good env (rowsIn n.server.log)) :
    Restarts.Recovered env stopped.server requested.server n.server := by
  obtain ⟨start, before, request, after⟩ := r
  obtain ⟨n₁, n₃, r1, r2, r3, r4, r5, r6, r7, r8, r9⟩ := hr
  dsimp only at r1 r2 r3 r4 r5 r6 r7 r8 r9
  obtain ⟨k1, k2⟩ := hcareful
  obtain ⟨k3, k4, k5⟩ := careful_append (k2 n₁ r2) r3
  have k6 := k5 n₃ r6
  have hg3 := good_node_run r7 hg
  have hg2 := good_node_step r6 hg3
  have hg1 := good_node_run r3 hg2
  cases start with
  | restart tables threshold i u c =>
    obtain ⟨a1, a2⟩ := restart_step h k1 r2
    have hi1 := hi.restart hs hcap (good_node_step r2 hg1) a2
    obtain ⟨b1, b2, actions, b3, b4, b5, b6⟩ := node_run hs hcap k3 a1 hi1 r3 hg2
    cases request with
    | server a =>
      have ha : Action.isRequest a = true := r5
      obtain ⟨c1, c2, c3⟩ := server_step hs hcap k4 b1 b2 r6 hg3
      have hi3 := inv_step hs hcap k4 b2 c2 hg3
      obtain ⟨d1, d2, actions', d3, d4, d5, d6⟩ := node_run hs hcap k6 c1 hi3 r7 hg
      refine ⟨tables, i, u, c, n₁.server, n₃.server, actions, actions', a, a2, b3, r4, ha, c2, d3, ?_, ?_⟩
      · intro a ha
        rcases List.mem_append.mp ha with ha | ha
        · exact ⟨b4 a ha, b5 (fun e he => r8 e (List.mem_append_left _ he)) a ha⟩
        · exact ⟨d4 a ha, d5 (fun e he => r8 e (List.mem_append_right _ he)) a ha⟩
      · rw [b6]
        exact r9
    | _ => cases r5
  | _ => cases r1

/-! ### Conditions that can be computed -/

def intactCheck (disk : Model.Wal.Disk (List (Row α))) : Bool := disk.all Model.Wal.File.schema && !disk.isEmpty

theorem intact_of_check {disk : Model.Wal.Disk (List (Row α))} (h : intactCheck disk = true) : Intact disk := by
  simp only [intactCheck, Bool.and_eq_true, List.all_eq_true, Bool.not_eq_true', List.isEmpty_eq_false_iff] at h
  exact h

def opensCheck (n : Node α) (threshold : Nat) (table : String) : Bool :=
  match (Model.Wal.tryNew threshold (n.logs table).1).result with
  | none => true
  | some (log, _) => Wal.orderly log (n.commits table)

theorem opens_of_check {n : Node α} {threshold : Nat} {table : String} (h : opensCheck n threshold table = true) :
    OpensInOrder n threshold table := by
  intro log disk hr
  unfold opensCheck at h
  rw [hr] at h
  exact Wal.orderly_iff.mp h

def actionCheck : Action α → Bool
  | .engine (.ingestionRow io) => io
  | .engine (.adjustUncompressed io _) => io
  | .append table _ rows => rows.all fun r => r.table = table
  | _ => true

theorem action_of_check {a : Action α} (h : actionCheck a = true) : Action.ok a := by
  cases a with
  | engine op => cases op <;> first | exact h | trivial
  | append table id rows => simpa [actionCheck, Action.ok] using h
  | _ => trivial

def okCheck (n : Node α) : Event α → Bool
  | .append table rows _ => rows.all fun r => r.table = table
  | .appendCrash table rows size k => (rows.all fun r => r.table = table) &&
      match (n.logs table).2 with
      | none => true
      | some log => match (Model.Wal.appendAndSync log (n.logs table).1 rows size).crashes[k]? with
        | none => true
        | some disk => intactCheck disk
  | .server action => actionCheck action
  | .mark table ids => match (n.logs table).2 with
      | none => true
      | some log => Wal.orderly log (log.persisted ++ ids)
  | .markCrash table ids _ => match (n.logs table).2 with
      | none => true
      | some log => Wal.orderly log (log.persisted ++ ids)
  | .restart tables threshold _ _ _ => tables.all fun table => opensCheck n threshold table
  | .restartCrash table threshold k => opensCheck n threshold table &&
      match (Model.Wal.restart threshold (n.logs table).1 (n.commits table)).crashes[k]? with
      | none => true
      | some disk => intactCheck disk
  | .crash => true
  | .setThreshold _ => true

theorem ok_of_check {n : Node α} {e : Event α} (h : okCheck n e = true) : Event.ok n e := by
  cases e with
  | append table rows size => simpa [okCheck, Event.ok] using h
  | appendCrash table rows size k =>
    simp only [okCheck, Bool.and_eq_true, List.all_eq_true, decide_eq_true_eq] at h
    refine ⟨h.1, fun log hl disk hd => ?_⟩
    have h2 := h.2
    rw [hl] at h2
    dsimp only at h2
    rw [hd] at h2
    exact intact_of_check h2
  | server a => exact action_of_check h
  | mark table ids =>
    intro log hl
    simp only [okCheck] at h
    rw [hl] at h
    exact Wal.orderly_iff.mp h
  | markCrash table ids k =>
    intro log hl
    simp only [okCheck] at h
    rw [hl] at h
    exact Wal.orderly_iff.mp h
  | restart tables threshold i u c =>
    intro table ht
    exact opens_of_check (List.all_eq_true.mp h table ht)
  | restartCrash table threshold k =>
    simp only [okCheck, Bool.and_eq_true] at h
    refine ⟨opens_of_check h.1, fun disk hd => ?_⟩
    have h2 := h.2
    rw [hd] at h2
    exact intact_of_check h2
  | crash => trivial
  | setThreshold threshold => trivial

def carefulCheck (env : Env α) (n : Node α) : List (Event α) → Bool
  | [] => true
  | e :: events => okCheck n e && match n.step env e with
    | none => true
    | some n' => carefulCheck env n' events

theorem careful_of_check {env : Env α} {events : List (Event α)} {n : Node α} (h : carefulCheck env n events = true) : Careful env n events := by
  induction events generalizing n with
  | nil => trivial
  | cons e events ih =>
    simp only [carefulCheck, Bool.and_eq_true] at h
    refine ⟨ok_of_check h.1, fun n' hn => ih ?_⟩
    have h2 := h.2
    rw [hn] at h2
    exact h2

end ModelarDB.Lemmas.LoggedServer
