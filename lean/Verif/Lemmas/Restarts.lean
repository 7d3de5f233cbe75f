import Verif.Spec.Restarts
import Verif.Lemmas.StorageIds
import Verif.Lemmas.StorageMemory
import Verif.Lemmas.EndToEnd
import Verif.Props.C20
import Verif.Props.C23
/-
What is in the tables and in the write-ahead log of a server that is stopped without warning any number of times.
-/
namespace ModelarDB.Lemmas.Restarts
open Model.Storage Model.Restarts Spec.Storage Spec.Restarts Lemmas.Storage

variable {α : Type}

/-- The table and the id of a batch. -/
def ident (b : Batch α) : String × Nat := (b.1, b.2.1)

/-- The batches that are not in the tables when the server is started. -/
def live (s : Server α) : List (Batch α) := s.engine.batches ++ s.pending ++ s.writing.toList

structure Inv (env : Env α) (s : Server α) : Prop where
  history : ∃ i u c ops, (Engine.new i u c).run env ops = some s.engine ∧ ∀ op ∈ ops, Op.ioOk op ∧ Op.tableOk op
  received : s.engine.received = rowsIn s.engine.batches
  ids : (s.log.map ident).Nodup
  distinct : ((live s).map ident).Nodup
  live : ∀ b ∈ live s, b ∈ s.log ∧ ident b ∉ s.commits
  all : ∀ b ∈ s.log, ident b ∉ s.commits → b ∈ Restarts.live s
  tables : ∀ b ∈ s.log, ∀ r ∈ b.2.2, r.table = b.1
  diskRows : ∀ r ∈ s.saved.flatMap chunkRows, ∀ b ∈ s.log, r ∈ b.2.2 → ident b ∈ s.commits
  diskIds : ∀ p ∈ s.commits, ∃ b ∈ s.log, ident b = p ∧ ∃ r ∈ b.2.2, r ∈ s.saved.flatMap chunkRows
  diskSub : (s.saved.flatMap chunkRows).Subperm (rowsIn s.log)
  chunks : ∀ x ∈ s.saved, x.points ≠ [] ∧ x.points.length ≤ env.capacity ∧ Spec.StrictlyIncreasing (x.points.map Prod.fst)
  acknowledged : ∀ b ∈ s.acknowledged, b ∈ s.log ∧ b ∉ s.writing

theorem rowsIn_append (l l' : List (Batch α)) : rowsIn (l ++ l') = rowsIn l ++ rowsIn l' := List.flatMap_append

theorem rows_nodup {env : Env α} {rows : List (Row α)} (hg : Good env rows) : rows.Nodup := List.Nodup.of_map _ hg.keys

theorem good_subperm {env : Env α} {l l' : List (Row α)} (hg : Good env l') (h : l.Subperm l') : Good env l := by
  refine ⟨fun r hr r' hr' => hg.hash r (h.subset hr) r' (h.subset hr'), ?_⟩
  obtain ⟨k, hk, hks⟩ := h
  exact (hk.map key).nodup_iff.mp (hg.keys.sublist (hks.map _))

/-- A row is in one batch. -/
theorem same_batch {log : List (Batch α)} (hn : (rowsIn log).Nodup) {b b' : Batch α} (hb : b ∈ log) (hb' : b' ∈ log) {r : Row α} (hr : r ∈ b.2.2)
    (hr' : r ∈ b'.2.2) : b = b' := by
  by_contra hne
  have := (List.nodup_flatMap.mp hn).2
  have hsymm : Std.Symm (Function.onFun List.Disjoint fun b : Batch α => b.2.2) := ⟨fun _ _ h => h.symm⟩
  exact (this.forall hb hb' hne) hr hr'

theorem nodup_of_ids {l : List (Batch α)} (h : (l.map ident).Nodup) : l.Nodup := List.Nodup.of_map _ h

theorem rowsIn_subperm {l l' : List (Batch α)} (h : l.Subperm l') : (rowsIn l).Subperm (rowsIn l') := by
  obtain ⟨k, hk, hks⟩ := h
  exact ((hk.symm.flatMap_right _).subperm).trans (EndToEnd.sublist_flatMap hks _).subperm

theorem Inv.engine_received {env : Env α} {s : Server α} (h : Inv env s) : s.engine.received.Subperm (rowsIn s.log) := by
  rw [h.received]
  refine rowsIn_subperm (List.subperm_of_subset ?_ fun b hb => (h.live b ?_).1)
  · refine (nodup_of_ids h.distinct).sublist ?_
    simp [Restarts.live]
  · simp [Restarts.live, hb]

theorem Inv.engine_ids {env : Env α} (hs : Sorts env) (hcap : 2 ≤ env.capacity) {s : Server α} (h : Inv env s) (hg : Good env (rowsIn s.log)) :
    Ids s.engine := by
  obtain ⟨i, u, c, ops, hrun, hok⟩ := h.history
  exact (ids_run hs hcap ops (fun op hop => (hok op hop).1) (fun op hop => (hok op hop).2) (inv_new i u c) (ids_new i u c) hrun
    (good_subperm hg h.engine_received)).2

theorem Inv.engine_saved {env : Env α} (hs : Sorts env) (hcap : 2 ≤ env.capacity) {s : Server α} (h : Inv env s) (hg : Good env (rowsIn s.log)) :
    (s.engine.c.saved.flatMap chunkRows).Subperm s.engine.received ∧ ∀ x ∈ s.engine.c.saved, x.points ≠ [] ∧ x.points.length ≤ env.capacity ∧
      Spec.StrictlyIncreasing (x.points.map Prod.fst) := by
  obtain ⟨i, u, c, ops, hrun, hok⟩ := h.history
  exact EndToEnd.saved_spec hs hcap (fun op hop => (hok op hop).1) hrun (good_subperm hg h.engine_received)

/-- What is in the tables. -/
theorem Inv.saved {env : Env α} (hs : Sorts env) (hcap : 2 ≤ env.capacity) {s : Server α} (h : Inv env s) (hg : Good env (rowsIn s.log)) :
    (inTables s).Subperm (rowsIn s.log) ∧ ∀ x ∈ s.allSaved, x.points ≠ [] ∧ x.points.length ≤ env.capacity ∧
      Spec.StrictlyIncreasing (x.points.map Prod.fst) := by
  obtain ⟨h1, h2⟩ := h.engine_saved hs hcap hg
  constructor
  · unfold inTables Server.allSaved
    rw [List.flatMap_append]
    refine List.subperm_of_subset ?_ ?_
    · rw [List.nodup_append]
      refine ⟨rows_nodup (good_subperm hg h.diskSub), rows_nodup (good_subperm hg (h1.trans h.engine_received)), ?_⟩
      rintro r hr r' hr' rfl
      have h3 := h1.subset hr'
      rw [h.received] at h3
      obtain ⟨b, hb, h4⟩ := List.mem_flatMap.mp h3
      have h5 := h.live b (by simp [Restarts.live, hb])
      exact h5.2 (h.diskRows r hr b h5.1 h4)
    · intro r hr
      rcases List.mem_append.mp hr with hr | hr
      · exact h.diskSub.subset hr
      · exact (h1.trans h.engine_received).subset hr
  · intro x hx
    rcases List.mem_append.mp hx with hx | hx
    · exact h.chunks x hx
    · exact h2 x hx

theorem unpersisted_mem {tables : List String} {commits : List (String × Nat)} {log : List (Batch α)} {b : Batch α} :
    b ∈ unpersisted tables commits log ↔ b ∈ log ∧ b.1 ∈ tables ∧ ident b ∉ commits := by
  simp only [unpersisted, List.mem_flatMap, List.mem_filter, Bool.and_eq_true, decide_eq_true_eq, ident]
  constructor
  · rintro ⟨t, ht, hb, rfl, hc⟩
    exact ⟨hb, ht, hc⟩
  · rintro ⟨hb, ht, hc⟩
    exact ⟨b.1, ht, hb, rfl, hc⟩

theorem unpersisted_nodup {tables : List String} (ht : tables.Nodup) (commits : List (String × Nat)) {log : List (Batch α)}
    (hl : (log.map ident).Nodup) : ((unpersisted tables commits log).map ident).Nodup := by
  have hsub : ∀ t, ((log.filter fun b => decide (b.1 = t) && decide ((b.1, b.2.1) ∉ commits)).map ident).Sublist (log.map ident) :=
    fun t => List.filter_sublist.map _
  unfold unpersisted
  rw [List.map_flatMap, List.nodup_flatMap]
  refine ⟨fun t _ => hl.sublist (hsub t), ht.imp fun {t t'} hne => ?_⟩
  intro p hp hp'
  obtain ⟨b, hb, rfl⟩ := List.mem_map.mp hp
  obtain ⟨b', hb', he⟩ := List.mem_map.mp hp'
  simp only [List.mem_filter, Bool.and_eq_true, decide_eq_true_eq] at hb hb'
  exact hne (hb.2.1.symm.trans ((congrArg Prod.fst he).symm.trans hb'.2.1))

/-- The server is started again. -/
theorem Inv.restart {env : Env α} (hs : Sorts env) (hcap : 2 ≤ env.capacity) {s s' : Server α} (h : Inv env s) (hg : Good env (rowsIn s.log))
    {tables : List String} {i u c : Nat} (hstep : s.step env (.restart tables i u c) = some s') : Inv env s' := by
  simp only [Server.step] at hstep
  split at hstep
  case isFalse => cases hstep
  rename_i hcond
  cases hstep
  obtain ⟨hsaved, hchunks⟩ := h.saved hs hcap hg
  have hids := h.engine_ids hs hcap hg
  obtain ⟨hes, _⟩ := h.engine_saved hs hcap hg
  have hsr : (s.saved ++ s.engine.c.saved).flatMap chunkRows = inTables s := rfl
  have hn := rows_nodup hg
  refine ⟨⟨i, u, c, [], rfl, by simp⟩, rfl, h.ids, ?_, ?_, ?_, h.tables, ?_, ?_, hsaved, hchunks, fun b hb => ⟨(h.acknowledged b hb).1, by simp⟩⟩
  · simp only [Restarts.live, Engine.new, List.nil_append, Option.toList_none, List.append_nil]
    exact unpersisted_nodup hcond.1 _ h.ids
  · intro b hb
    simp only [Restarts.live, Engine.new, List.nil_append, Option.toList_none, List.append_nil] at hb
    have := unpersisted_mem.mp hb
    exact ⟨this.1, this.2.2⟩
  · intro b hb hc
    simp only [Restarts.live, Engine.new, List.nil_append, Option.toList_none, List.append_nil]
    exact unpersisted_mem.mpr ⟨hb, hcond.2 b hb, hc⟩
  · intro r hr b hb hrb
    rw [List.flatMap_append] at hr
    rcases List.mem_append.mp hr with hr | hr
    · exact List.mem_append_left _ (h.diskRows r hr b hb hrb)
    · refine List.mem_append_right _ ?_
      have h3 := hes.subset hr
      rw [h.received] at h3
      obtain ⟨b', hb', h4⟩ := List.mem_flatMap.mp h3
      have := same_batch hn hb (h.live b' (by simp [Restarts.live, hb'])).1 hrb h4
      subst this
      obtain ⟨x, hx, hrx⟩ := List.mem_flatMap.mp hr
      obtain ⟨h5, h6⟩ := (hids.c.saved x hx).rows r hrx b hb' hrb
      exact (hids.c.commits _ _).mpr ⟨x, hx, h5.symm, h6⟩
  · intro p hp
    dsimp only
    rw [List.flatMap_append]
    rcases List.mem_append.mp hp with hp | hp
    · obtain ⟨b, hb, he, r, h1, h2⟩ := h.diskIds p hp
      exact ⟨b, hb, he, r, h1, List.mem_append_left _ h2⟩
    · obtain ⟨x, hx, h1, h2⟩ := (hids.c.commits p.1 p.2).mp hp
      obtain ⟨b, hb, h3, h4, r, h5, h6⟩ := (hids.c.saved x hx).ids _ h2
      refine ⟨b, (h.live b (by simp [Restarts.live, hb])).1, ?_, r, h6, List.mem_append_right _ (List.mem_flatMap.mpr ⟨x, hx, h5⟩)⟩
      exact Prod.ext (h3.trans h1) h4

/-- Rows are passed on to the storage engine. -/
theorem insert_step {env : Env α} {e e' : Engine α} {b : Batch α} {size : Nat}
    (h : e.step env (.insert b.1 b.2.2 (some b.2.1) size) = some e') :
    e'.received = e.received ++ b.2.2 ∧ e'.batches = e.batches ++ [b] := by
  simp only [Engine.step] at h
  split at h
  · cases h
    exact ⟨rfl, rfl⟩
  · cases h

theorem other_step {env : Env α} {e e' : Engine α} {op : Op α} (hop : isInsert op = false) (h : e.step env op = some e') :
    e'.received = e.received ∧ e'.batches = e.batches := by
  cases op <;> simp only [Engine.step] at h
  case insert => cases hop
  case flush => cases h; exact ⟨rfl, rfl⟩
  case stop => cases h; exact ⟨rfl, rfl⟩
  case touchMemory => cases h; exact ⟨rfl, rfl⟩
  case touchDisk => cases h; exact ⟨rfl, rfl⟩
  case adjustIngested => cases h; exact ⟨rfl, rfl⟩
  case write =>
    split at h
    · split at h
      · cases h
      all_goals
        obtain ⟨c, _, rfl⟩ := Option.map_eq_some_iff.mp h
        exact ⟨rfl, rfl⟩
    · cases h
  case adjustCompressed =>
    obtain ⟨c, _, rfl⟩ := Option.map_eq_some_iff.mp h
    exact ⟨rfl, rfl⟩
  all_goals
    repeat' split at h
    all_goals cases h
    all_goals exact ⟨rfl, rfl⟩

theorem run_append {env : Env α} (l l' : List (Op α)) (e : Engine α) : e.run env (l ++ l') = (e.run env l).bind fun e => e.run env l' := by
  induction l generalizing e with
  | nil => rfl
  | cons op l ih =>
    simp only [List.cons_append, Engine.run, Option.bind_assoc]
    exact Option.bind_congr fun e' _ => ih e'

theorem history_step {env : Env α} {e e' : Engine α} {op : Op α} (hio : Op.ioOk op) (ht : Op.tableOk op) (hstep : e.step env op = some e')
    (h : ∃ i u c ops, (Engine.new i u c).run env ops = some e ∧ ∀ op ∈ ops, Op.ioOk op ∧ Op.tableOk op) :
    ∃ i u c ops, (Engine.new i u c).run env ops = some e' ∧ ∀ op ∈ ops, Op.ioOk op ∧ Op.tableOk op := by
  obtain ⟨i, u, c, ops, hrun, hok⟩ := h
  refine ⟨i, u, c, ops ++ [op], ?_, ?_⟩
  · rw [run_append, hrun]
    simp [Engine.run, hstep]
  · intro o ho
    rcases List.mem_append.mp ho with ho | ho
    · exact hok o ho
    · rw [List.mem_singleton] at ho
      subst ho
      exact ⟨hio, ht⟩

theorem log_step {env : Env α} {s s' : Server α} {a : Action α} (hstep : s.step env a = some s') :
    ∃ l, s'.log = s.log ++ l := by
  cases a <;> simp only [Server.step] at hstep
  case replay =>
    split at hstep
    · cases hstep
    · obtain ⟨e, _, rfl⟩ := Option.map_eq_some_iff.mp hstep
      exact ⟨[], by simp⟩
  case append =>
    split at hstep
    · cases hstep
      exact ⟨_, rfl⟩
    · cases hstep
  case send =>
    split at hstep
    · cases hstep
    · obtain ⟨e, _, rfl⟩ := Option.map_eq_some_iff.mp hstep
      exact ⟨[], by simp⟩
  case engine =>
    split at hstep
    · cases hstep
    · obtain ⟨e, _, rfl⟩ := Option.map_eq_some_iff.mp hstep
      exact ⟨[], by simp⟩
  case restart =>
    split at hstep
    · cases hstep
      exact ⟨[], by simp⟩
    · cases hstep

theorem good_step {env : Env α} {s s' : Server α} {a : Action α} (hstep : s.step env a = some s') (hg : Good env (rowsIn s'.log)) :
    Good env (rowsIn s.log) := by
  obtain ⟨l, hl⟩ := log_step hstep
  rw [hl, rowsIn_append] at hg
  exact hg.mono

theorem run_log {env : Env α} {actions : List (Action α)} {s s' : Server α} (hrun : s.run env actions = some s') :
    ∃ l, s'.log = s.log ++ l := by
  induction actions generalizing s with
  | nil => cases hrun; exact ⟨[], by simp⟩
  | cons a actions ih =>
    simp only [Server.run] at hrun
    obtain ⟨s₁, h1, h2⟩ := Option.bind_eq_some_iff.mp hrun
    obtain ⟨l, hl⟩ := log_step h1
    obtain ⟨l', hl'⟩ := ih h2
    exact ⟨l ++ l', by rw [hl', hl, List.append_assoc]⟩

theorem good_run {env : Env α} {actions : List (Action α)} {s s' : Server α} (hrun : s.run env actions = some s') (hg : Good env (rowsIn s'.log)) :
    Good env (rowsIn s.log) := by
  obtain ⟨l, hl⟩ := run_log hrun
  rw [hl, rowsIn_append] at hg
  exact hg.mono

theorem inv_step {env : Env α} (hs : Sorts env) (hcap : 2 ≤ env.capacity) {s s' : Server α} {a : Action α} (hok : Action.ok a) (h : Inv env s)
    (hstep : s.step env a = some s') (hg : Good env (rowsIn s'.log)) : Inv env s' := by
  have hg0 := good_step hstep hg
  cases a with
  | restart tables i u c => exact h.restart hs hcap hg0 hstep
  | replay size =>
    simp only [Server.step] at hstep
    split at hstep
    · cases hstep
    rename_i b rest hp
    obtain ⟨e, he, rfl⟩ := Option.map_eq_some_iff.mp hstep
    obtain ⟨h1, h2⟩ := insert_step he
    have hb := h.live b (by simp [Restarts.live, hp])
    have hl : Restarts.live { s with pending := rest, engine := e } = Restarts.live s := by
      simp [Restarts.live, h2, hp]
    refine ⟨history_step (op := .insert b.1 b.2.2 (some b.2.1) size) trivial (h.tables b hb.1) he h.history, ?_, h.ids, ?_, ?_, ?_, h.tables, h.diskRows, h.diskIds, h.diskSub, h.chunks,
      h.acknowledged⟩
    · dsimp only
      rw [h1, h2, rowsIn_append, h.received]
      simp [rowsIn]
    · rw [hl]; exact h.distinct
    · rw [hl]; exact h.live
    · rw [hl]; exact h.all
  | append table id rows =>
    simp only [Server.step] at hstep
    split at hstep
    case isFalse => cases hstep
    rename_i hcond
    cases hstep
    simp only [Bool.and_eq_true, List.isEmpty_iff, Option.isNone_iff_eq_none, Bool.not_eq_true', List.any_eq_false, decide_eq_true_eq, not_and] at hcond
    obtain ⟨⟨hp, hw⟩, hfresh⟩ := hcond
    have hnew : ∀ b ∈ s.log, ident b ≠ (table, id) := by
      intro b hb he
      exact hfresh b hb (congrArg Prod.fst he) (congrArg Prod.snd he)
    have hcommits : (table, id) ∉ s.commits := by
      intro hc
      obtain ⟨b, hb, he, _⟩ := h.diskIds _ hc
      exact hnew b hb he
    have hl : Restarts.live { s with log := s.log ++ [(table, id, rows)], writing := some (table, id, rows) } =
        Restarts.live s ++ [(table, id, rows)] := by
      simp [Restarts.live, hp, hw]
    have hok : ∀ r ∈ rows, r.table = table := hok
    refine ⟨h.history, h.received, ?_, ?_, ?_, ?_, ?_, ?_, ?_, ?_, h.chunks, ?_⟩
    · rw [List.map_append, List.nodup_append]
      refine ⟨h.ids, by simp, ?_⟩
      intro p hp q hq he
      obtain ⟨b, hb, rfl⟩ := List.mem_map.mp hp
      simp only [List.map_cons, List.map_nil, List.mem_singleton] at hq
      subst hq
      exact hnew b hb he
    · rw [hl, List.map_append, List.nodup_append]
      refine ⟨h.distinct, by simp, ?_⟩
      intro p hp q hq he
      obtain ⟨b, hb, rfl⟩ := List.mem_map.mp hp
      simp only [List.map_cons, List.map_nil, List.mem_singleton] at hq
      subst hq
      exact hnew b (h.live b hb).1 he
    · rw [hl]
      intro b hb
      rcases List.mem_append.mp hb with hb | hb
      · exact ⟨List.mem_append_left _ (h.live b hb).1, (h.live b hb).2⟩
      · rw [List.mem_singleton] at hb
        subst hb
        exact ⟨List.mem_append_right _ (by simp), hcommits⟩
    · rw [hl]
      intro b hb hc
      rcases List.mem_append.mp hb with hb | hb
      · exact List.mem_append_left _ (h.all b hb hc)
      · exact List.mem_append_right _ hb
    · intro b hb r hr
      rcases List.mem_append.mp hb with hb | hb
      · exact h.tables b hb r hr
      · rw [List.mem_singleton] at hb
        subst hb
        exact hok r hr
    · intro r hr b hb hrb
      rcases List.mem_append.mp hb with hb | hb
      · exact h.diskRows r hr b hb hrb
      · rw [List.mem_singleton] at hb
        subst hb
        have hn := rows_nodup hg
        dsimp only at hn
        rw [rowsIn_append, List.nodup_append] at hn
        exact absurd rfl (hn.2.2 r (h.diskSub.subset hr) r (by simpa [rowsIn] using hrb))
    · intro p hp
      obtain ⟨b, hb, hrest⟩ := h.diskIds p hp
      exact ⟨b, List.mem_append_left _ hb, hrest⟩
    · dsimp only
      rw [rowsIn_append]
      exact h.diskSub.trans (List.sublist_append_left _ _).subperm
    · intro b hb
      refine ⟨List.mem_append_left _ (h.acknowledged b hb).1, ?_⟩
      intro he
      simp only [Option.mem_def, Option.some.injEq] at he
      exact hnew b (h.acknowledged b hb).1 (by rw [← he]; rfl)
  | send size =>
    simp only [Server.step] at hstep
    split at hstep
    · cases hstep
    rename_i b hw
    obtain ⟨e, he, rfl⟩ := Option.map_eq_some_iff.mp hstep
    obtain ⟨h1, h2⟩ := insert_step he
    have hb := h.live b (by simp [Restarts.live, hw])
    have hl : (Restarts.live { s with writing := none, acknowledged := s.acknowledged ++ [b], engine := e }).Perm (Restarts.live s) := by
      simp only [Restarts.live, h2, hw, Option.toList_none, Option.toList_some, List.append_nil, List.append_assoc]
      exact List.Perm.append_left _ List.perm_append_comm
    refine ⟨history_step (op := .insert b.1 b.2.2 (some b.2.1) size) trivial (h.tables b hb.1) he h.history, ?_, h.ids, ?_, ?_, ?_, h.tables, h.diskRows, h.diskIds, h.diskSub, h.chunks, ?_⟩
    · dsimp only
      rw [h1, h2, rowsIn_append, h.received]
      simp [rowsIn]
    · exact (hl.map _).nodup_iff.mpr h.distinct
    · exact fun b hb => h.live b (hl.mem_iff.mp hb)
    · exact fun b hb hc => hl.mem_iff.mpr (h.all b hb hc)
    · intro b' hb'
      rcases List.mem_append.mp hb' with hb' | hb'
      · exact ⟨(h.acknowledged b' hb').1, by simp⟩
      · rw [List.mem_singleton] at hb'
        subst hb'
        exact ⟨hb.1, by simp⟩
  | engine op =>
    simp only [Server.step] at hstep
    split at hstep
    · cases hstep
    rename_i hop
    obtain ⟨e, he, rfl⟩ := Option.map_eq_some_iff.mp hstep
    obtain ⟨h1, h2⟩ := other_step (by simpa using hop) he
    have hl : Restarts.live { s with engine := e } = Restarts.live s := by simp [Restarts.live, h2]
    have ht : Op.tableOk op := by cases op <;> trivial
    refine ⟨history_step hok ht he h.history, ?_, h.ids, ?_, ?_, ?_, h.tables, h.diskRows, h.diskIds, h.diskSub, h.chunks, h.acknowledged⟩
    · dsimp only
      rw [h1, h2, h.received]
    · rw [hl]; exact h.distinct
    · rw [hl]; exact h.live
    · rw [hl]; exact h.all

theorem inv_new {env : Env α} (i u c : Nat) : Inv env (Server.new (α := α) i u c) := by
  refine ⟨⟨i, u, c, [], rfl, by simp⟩, rfl, ?_, ?_, ?_, ?_, ?_, ?_, ?_, ?_, ?_, ?_⟩ <;>
    simp [Server.new, Restarts.live, Engine.new, rowsIn]

theorem inv_run {env : Env α} (hs : Sorts env) (hcap : 2 ≤ env.capacity) (actions : List (Action α)) (hok : ∀ a ∈ actions, Action.ok a)
    {s s' : Server α} (h : Inv env s) (hrun : s.run env actions = some s') (hg : Good env (rowsIn s'.log)) : Inv env s' := by
  induction actions generalizing s with
  | nil => cases hrun; exact h
  | cons a actions ih =>
    simp only [Server.run] at hrun
    obtain ⟨s₁, h1, h2⟩ := Option.bind_eq_some_iff.mp hrun
    exact ih (fun a ha => hok a (List.mem_cons_of_mem _ ha)) (inv_step hs hcap (hok a (List.mem_cons_self ..)) h h1 (good_run h2 hg)) h2

/-- The steps of the storage engine while the server is running. -/
theorem engine_step {env : Env α} {s s' : Server α} {a : Action α} (hok : Action.ok a) (hr : Action.isRestart a = false)
    (hstep : s.step env a = some s') :
    s'.saved = s.saved ∧ s'.commits = s.commits ∧ ∃ ops, s.engine.run env ops = some s'.engine ∧ (∀ op ∈ ops, Op.ioOk op) ∧
      ops.countP Op.isRequest = if Action.isRequest a then 1 else 0 := by
  cases a <;> simp only [Server.step] at hstep
  case replay size =>
    split at hstep
    · cases hstep
    · rename_i b rest _
      obtain ⟨e, he, rfl⟩ := Option.map_eq_some_iff.mp hstep
      exact ⟨rfl, rfl, [.insert b.1 b.2.2 (some b.2.1) size], by simp [Engine.run, he], by simp [Op.ioOk], by simp [Op.isRequest, Action.isRequest]⟩
  case append =>
    split at hstep
    · cases hstep
      exact ⟨rfl, rfl, [], rfl, by simp, by simp [Action.isRequest]⟩
    · cases hstep
  case send size =>
    split at hstep
    · cases hstep
    · rename_i b _
      obtain ⟨e, he, rfl⟩ := Option.map_eq_some_iff.mp hstep
      exact ⟨rfl, rfl, [.insert b.1 b.2.2 (some b.2.1) size], by simp [Engine.run, he], by simp [Op.ioOk], by simp [Op.isRequest, Action.isRequest]⟩
  case engine op =>
    split at hstep
    · cases hstep
    · obtain ⟨e, he, rfl⟩ := Option.map_eq_some_iff.mp hstep
      refine ⟨rfl, rfl, [op], by simp [Engine.run, he], ?_, ?_⟩
      · intro o ho
        rw [List.mem_singleton] at ho
        subst ho
        exact hok
      · have hq : Action.isRequest (.engine op) = Op.isRequest op := rfl
        rw [hq]
        simp only [List.countP_cons, List.countP_nil, Nat.zero_add]
  case restart => cases hr

theorem engine_run {env : Env α} {actions : List (Action α)} {s s' : Server α} (hok : ∀ a ∈ actions, Action.ok a ∧ Action.isRestart a = false)
    (hrun : s.run env actions = some s') :
    s'.saved = s.saved ∧ s'.commits = s.commits ∧ ∃ ops, s.engine.run env ops = some s'.engine ∧ (∀ op ∈ ops, Op.ioOk op) ∧
      ops.countP Op.isRequest = actions.countP Action.isRequest := by
  induction actions generalizing s with
  | nil => cases hrun; exact ⟨rfl, rfl, [], rfl, by simp, rfl⟩
  | cons a actions ih =>
    simp only [Server.run] at hrun
    obtain ⟨s₁, h1, h2⟩ := Option.bind_eq_some_iff.mp hrun
    obtain ⟨a1, a2, ops, a3, a4, a5⟩ := engine_step (hok a (List.mem_cons_self ..)).1 (hok a (List.mem_cons_self ..)).2 h1
    obtain ⟨b1, b2, ops', b3, b4, b5⟩ := ih (fun a ha => hok a (List.mem_cons_of_mem _ ha)) h2
    refine ⟨b1.trans a1, b2.trans a2, ops ++ ops', by rw [run_append, a3]; exact b3, ?_, ?_⟩
    · intro op hop
      rcases List.mem_append.mp hop with hop | hop
      · exact a4 op hop
      · exact b4 op hop
    · rw [List.countP_append, a5, b5, List.countP_cons]
      omega

/-- The server is stopped without warning, started again and told to flush. -/
theorem recovered {env : Env α} (hs : Sorts env) (hcap : 2 ≤ env.capacity) {crashed requested s : Server α} (h : Inv env crashed)
    (hr : Recovered env crashed requested s) (hg : Good env (rowsIn s.log)) :
    Inv env requested ∧ Inv env s ∧ (∃ l, s.log = requested.log ++ l) ∧ (∀ r ∈ inTables crashed, r ∈ inTables s) ∧
      (rowsIn requested.engine.batches).Subperm (s.engine.c.saved.flatMap chunkRows) ∧ requested.commits = crashed.commits ++ crashed.engine.c.commits ∧
      requested.saved = crashed.allSaved := by
  obtain ⟨tables, i, u, c, s₁, s₃, before, after, request, r1, r2, r3, r4, r5, r6, r7, r8⟩ := hr
  have hreqok : Action.ok request := by
    cases request with
    | engine op => cases op <;> trivial
    | _ => cases r4
  have hnr : Action.isRestart request = false := by
    cases request <;> first | rfl | cases r4
  have hg3 := good_run r6 hg
  have hg2 := good_step r5 hg3
  have hg1 := good_run r2 hg2
  have i1 := h.restart hs hcap (good_step r1 hg1) r1
  have i2 := inv_run hs hcap before (fun a ha => (r7 a (List.mem_append_left _ ha)).1) i1 r2 hg2
  have i3 := inv_step hs hcap hreqok i2 r5 hg3
  have i4 := inv_run hs hcap after (fun a ha => (r7 a (List.mem_append_right _ ha)).1) i3 r6 hg
  obtain ⟨a1, a2, ops, a3, a4, a5⟩ := engine_run (fun a ha => r7 a (List.mem_append_left _ ha)) r2
  obtain ⟨b1, b2, _⟩ := engine_step hreqok hnr r5
  obtain ⟨c1, c2, ops', c3, c4, _⟩ := engine_run (fun a ha => r7 a (List.mem_append_right _ ha)) r6
  have hs1 : s₁.saved = crashed.allSaved ∧ s₁.commits = crashed.commits ++ crashed.engine.c.commits ∧ s₁.engine = Engine.new i u c := by
    simp only [Server.step] at r1
    split at r1
    · cases r1
      exact ⟨rfl, rfl, rfl⟩
    · cases r1
  obtain ⟨op, hop, he⟩ : ∃ op, Op.isRequest op = true ∧ requested.engine.step env op = some s₃.engine := by
    cases request with
    | engine op =>
      simp only [Server.step] at r5
      split at r5
      · cases r5
      · obtain ⟨e, he, rfl⟩ := Option.map_eq_some_iff.mp r5
        exact ⟨op, r4, he⟩
    | _ => cases r4
  have hlog : ∃ l, s.log = requested.log ++ l := by
    obtain ⟨l, hl⟩ := log_step r5
    obtain ⟨l', hl'⟩ := run_log r6
    exact ⟨l ++ l', by rw [hl', hl, List.append_assoc]⟩
  rw [hs1.2.2] at a3
  refine ⟨i2, i4, hlog, ?_, ?_, by rw [a2, hs1.2.1], by rw [a1, hs1.1]⟩
  · intro r hr
    unfold inTables Server.allSaved
    rw [List.flatMap_append, c1, b1, a1, hs1.1]
    exact List.mem_append_left _ hr
  · rw [← i2.received]
    have hall : ∀ op ∈ ops ++ ops', Op.ioOk op := by
      intro op hop
      rcases List.mem_append.mp hop with hop | hop
      · exact a4 op hop
      · exact c4 op hop
    exact Props.C23_flush_saves_everything_partial hs hcap hop hall a3 he c3 (by rw [a5]; exact r8) (good_subperm hg i4.engine_received)

end ModelarDB.Lemmas.Restarts
