import Verif.Lemmas.Restarts
import Verif.Lemmas.StorageOrder
/-
The segments of a series that are saved do not overlap in time, however often the server is stopped without warning.
-/
namespace ModelarDB.Lemmas.Restarts
open Model.Storage Model.Restarts Spec.Storage Spec.Restarts Lemmas.Storage

variable {α : Type} {T : String}

/-- The batches that are not in the tables when the server is started are in the order of the write-ahead log, and the rows that were in the tables
are before them. -/
structure Sequence (T : String) (s : Server α) : Prop where
  order : ((live s).filter fun b => b.1 = T).Sublist s.log
  before : ∀ r ∈ s.saved.flatMap chunkRows, ∀ b ∈ live s, ∀ q ∈ b.2.2, r.table = T → q.table = T → r.tags = q.tags → r.ts < q.ts
  separated : Separated T s.saved
  idle : s.writing ≠ none → s.pending = []

theorem sequence_new (i u c : Nat) : Sequence T (Server.new (α := α) i u c) :=
  ⟨by simp [live, Server.new, Engine.new], by simp [Server.new], .nil, by simp [Server.new]⟩

theorem inOrder_sublist {l l' : List (Row α)} (h : l.Sublist l') (hin : InOrder T l') : InOrder T l := List.Pairwise.sublist h hin

/-- The rows of a table are received in order if they are so in a list that has its batches in the same order. -/
theorem inOrder_filter {l log : List (Batch α)} (htables : ∀ b ∈ l, ∀ r ∈ b.2.2, r.table = b.1)
    (h : (l.filter fun b => b.1 = T).Sublist log) (hin : InOrder T (rowsIn log)) : InOrder T (rowsIn l) := by
  have h1 := inOrder_sublist (EndToEnd.sublist_flatMap h _) hin
  clear h hin
  unfold InOrder rowsIn at *
  induction l with
  | nil => exact .nil
  | cons b l ih =>
    have hsub : ∀ s ∈ l.flatMap fun b => b.2.2, s.table = T → s ∈ (l.filter fun b => decide (b.1 = T)).flatMap fun b => b.2.2 := by
      intro s hs ht
      obtain ⟨b', hb', hs'⟩ := List.mem_flatMap.mp hs
      refine List.mem_flatMap.mpr ⟨b', List.mem_filter.mpr ⟨hb', ?_⟩, hs'⟩
      rw [← htables b' (List.mem_cons_of_mem _ hb') s hs', ht]
      simp
    rw [List.flatMap_cons, List.pairwise_append]
    by_cases hb : b.1 = T
    · rw [List.filter_cons_of_pos (by simpa using hb), List.flatMap_cons, List.pairwise_append] at h1
      exact ⟨h1.1, ih (fun b hb => htables b (List.mem_cons_of_mem _ hb)) h1.2.1, fun r hr s hs ht ht' => h1.2.2 r hr s (hsub s hs ht') ht ht'⟩
    · rw [List.filter_cons_of_neg (by simpa using hb)] at h1
      refine ⟨?_, ih (fun b hb => htables b (List.mem_cons_of_mem _ hb)) h1, fun r hr s _ ht => ?_⟩
      · exact List.pairwise_of_forall_mem_list fun r hr s _ ht => absurd ((htables b (by simp) r hr).symm.trans ht) hb
      · exact absurd ((htables b (by simp) r hr).symm.trans ht) hb

theorem Inv.live_order {env : Env α} {s : Server α} (h : Inv env s) (hq : Sequence T s) (hin : InOrder T (rowsIn s.log)) :
    InOrder T (rowsIn (Restarts.live s)) :=
  inOrder_filter (fun b hb => h.tables b (h.live b hb).1) hq.order hin

theorem Inv.engine_ordered {env : Env α} (hs : Sorts env) (hcap : 2 ≤ env.capacity) {s : Server α} (h : Inv env s) (hg : Good env (rowsIn s.log))
    (hq : Sequence T s) (hin : InOrder T (rowsIn s.log)) : Storage.Inv env s.engine ∧ StorageOrder.Ordered T s.engine := by
  have h1 := h.live_order hq hin
  unfold Restarts.live at h1
  rw [List.append_assoc, rowsIn_append, ← h.received] at h1
  obtain ⟨i, u, c, ops, hrun, hok⟩ := h.history
  have := StorageOrder.ordered_run hs hcap ops (fun op hop => (hok op hop).1) (Storage.inv_new i u c) (StorageOrder.own_new i u c)
    (StorageOrder.ordered_new i u c) hrun (good_subperm hg h.engine_received) (List.pairwise_append.mp h1).1
  exact ⟨this.1, this.2.2⟩

/-- What is saved does not overlap. -/
theorem Inv.all_separated {env : Env α} (hs : Sorts env) (hcap : 2 ≤ env.capacity) {s : Server α} (h : Inv env s) (hg : Good env (rowsIn s.log))
    (hq : Sequence T s) (hin : InOrder T (rowsIn s.log)) : Separated T s.allSaved := by
  obtain ⟨_, ho⟩ := h.engine_ordered hs hcap hg hq hin
  obtain ⟨hes, _⟩ := h.engine_saved hs hcap hg
  refine List.pairwise_append.mpr ⟨hq.separated, StorageOrder.separated_of_ordered ho, ?_⟩
  intro x hx y hy ht ht' htags
  refine Or.inl fun p hp q hq' => ?_
  have hy' : (⟨y.table, y.tags, q.1, q.2⟩ : Row α) ∈ s.engine.received :=
    hes.subset (List.mem_flatMap.mpr ⟨y, hy, List.mem_map.mpr ⟨q, hq', rfl⟩⟩)
  rw [h.received] at hy'
  obtain ⟨b, hb, hyb⟩ := List.mem_flatMap.mp hy'
  exact hq.before ⟨x.table, x.tags, p.1, p.2⟩ (List.mem_flatMap.mpr ⟨x, hx, List.mem_map.mpr ⟨p, hp, rfl⟩⟩) b (by simp [Restarts.live, hb]) _ hyb
    ht ht' htags

theorem filter_unpersisted {tables : List String} (ht : tables.Nodup) (commits : List (String × Nat)) (log : List (Batch α)) :
    ((unpersisted tables commits log).filter fun b => b.1 = T).Sublist log := by
  unfold unpersisted
  induction tables with
  | nil => simp
  | cons t tables ih =>
    rw [List.nodup_cons] at ht
    rw [List.flatMap_cons, List.filter_append]
    by_cases htT : t = T
    · subst htT
      have : ((tables.flatMap fun table => log.filter fun b => decide (b.1 = table) && decide ((b.1, b.2.1) ∉ commits)).filter
          fun b => decide (b.1 = t)) = [] := by
        rw [List.filter_eq_nil_iff]
        intro b hb he
        obtain ⟨t', ht', hb⟩ := List.mem_flatMap.mp hb
        simp only [List.mem_filter, Bool.and_eq_true, decide_eq_true_eq] at hb he
        exact ht.1 (he ▸ hb.2.1 ▸ ht')
      rw [this, List.append_nil]
      exact List.filter_sublist.trans List.filter_sublist
    · have : ((log.filter fun b => decide (b.1 = t) && decide ((b.1, b.2.1) ∉ commits)).filter fun b => decide (b.1 = T)) = [] := by
        rw [List.filter_eq_nil_iff]
        intro b hb he
        simp only [List.mem_filter, Bool.and_eq_true, decide_eq_true_eq] at hb he
        exact htT (hb.2.1.symm.trans he)
      rw [this, List.nil_append]
      exact ih ht.2

/-- The server is started again. -/
theorem Sequence.restart {env : Env α} (hs : Sorts env) (hcap : 2 ≤ env.capacity) {s s' : Server α} (h : Inv env s) (hg : Good env (rowsIn s.log))
    (hq : Sequence T s) (hin : InOrder T (rowsIn s.log))
    {tables : List String} {i u c : Nat} (hstep : s.step env (.restart tables i u c) = some s') : Sequence T s' := by
  have h' := h.restart hs hcap hg hstep
  have hsep := h.all_separated hs hcap hg hq hin
  simp only [Server.step] at hstep
  split at hstep
  case isFalse => cases hstep
  rename_i hcond
  cases hstep
  obtain ⟨he, ho⟩ := h.engine_ordered hs hcap hg hq hin
  obtain ⟨hes, _⟩ := h.engine_saved hs hcap hg
  have hlive : ∀ b, b ∈ unpersisted tables (s.commits ++ s.engine.c.commits) s.log → b ∈ Restarts.live s := by
    intro b hb
    obtain ⟨h1, _, h2⟩ := unpersisted_mem.mp hb
    exact h.all b h1 fun h3 => h2 (List.mem_append_left _ h3)
  refine ⟨?_, ?_, hsep, by simp⟩
  · simp only [Restarts.live, Engine.new, List.nil_append, Option.toList_none, List.append_nil]
    exact filter_unpersisted hcond.1 _ _
  · intro r hr b hb q hqb ht ht' htags
    simp only [Restarts.live, Engine.new, List.nil_append, Option.toList_none, List.append_nil] at hb
    have hbl := hlive b hb
    have hr' := hr
    dsimp only at hr
    rw [List.flatMap_append] at hr
    rcases List.mem_append.mp hr with hr | hr
    · exact hq.before r hr b hbl q hqb ht ht' htags
    · obtain ⟨hlog, _, hc⟩ := unpersisted_mem.mp hb
      have hrr := hes.subset hr
      by_cases hbe : b ∈ s.engine.batches
      · refine StorageOrder.saved_before he ho hr ?_ ?_ ht ht' htags
        · rw [h.received]
          exact List.mem_flatMap.mpr ⟨b, hbe, hqb⟩
        · intro hqs
          refine hc (h'.diskRows q ?_ b hlog hqb)
          dsimp only
          rw [List.flatMap_append]
          exact List.mem_append_right _ hqs
      · have h1 := h.live_order hq hin
        unfold Restarts.live at h1 hbl
        rw [List.append_assoc] at h1 hbl
        rw [rowsIn_append, ← h.received] at h1
        rcases List.mem_append.mp hbl with hbl | hbl
        · exact absurd hbl hbe
        · exact (List.pairwise_append.mp h1).2.2 r hrr q (List.mem_flatMap.mpr ⟨b, hbl, hqb⟩) ht ht' htags

theorem sequence_step {env : Env α} (hs : Sorts env) (hcap : 2 ≤ env.capacity) {s s' : Server α} {a : Action α} (h : Inv env s)
    (hq : Sequence T s) (hstep : s.step env a = some s') (hg : Good env (rowsIn s.log)) (hin : InOrder T (rowsIn s'.log)) : Sequence T s' := by
  cases a with
  | restart tables i u c =>
    obtain ⟨l, hl⟩ := log_step hstep
    rw [hl, rowsIn_append] at hin
    exact hq.restart hs hcap h hg (List.pairwise_append.mp hin).1 hstep
  | replay size =>
    simp only [Server.step] at hstep
    split at hstep
    · cases hstep
    rename_i b rest hp
    obtain ⟨e, he, rfl⟩ := Option.map_eq_some_iff.mp hstep
    obtain ⟨_, h2⟩ := insert_step he
    have hl : Restarts.live { s with pending := rest, engine := e } = Restarts.live s := by
      simp [Restarts.live, h2, hp]
    exact ⟨hl ▸ hq.order, hl ▸ hq.before, hq.separated, fun hw => absurd (hp.symm.trans (hq.idle hw)) (by simp)⟩
  | append table id rows =>
    simp only [Server.step] at hstep
    split at hstep
    case isFalse => cases hstep
    rename_i hcond
    cases hstep
    simp only [Bool.and_eq_true, List.isEmpty_iff, Option.isNone_iff_eq_none] at hcond
    have hl : Restarts.live { s with log := s.log ++ [(table, id, rows)], writing := some (table, id, rows) } =
        Restarts.live s ++ [(table, id, rows)] := by
      simp [Restarts.live, hcond.1.1, hcond.1.2]
    refine ⟨?_, ?_, hq.separated, fun _ => hcond.1.1⟩
    · rw [hl, List.filter_append]
      exact hq.order.append List.filter_sublist
    · rw [hl]
      intro r hr b hb q hqb ht ht' htags
      rcases List.mem_append.mp hb with hb | hb
      · exact hq.before r hr b hb q hqb ht ht' htags
      · rw [List.mem_singleton] at hb
        subst hb
        dsimp only at hin
        rw [rowsIn_append] at hin
        exact (List.pairwise_append.mp hin).2.2 r (h.diskSub.subset hr) q (by simpa [rowsIn] using hqb) ht ht' htags
  | send size =>
    simp only [Server.step] at hstep
    split at hstep
    · cases hstep
    rename_i b hw
    obtain ⟨e, he, rfl⟩ := Option.map_eq_some_iff.mp hstep
    obtain ⟨_, h2⟩ := insert_step he
    have hl : Restarts.live { s with writing := none, acknowledged := s.acknowledged ++ [b], engine := e } = Restarts.live s := by
      simp [Restarts.live, h2, hw, hq.idle (by simp [hw])]
    exact ⟨hl ▸ hq.order, hl ▸ hq.before, hq.separated, by simp⟩
  | engine op =>
    simp only [Server.step] at hstep
    split at hstep
    · cases hstep
    rename_i hop
    obtain ⟨e, he, rfl⟩ := Option.map_eq_some_iff.mp hstep
    obtain ⟨_, h2⟩ := other_step (by simpa using hop) he
    have hl : Restarts.live { s with engine := e } = Restarts.live s := by
      simp [Restarts.live, h2]
    exact ⟨hl ▸ hq.order, hl ▸ hq.before, hq.separated, hq.idle⟩

theorem sequence_run {env : Env α} (hs : Sorts env) (hcap : 2 ≤ env.capacity) (actions : List (Action α)) (hok : ∀ a ∈ actions, Action.ok a)
    {s s' : Server α} (h : Inv env s) (hq : Sequence T s) (hrun : s.run env actions = some s') (hg : Good env (rowsIn s'.log))
    (hin : InOrder T (rowsIn s'.log)) : Sequence T s' := by
  induction actions generalizing s with
  | nil => cases hrun; exact hq
  | cons a actions ih =>
    simp only [Server.run] at hrun
    obtain ⟨s₁, h1, h2⟩ := Option.bind_eq_some_iff.mp hrun
    have hg1 := good_run h2 hg
    obtain ⟨l, hl⟩ := run_log h2
    have hin1 := hin
    rw [hl, rowsIn_append] at hin1
    exact ih (fun a ha => hok a (List.mem_cons_of_mem _ ha)) (inv_step hs hcap (hok a (by simp)) h h1 hg1)
      (sequence_step hs hcap h hq h1 (good_step h1 hg1) (List.pairwise_append.mp hin1).1) h2

theorem server_run_append {env : Env α} (l l' : List (Action α)) (s : Server α) :
    s.run env (l ++ l') = (s.run env l).bind fun s => s.run env l' := by
  induction l generalizing s with
  | nil => rfl
  | cons a l ih =>
    simp only [List.cons_append, Server.run, Option.bind_assoc]
    exact Option.bind_congr fun s' _ => ih s'

/-- The steps until a request is answered. -/
theorem recovered_run {env : Env α} {crashed requested s : Server α} (hr : Recovered env crashed requested s) :
    ∃ actions : List (Action α), crashed.run env actions = some s ∧ ∀ a ∈ actions, Action.ok a := by
  obtain ⟨tables, i, u, c, s₁, s₃, before, after, request, r1, r2, _, r4, r5, r6, r7, _⟩ := hr
  refine ⟨.restart tables i u c :: (before ++ request :: after), ?_, ?_⟩
  · simp [Server.run, r1, server_run_append, r2, r5, r6]
  · intro a ha
    rcases List.mem_cons.mp ha with rfl | ha
    · trivial
    · rcases List.mem_append.mp ha with ha | ha
      · exact (r7 a (List.mem_append_left _ ha)).1
      · rcases List.mem_cons.mp ha with rfl | ha
        · cases a with
          | engine op => cases op <;> trivial
          | _ => cases r4
        · exact (r7 a (List.mem_append_right _ ha)).1

end ModelarDB.Lemmas.Restarts
