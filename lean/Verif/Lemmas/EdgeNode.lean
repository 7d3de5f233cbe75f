import Verif.Lemmas.DataTransfer
import Verif.Lemmas.RestartsOrder
import Verif.Props.C26
import Verif.Spec.EdgeNode
/-
Lemmas about edge nodes, for C87.
-/
namespace ModelarDB.Lemmas.EdgeNode
open Model Model.Storage Model.Restarts Model.EdgeNode Spec.Storage Spec.Restarts Spec.DataTransfer Spec.EdgeNode

variable {α : Type}

theorem saveCompressedData_grows {c c' : Compressed α} {table : String} (h : saveCompressedData c table = some c') :
    ∃ l, c'.saved = c.saved ++ l := by
  unfold saveCompressedData at h
  split at h
  · cases h
  · cases h; exact ⟨_, rfl⟩

theorem saveToFreeMemory_grows {size : Nat} {queue : List String} {c c' : Compressed α} (h : saveToFreeMemory size queue c = some c') :
    ∃ l, c'.saved = c.saved ++ l := by
  induction queue generalizing c with
  | nil =>
    unfold saveToFreeMemory at h
    split at h
    · cases h
    · cases h; exact ⟨[], by simp⟩
  | cons table queue ih =>
    unfold saveToFreeMemory at h
    split at h
    · split at h
      · cases h
      · rename_i c₁ h1
        obtain ⟨l, hl⟩ := saveCompressedData_grows h1
        obtain ⟨l', hl'⟩ := ih h
        exact ⟨l ++ l', by rw [hl', hl]; simp⟩
    · cases h; exact ⟨[], by simp⟩

theorem flushCompressed_grows {queue : List String} {c c' : Compressed α} (h : flushCompressed queue c = some c') :
    ∃ l, c'.saved = c.saved ++ l := by
  induction queue generalizing c with
  | nil => unfold flushCompressed at h; cases h; exact ⟨[], by simp⟩
  | cons table queue ih =>
    unfold flushCompressed at h
    split at h
    · cases h
    · rename_i c₁ h1
      obtain ⟨l, hl⟩ := saveCompressedData_grows h1
      obtain ⟨l', hl'⟩ := ih h
      exact ⟨l ++ l', by rw [hl', hl]; simp⟩

theorem insertCompressedSegments_grows {c c' : Compressed α} {x : Chunk α} (h : insertCompressedSegments c x = some c') :
    ∃ l, c'.saved = c.saved ++ l := by
  have hs : (appendChunk c x).1.saved = c.saved := by
    unfold appendChunk
    split <;> rfl
  simp only [insertCompressedSegments] at h
  split at h
  · cases h; exact ⟨[], by simp [hs]⟩
  · split at h
    · cases h
    · rename_i c₁ h1
      obtain ⟨l, hl⟩ := saveToFreeMemory_grows h1
      cases h
      exact ⟨l, by rw [← hs]; exact hl⟩

/-- Nothing that is saved is removed by a step of the storage engine. -/
theorem engine_grows {env : Env α} {e e' : Engine α} {op : Storage.Op α} (h : e.step env op = some e') : ∃ l, e'.c.saved = e.c.saved ++ l := by
  cases op <;> simp only [Engine.step] at h
  case write =>
    split at h
    · split at h
      · cases h
      · obtain ⟨c, h1, rfl⟩ := Option.map_eq_some_iff.mp h
        exact insertCompressedSegments_grows h1
      · obtain ⟨c, h1, rfl⟩ := Option.map_eq_some_iff.mp h
        exact flushCompressed_grows h1
      · obtain ⟨c, h1, rfl⟩ := Option.map_eq_some_iff.mp h
        exact flushCompressed_grows h1
    · cases h
  case adjustCompressed change =>
    obtain ⟨c, h1, rfl⟩ := Option.map_eq_some_iff.mp h
    unfold adjustCompressed at h1
    have := saveToFreeMemory_grows h1
    exact this
  case flush => cases h; exact ⟨[], by simp⟩
  case stop => cases h; exact ⟨[], by simp⟩
  case touchMemory => cases h; exact ⟨[], by simp⟩
  case touchDisk => cases h; exact ⟨[], by simp⟩
  case adjustIngested => cases h; exact ⟨[], by simp⟩
  all_goals
    repeat' split at h
    all_goals first
      | cases h; done
      | (cases h; exact ⟨[], by simp⟩)

/-- Nothing that is saved is removed by a step of the server. -/
theorem server_grows {env : Env α} {s s' : Server α} {a : Action α} (h : s.step env a = some s') : ∃ l, s'.allSaved = s.allSaved ++ l := by
  cases a <;> simp only [Server.step] at h
  case replay size =>
    split at h
    · cases h
    · obtain ⟨e, h1, rfl⟩ := Option.map_eq_some_iff.mp h
      obtain ⟨l, hl⟩ := engine_grows h1
      exact ⟨l, by simp [Server.allSaved, hl]⟩
  case append table id rows =>
    split at h
    · cases h; exact ⟨[], by simp [Server.allSaved]⟩
    · cases h
  case send size =>
    split at h
    · cases h
    · obtain ⟨e, h1, rfl⟩ := Option.map_eq_some_iff.mp h
      obtain ⟨l, hl⟩ := engine_grows h1
      exact ⟨l, by simp [Server.allSaved, hl]⟩
  case engine op =>
    split at h
    · cases h
    · obtain ⟨e, h1, rfl⟩ := Option.map_eq_some_iff.mp h
      obtain ⟨l, hl⟩ := engine_grows h1
      exact ⟨l, by simp [Server.allSaved, hl]⟩
  case restart tables i u c =>
    split at h
    · cases h; exact ⟨[], by simp [Server.allSaved, Engine.new]⟩
    · cases h

theorem begin_kept {ρ : Type} {t t' : DataTransfer.Table ρ} (h : t.begin = some t') : t'.committed = t.committed ∧ t'.discarded = t.discarded := by
  unfold DataTransfer.Table.begin at h
  split at h
  · cases h; exact ⟨rfl, rfl⟩
  · split at h <;> cases h
    exact ⟨rfl, rfl⟩

theorem restart_kept {ρ : Type} {t t' : DataTransfer.Table ρ} {disk : ρ → Nat} (h : t.step (.restart disk) = some t') :
    t'.committed = t.committed ∧ t'.discarded = t.discarded := by
  simp only [DataTransfer.Table.step] at h
  split at h
  · split at h
    · have := begin_kept h
      exact this
    · cases h; exact ⟨rfl, rfl⟩
  · cases h; exact ⟨rfl, rfl⟩

theorem transfer_kept {t t' : DataTransfer.Table (List (Chunk α))} {op : DataTransfer.Op (List (Chunk α))} (hop : ofTransfer op = true)
    (h : t.step op = some t') : t'.committed = t.committed ∧ t'.discarded = t.discarded := by
  cases op <;> simp only [ofTransfer, Bool.false_eq_true] at hop <;> simp only [DataTransfer.Table.step] at h
  all_goals
    repeat' split at h
    all_goals first
      | cases h; done
      | (cases h; exact ⟨rfl, rfl⟩)
      | (have := begin_kept h; exact this)

/-- What is saved in the table is what is committed to it. -/
structure Inv (name : String) (n : Node α) : Prop where
  committed : n.table.committed.flatten = n.server.allSaved.filter fun c => c.table = name
  discarded : n.table.discarded = []

/-- What a step does: to the server, to the table, and to the invariant. -/
theorem step_spec {name : String} {env : Env α} {n n' : Node α} {a : NodeAction α} (hok : NodeAction.ok a) (hi : Inv name n)
    (h : n.step name env a = some n') :
    Inv name n' ∧ (∃ actions, n.server.run env actions = some n'.server ∧ ∀ a ∈ actions, Action.ok a) ∧
      ∃ ops, n.table.run ops = some n'.table ∧ (CalmAction name env n a → CalmRun n.table ops) := by
  cases a with
  | server a size disk =>
    simp only [Node.step] at h
    obtain ⟨s, hs, h⟩ := Option.bind_eq_some_iff.mp h
    obtain ⟨l, hl⟩ := server_grows hs
    have hrun : ∃ actions, n.server.run env actions = some s ∧ ∀ a ∈ actions, Action.ok a :=
      ⟨[a], by simp [Server.run, hs], by simpa [NodeAction.ok] using hok⟩
    split at h
    · rename_i hop
      cases h
      refine ⟨⟨?_, hi.discarded⟩, hrun, [], rfl, fun _ => trivial⟩
      unfold tableOp at hop
      split at hop
      · cases hop
      · split at hop
        · rename_i hf
          rw [hl, List.drop_left] at hf
          show n.table.committed.flatten = _
          rw [hl, List.filter_append, hf, List.append_nil, hi.committed]
        · cases hop
    · rename_i op hop
      obtain ⟨t, ht, rfl⟩ := Option.map_eq_some_iff.mp h
      refine ⟨?_, hrun, [op], by simp [DataTransfer.Table.run, ht], fun hc => ⟨hc s hs op hop, fun _ _ => trivial⟩⟩
      unfold tableOp at hop
      split at hop
      · cases hop
        obtain ⟨k1, k2⟩ := restart_kept ht
        simp only [Server.step] at hs
        split at hs
        · cases hs
          refine ⟨?_, by rw [← hi.discarded]; exact k2⟩
          rw [show (t.committed = n.table.committed) from k1, hi.committed]
          simp [Server.allSaved, Engine.new]
        · cases hs
      · split at hop
        · cases hop
        · rename_i chunks _
          cases hop
          cases ht
          refine ⟨?_, hi.discarded⟩
          show (n.table.committed ++ [_]).flatten = _
          rw [List.flatten_append, hi.committed, hl, List.drop_left, List.filter_append]
          simp
  | transfer op =>
    simp only [Node.step] at h
    split at h
    · rename_i hop
      obtain ⟨t, ht, rfl⟩ := Option.map_eq_some_iff.mp h
      obtain ⟨k1, k2⟩ := transfer_kept hop ht
      exact ⟨⟨by rw [show t.committed = _ from k1]; exact hi.committed, by rw [show t.discarded = _ from k2]; exact hi.discarded⟩, ⟨[], rfl, by simp⟩,
        [op], by simp [DataTransfer.Table.run, ht], fun hc => ⟨hc, fun _ _ => trivial⟩⟩
    · cases h

theorem table_run_append {ρ : Type} (l l' : List (DataTransfer.Op ρ)) (t : DataTransfer.Table ρ) :
    t.run (l ++ l') = (t.run l).bind fun t => t.run l' := by
  induction l generalizing t with
  | nil => rfl
  | cons op l ih =>
    simp only [List.cons_append, DataTransfer.Table.run, Option.bind_assoc]
    exact Option.bind_congr fun t' _ => ih t'

theorem calmRun_append {ρ : Type} {l l' : List (DataTransfer.Op ρ)} {t t' : DataTransfer.Table ρ} (h : CalmRun t l) (hrun : t.run l = some t')
    (h' : CalmRun t' l') : CalmRun t (l ++ l') := by
  induction l generalizing t with
  | nil => cases hrun; exact h'
  | cons op l ih =>
    simp only [DataTransfer.Table.run] at hrun
    obtain ⟨t₁, h1, h2⟩ := Option.bind_eq_some_iff.mp hrun
    refine ⟨h.1, fun t₂ ht₂ => ?_⟩
    have : t₂ = t₁ := by
      have ht₂ : t.step op = some t₂ := ht₂
      rw [h1] at ht₂
      exact (Option.some.inj ht₂).symm
    subst this
    exact ih (h.2 t₂ ht₂) h2

/-- What a history does to the server and to the table. -/
theorem run_spec {name : String} {env : Env α} {n n' : Node α} {actions : List (NodeAction α)} (hok : ∀ a ∈ actions, NodeAction.ok a)
    (hi : Inv name n) (h : n.run name env actions = some n') :
    Inv name n' ∧ (∃ actions, n.server.run env actions = some n'.server ∧ ∀ a ∈ actions, Action.ok a) ∧
      ∃ ops, n.table.run ops = some n'.table ∧ (CalmActions name env n actions → CalmRun n.table ops) := by
  induction actions generalizing n with
  | nil => cases h; exact ⟨hi, ⟨[], rfl, by simp⟩, [], rfl, fun _ => trivial⟩
  | cons a actions ih =>
    simp only [Node.run] at h
    obtain ⟨n₁, h1, h2⟩ := Option.bind_eq_some_iff.mp h
    obtain ⟨i1, ⟨as, r1, o1⟩, ops, t1, c1⟩ := step_spec (hok a (List.mem_cons_self ..)) hi h1
    obtain ⟨i2, ⟨as', r2, o2⟩, ops', t2, c2⟩ := ih (fun a ha => hok a (List.mem_cons_of_mem _ ha)) i1 h2
    refine ⟨i2, ⟨as ++ as', ?_, ?_⟩, ops ++ ops', ?_, fun hc => ?_⟩
    · rw [Restarts.server_run_append, r1]; exact r2
    · intro a ha
      rcases List.mem_append.mp ha with ha | ha
      · exact o1 a ha
      · exact o2 a ha
    · rw [table_run_append, t1]; exact t2
    · exact calmRun_append (c1 hc.1) t1 (c2 (hc.2 n₁ h1))

theorem inv_new (name : String) (i u c : Nat) (batchSize : Option Nat) : Inv name (Node.new (α := α) i u c batchSize) :=
  ⟨by simp [Node.new, DataTransfer.Table.new, Server.new, Server.allSaved, Engine.new], rfl⟩

theorem calmly_reached {name : String} {env : Env α} {n : Node α} (h : CalmlyReached name env n) : Reached name env n := by
  obtain ⟨i, u, c, batchSize, actions, hok, _, hrun⟩ := h.history
  exact ⟨i, u, c, batchSize, actions, hok, hrun⟩

/-- The histories of the server and of the table. -/
theorem reached_spec {name : String} {env : Env α} {n : Node α} (h : Reached name env n) :
    Inv name n ∧ (∃ i u c actions, (Server.new i u c).run env actions = some n.server ∧ ∀ a ∈ actions, Action.ok a) ∧
      ∃ batchSize ops, (DataTransfer.Table.new batchSize).run ops = some n.table := by
  obtain ⟨i, u, c, batchSize, actions, hok, hrun⟩ := h.history
  obtain ⟨h1, ⟨as, h2, h3⟩, ops, h4, _⟩ := run_spec hok (inv_new name i u c batchSize) hrun
  exact ⟨h1, ⟨i, u, c, as, h2, h3⟩, batchSize, ops, h4⟩

theorem calm_spec {name : String} {env : Env α} {n : Node α} (h : CalmlyReached name env n) :
    ∃ batchSize ops, (DataTransfer.Table.new batchSize).run ops = some n.table ∧ CalmRun (DataTransfer.Table.new batchSize) ops := by
  obtain ⟨i, u, c, batchSize, actions, hok, hcalm, hrun⟩ := h.history
  obtain ⟨_, _, ops, h4, h5⟩ := run_spec hok (inv_new name i u c batchSize) hrun
  exact ⟨batchSize, ops, h4, h5 hcalm⟩

/-- The rows of a table. -/
theorem rowsOfTable_chunks (name : String) (saved : List (Chunk α)) :
    (saved.filter fun c => c.table = name).flatMap chunkRows = Spec.rowsOfTable name (saved.flatMap chunkRows) := by
  unfold Spec.rowsOfTable
  induction saved with
  | nil => rfl
  | cons c saved ih =>
    have hc : ∀ r ∈ chunkRows c, r.table = c.table := by
      intro r hr
      obtain ⟨p, _, rfl⟩ := List.mem_map.mp hr
      rfl
    rw [List.flatMap_cons, List.filter_append, ← ih, List.filter_cons]
    by_cases h : c.table = name
    · have hf : (chunkRows c).filter (fun r => decide (r.table = name)) = chunkRows c :=
        List.filter_eq_self.mpr fun r hr => by simpa [hc r hr] using h
      rw [if_pos (by simpa using h), List.flatMap_cons, hf]
    · have hf : (chunkRows c).filter (fun r => decide (r.table = name)) = [] :=
        List.filter_eq_nil_iff.mpr fun r hr => by simpa [hc r hr] using h
      rw [if_neg (by simpa using h), hf, List.nil_append]

end ModelarDB.Lemmas.EdgeNode
