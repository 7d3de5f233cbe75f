import Verif.Lemmas.LoggedServer
import Verif.Props.C79
/-
C81: rows are kept by a server that reads its write-ahead log from files.
-/
namespace ModelarDB.Props
open Model Model.Query Model.TableDefinition Model.StoredTable Model.Restarts Model.LoggedServer Spec Spec.Storage Spec.LoggedServer Lemmas

variable {α ε : Type}

/-- **C81**, what is replayed: whatever happens, if the conditions of `Careful` hold, then a server that is not running can be started, and the
batches that it reads from the files of the logs are those that were written with ids that are not in a commit to their table. Each is read once,
in the order in which those of its table were written, and no id was given to two batches. Missing: crashes that leave a file without a
schema or an empty folder, and segments that are persisted before older ones (`C81_row_lost` and `C81_not_started`). -/
theorem C81_replayed_partial {store : Model.Storage.Env α} (hs : Sorts store) (hcap : 2 ≤ store.capacity) {i u c : Nat} {events : List (LoggedServer.Event α)}
    {n : Node α} (hcareful : Careful store (.new i u c) events) (hrun : (Node.new i u c).run store events = some n)
    (hg : Good store (Restarts.rowsIn n.server.log)) (hstopped : n.running = false) {tables : List String} (ht : tables.Nodup)
    (hall : ∀ b ∈ n.server.log, b.1 ∈ tables) (threshold i' u' c' : Nat) :
    (∃ n', n.step store (.restart tables threshold i' u' c') = some n' ∧ n'.running = true ∧
      n'.server.pending = tables.flatMap fun table => n.server.log.filter fun b =>
        decide (b.1 = table ∧ (b.1, b.2.1) ∉ n.server.commits ++ n.server.engine.c.commits)) ∧
    (n.server.log.map fun b => (b.1, b.2.1)).Nodup := by
  obtain ⟨h1, h2, _⟩ := LoggedServer.node_run hs hcap hcareful (LoggedServer.inv_new i u c) (Restarts.inv_new i u c) hrun hg
  refine ⟨?_, h2.ids⟩
  have h3 := LoggedServer.mapM_flatten (l := tables) (f := n.toReplay threshold) fun t _ => (h1.follows t).choose_spec.toReplay threshold
  obtain ⟨batches, h4, h5⟩ := Option.map_eq_some_iff.mp h3
  simp only [Node.step, hstopped, Bool.not_false, Bool.true_and, decide_eq_true_eq, if_pos (And.intro ht hall), h4, Option.map_some]
  refine ⟨_, rfl, rfl, ?_⟩
  simp only [h5, Bool.decide_and]

/-- **C81**, rows are not stored twice: the tables have no row more often than it was sent, and no other rows. -/
theorem C81_no_row_twice_partial {store : Model.Storage.Env α} (hs : Sorts store) (hcap : 2 ≤ store.capacity) {i u c : Nat}
    {events : List (LoggedServer.Event α)} {n : Node α} (hcareful : Careful store (.new i u c) events) (hrun : (Node.new i u c).run store events = some n)
    (hg : Good store (Restarts.rowsIn n.server.log)) : (Restarts.inTables n.server).Subperm (Restarts.rowsIn n.server.log) := by
  obtain ⟨_, h2, _⟩ := LoggedServer.node_run hs hcap hcareful (LoggedServer.inv_new i u c) (Restarts.inv_new i u c) hrun hg
  exact (h2.saved hs hcap hg).1

/-- **C81**, rows are not lost: the server is stopped without warning any number of times, also in the middle of the operations of its logs, and
started again. After the last time a flush is requested when the batches that were read from the files have been replayed, and the flush is
answered. Then each row that was acknowledged before the request is in its table. Missing: crashes that leave a file without a schema or an empty
folder, segments that are persisted before older ones, and rows of batches of which other rows, but not this one, were in the table when the
server was stopped (`C79_row_lost`). -/
theorem C81_acknowledged_kept_partial {store : Model.Storage.Env α} (hs : Sorts store) (hcap : 2 ≤ store.capacity) {i u c : Nat}
    {events : List (LoggedServer.Event α)} {r : Recovery α} {stopped requested n : Node α}
    (hcareful : Careful store (.new i u c) (events ++ r.events)) (hrun : (Node.new i u c).run store events = some stopped)
    (hr : LoggedServer.Recovered store stopped r requested n)
    (hg : Good store (Restarts.rowsIn n.server.log)) :
    ∀ b ∈ requested.server.acknowledged, ∀ r ∈ b.2.2, r ∈ Restarts.inTables n.server ∨
      (r ∉ Restarts.inTables stopped.server ∧ ∃ r' ∈ b.2.2, r' ∈ Restarts.inTables stopped.server) := by
  have hgs := LoggedServer.good_recovered hr hg
  obtain ⟨hc, hc'⟩ := LoggedServer.careful_append hcareful hrun
  obtain ⟨h1, h2, actions, h3, h4, _⟩ := LoggedServer.node_run hs hcap hc (LoggedServer.inv_new i u c) (Restarts.inv_new i u c) hrun hgs
  exact C79_acknowledged_kept_partial hs hcap h4 h3 (LoggedServer.recovered_server hs hcap h1 h2 hc' hr hg) hg

/-- **C81** for queries for any number of fields: as `C79_rows_partial` for a server that reads its write-ahead log from files. -/
theorem C81_rows_partial {store : Model.Storage.Env α} (hs : Sorts store) (hcap : 2 ≤ store.capacity) (hmax : store.capacity < 2 ^ 63)
    {i u c : Nat} {events : List (LoggedServer.Event α)} {r : Recovery α} {stopped requested n : Node α}
    (hcareful : Careful store (.new i u c) (events ++ r.events)) (hrun : (Node.new i u c).run store events = some stopped)
    (hr : LoggedServer.Recovered store stopped r requested n)
    (hg : Good store (Restarts.rowsIn n.server.log))
    {name : String} (hin : InOrder name (Restarts.rowsIn n.server.log)) {qs : List Column} {bs : List ErrorBound} {gs : List (Option (Generated ε))}
    {m : Metadata ε} (hm : tryNew name qs bs gs = .ok m) (hunique : (qs.map (·.name)).Nodup) (hfree : ∀ tag ∈ tagNamesOf m, FreeName tag)
    {value : α → Nat → Nat} {bound : Nat → ErrorBound} (hbound : ∀ field ∈ m.fieldIndices, m.errorBounds[field]? = some (bound field))
    (hrows : ∀ field ∈ m.fieldIndices, ∀ r ∈ rowsOfTable name (Restarts.rowsIn n.server.log), WellFormed m.tagIndices.length value field r)
    (hvalues : ∀ field ∈ m.fieldIndices,
      Compressible (bound field) ((rowsOfTable name (Restarts.rowsIn n.server.log)).map fun r => value r.val field))
    (log2 : Log2) (hlog : Log2Accurate log2)
    (hlinear : ∀ field ∈ m.fieldIndices, ∀ x ∈ n.server.allSaved, x.table = name →
      LinearFaithful (ReadBack (bound field)) (bound field) (x.points.map Prod.fst) (x.points.map fun p => value p.2 field)) :
    ∃ (stored : Nat → List StoredSegment) (ingested : List (Model.Storage.Row α)),
      (∀ field ∈ m.fieldIndices, storedSegments log2 m value field n.server.allSaved = some (stored field)) ∧
      ingested.Subperm (rowsOfTable name (Restarts.rowsIn n.server.log)) ∧
      (∀ b ∈ requested.server.acknowledged, b.1 = name → ∀ r ∈ b.2.2, r ∈ ingested ∨
        (r ∉ Restarts.inTables stopped.server ∧ ∃ r' ∈ b.2.2, r' ∈ Restarts.inTables stopped.server)) ∧
      ∀ (env : Env ε) (w : World ε StoredSegment) (lt : List String → List String → Prop), StrictOrder lt →
        ReadsSortedSegments w lt m.fieldIndices stored → ∀ (projection : List Nat) (filters : List Expr),
        FieldsQuery env w m projection filters → ∀ rows : TableRow → String → Value,
        (∀ row, row.tags.length = m.tagIndices.length → ∀ field, RowOf m (row.point field) (rows row)) →
        ReturnsTableRows env w m projection filters value (fun field => ReadBack (bound field)) rows ingested := by
  have hgs := LoggedServer.good_recovered hr hg
  obtain ⟨hc, hc'⟩ := LoggedServer.careful_append hcareful hrun
  obtain ⟨h1, h2, actions, h3, h4, _⟩ := LoggedServer.node_run hs hcap hc (LoggedServer.inv_new i u c) (Restarts.inv_new i u c) hrun hgs
  exact C79_rows_partial hs hcap hmax h4 h3 (LoggedServer.recovered_server hs hcap h1 h2 hc' hr hg) hg hin hm hunique hfree hbound hrows hvalues log2
    hlog hlinear

/-! ### A server that is stopped in the middle of the operations of its logs -/

/-- A step of the storage engine. -/
abbrev op (o : Model.Storage.Op Nat) : LoggedServer.Event Nat := .server (.engine o)

/-- A batch is written and passed on. -/
def put (rows : List (Model.Storage.Row Nat)) : List (LoggedServer.Event Nat) := [.append "t" rows 1, .server (.send 1)]

/-- A batch is inserted into buffers. -/
def ingest (rows : Nat) : List (LoggedServer.Event Nat) :=
  op .ingestionTake :: List.replicate rows (op (.ingestionRow true)) ++ [op .ingestionDone]

/-- A buffer is compressed and the segments are passed to the writer. -/
def compress : List (LoggedServer.Event Nat) := [op .compressionTake, op .compressionDone, op .write]

/-- The first batch is saved. The server is stopped when the batch is deleted from the log, when the log is opened, after the segment of a batch that
is not acknowledged was closed, and when the next request is written. -/
def stopping : List (LoggedServer.Event Nat) :=
  .restart ["t"] 1 100 1000 1 :: put [rowA 1 7, rowA 2 7] ++ put [rowB 1 8] ++ ingest 2 ++ compress ++
    [.markCrash "t" [0] 0, .restart ["u", "t"] 2 100 1000 1, .server (.replay 1), .setThreshold 3] ++ ingest 1 ++ put [rowB 2 9] ++
    [.appendCrash "t" [rowA 3 0, rowB 3 0] 1 0, .restartCrash "t" 1 0, .restart ["t"] 1 100 1000 1, .crash]

/-- What happens after the server is started again: the batches are replayed, and a batch is sent before a flush is requested. -/
def continuing : List (LoggedServer.Event Nat) × List (LoggedServer.Event Nat) :=
  ([.server (.replay 1), .server (.replay 1), .server (.replay 2)] ++ put [rowA 4 1],
    ingest 1 ++ ingest 1 ++ compress ++ [.mark "t" [1, 2]] ++ ingest 2 ++ ingest 1 ++ compress ++ [op .ingestionTake] ++ compress ++ [op .compressionTake, op .write])


def continuation : Recovery Nat := ⟨.restart ["t"] 1 100 1000 1, continuing.1, op .flush, continuing.2⟩

def requestedNode (env : Model.Storage.Env α) (n : Node α) (r : Recovery α) : Option (Node α) := (n.step env r.start).bind fun n => n.run env r.before

def recoveredNode (env : Model.Storage.Env α) (n : Node α) (r : Recovery α) : Option (Node α) :=
  (requestedNode env n r).bind fun n => (n.step env r.request).bind fun n => n.run env r.after

theorem recovered_of_some {env : Model.Storage.Env α} {r : Recovery α} {stopped requested n : Node α} (h1 : requestedNode env stopped r = some requested)
    (h2 : recoveredNode env stopped r = some n) (h3 : requested.server.pending = [])
    (h4 : LoggedServer.Event.isRestart r.start = true ∧ LoggedServer.Event.isRequest r.request = true ∧
      (∀ e ∈ r.before ++ r.after, LoggedServer.Event.keepsRunning e = true) ∧
      r.before.countP LoggedServer.Event.isRequest < n.server.engine.results.length) :
    LoggedServer.Recovered env stopped r requested n := by
  have h1' := h1
  unfold recoveredNode at h2
  unfold requestedNode at h1
  obtain ⟨n₁, h5, h6⟩ := Option.bind_eq_some_iff.mp h1
  rw [h1', Option.bind_some] at h2
  obtain ⟨n₃, h7, h8⟩ := Option.bind_eq_some_iff.mp h2
  exact ⟨n₁, n₃, h4.1, h5, h6, h3, h4.2.1, h7, h8, h4.2.2⟩

def stoppedNode : Node Nat := ((Node.new 100 1000 1).run (smallEnv 2) stopping).get (by decide +kernel)

theorem stoppedNode_run : (Node.new 100 1000 1).run (smallEnv 2) stopping = some stoppedNode := (Option.some_get _).symm

/-- The server was stopped four times. It can be started again: three batches are replayed. -/
example : (∃ n, stoppedNode.step (smallEnv 2) (.restart ["u", "t"] 5 10 100 1) = some n ∧ n.running = true ∧
      n.server.pending = [("t", 1, [rowB 1 8]), ("t", 2, [rowB 2 9]), ("t", 3, [rowA 3 0, rowB 3 0])]) ∧
    (Restarts.inTables stoppedNode.server).Subperm (Restarts.rowsIn stoppedNode.server.log) ∧
    Restarts.inTables stoppedNode.server = [rowA 1 7, rowA 2 7] := by
  have hcareful : Careful (smallEnv 2) (.new 100 1000 1) stopping := LoggedServer.careful_of_check (by decide +kernel)
  have hg : Good (smallEnv 2) (Restarts.rowsIn stoppedNode.server.log) := by decide +kernel
  obtain ⟨n, h1, h2, h3⟩ := (C81_replayed_partial (smallEnv_sorts 2) (by decide) hcareful stoppedNode_run hg (by decide +kernel) (tables := ["u", "t"])
    (by decide) (by decide +kernel) 5 10 100 1).1
  exact ⟨⟨n, h1, h2, h3.trans (by decide +kernel)⟩, C81_no_row_twice_partial (smallEnv_sorts 2) (by decide) hcareful stoppedNode_run hg,
    by decide +kernel⟩

def continuedNode : Node Nat := (requestedNode (smallEnv 2) stoppedNode continuation).get (by decide +kernel)

def finishedNode : Node Nat := (recoveredNode (smallEnv 2) stoppedNode continuation).get (by decide +kernel)

theorem finishedNode_recovered : LoggedServer.Recovered (smallEnv 2) stoppedNode continuation continuedNode finishedNode :=
  recovered_of_some (Option.some_get _).symm (Option.some_get _).symm (by decide +kernel) ⟨rfl, rfl, by decide +kernel, by decide +kernel⟩

/-- All rows that were acknowledged are in the table. -/
example : (∀ b ∈ continuedNode.server.acknowledged, ∀ r ∈ b.2.2, r ∈ Restarts.inTables finishedNode.server ∨
      (r ∉ Restarts.inTables stoppedNode.server ∧ ∃ r' ∈ b.2.2, r' ∈ Restarts.inTables stoppedNode.server)) ∧
    (∀ b ∈ continuedNode.server.acknowledged, ∀ r ∈ b.2.2, r ∈ Restarts.inTables stoppedNode.server ∨ ∀ r' ∈ b.2.2, r' ∉ Restarts.inTables stoppedNode.server) ∧
    continuedNode.server.acknowledged.map (·.2.2) = [[rowA 1 7, rowA 2 7], [rowB 1 8], [rowB 2 9], [rowA 4 1]] ∧
    (Restarts.inTables finishedNode.server).length = 7 :=
  ⟨C81_acknowledged_kept_partial (smallEnv_sorts 2) (by decide) (LoggedServer.careful_of_check (by decide +kernel)) stoppedNode_run
    finishedNode_recovered (by decide +kernel), by decide +kernel, by decide +kernel, by decide +kernel⟩

/-- What happens in the example of `C79_rows_partial`, with the files of the log. -/
def withFiles : Action (Nat × Nat) → LoggedServer.Event (Nat × Nat)
  | .append table _ rows => .append table rows 1
  | a => .server a

def pairStopping : List (LoggedServer.Event (Nat × Nat)) := .restart ["t"] 2 100 1000 100 :: pairCrashing.map withFiles ++ [.crash]

def pairContinuation : Recovery (Nat × Nat) :=
  ⟨.restart ["t"] 2 100 1000 100, pairRecovering.1.map withFiles, .server (.engine .flush), pairRecovering.2.map withFiles⟩

def pairStopped : Node (Nat × Nat) := ((Node.new 100 1000 100).run pairEnv pairStopping).get (by decide +kernel)

/-- The hypotheses of `C81_rows_partial` about what happens are met, and the rows are those for which the example of `C79_rows_partial` shows that the
others are. -/
example : ∃ requested n : Node (Nat × Nat), Careful pairEnv (.new 100 1000 100) (pairStopping ++ pairContinuation.events) ∧
    (Node.new 100 1000 100).run pairEnv pairStopping = some pairStopped ∧
    LoggedServer.Recovered pairEnv pairStopped pairContinuation requested n ∧
    (Server.new 100 1000 100).run pairEnv (pairCrashing ++ .restart ["t"] 100 1000 100 :: pairRecovering.1 ++ .engine .flush :: pairRecovering.2) =
      some n.server ∧ (Restarts.rowsIn requested.server.acknowledged).length = 4 ∧ (Restarts.inTables n.server).length = 4 :=
  ⟨(requestedNode pairEnv pairStopped pairContinuation).get (by decide +kernel), (recoveredNode pairEnv pairStopped pairContinuation).get (by decide +kernel),
    LoggedServer.careful_of_check (by decide +kernel), (Option.some_get _).symm,
    recovered_of_some (Option.some_get _).symm (Option.some_get _).symm (by decide +kernel) ⟨rfl, rfl, by decide +kernel, by decide +kernel⟩,
    by decide +kernel, by decide +kernel, by decide +kernel⟩

/-! ### Ids that are used twice -/

/-- A batch with a row of a series is in a buffer. The rows of the next batch are of another series, they fill a buffer that is saved, and the
segment of the batch is deleted from the log. The server is stopped and started again, a batch with one row is acknowledged, and the server is
stopped again. -/
def reusing : List (LoggedServer.Event Nat) :=
  .restart ["t"] 1 100 1000 1 :: put [rowA 1 7] ++ ingest 1 ++ put [rowB 1 8, rowB 2 8] ++ ingest 2 ++ compress ++
    [.mark "t" [1], .crash, .restart ["t"] 1 100 1000 1, .server (.replay 1)] ++ put [rowB 3 9] ++ [.crash]

def reuseContinuation : Recovery Nat :=
  ⟨.restart ["t"] 1 100 1000 1, [.server (.replay 1)], op .flush, ingest 1 ++ [op .ingestionTake] ++ compress ++ [op .compressionTake, op .write]⟩

def reusingNode : Node Nat := ((Node.new 100 1000 1).run (smallEnv 2) reusing).get (by decide +kernel)

/-- C81 is false: no crash is in the middle of an operation of the log, the row (b, 3) was acknowledged alone in its batch, and it is not in the
table after the server was started again, replayed the write-ahead log and answered a flush. It was given the id of a batch that had been saved
before, as a segment was deleted from the log before an older one. -/
theorem C81_row_lost : ∃ stopped requested n : Node Nat, (Node.new 100 1000 1).run (smallEnv 2) reusing = some stopped ∧
    LoggedServer.Recovered (smallEnv 2) stopped reuseContinuation requested n ∧ Good (smallEnv 2) (Restarts.rowsIn n.server.log) ∧
    (∀ e ∈ reusing ++ reuseContinuation.events, LoggedServer.Event.keepsRunning e = true ∨ LoggedServer.Event.isRestart e = true ∨ e matches .crash) ∧
    ("t", 1, [rowB 3 9]) ∈ requested.server.acknowledged ∧ ("t", 1, [rowB 1 8, rowB 2 8]) ∈ requested.server.acknowledged ∧
    rowB 3 9 ∉ Restarts.inTables n.server ∧ rowA 1 7 ∈ Restarts.inTables n.server := by
  refine ⟨reusingNode, (requestedNode (smallEnv 2) reusingNode reuseContinuation).get (by decide +kernel),
    (recoveredNode (smallEnv 2) reusingNode reuseContinuation).get (by decide +kernel), (Option.some_get _).symm,
    recovered_of_some (Option.some_get _).symm (Option.some_get _).symm (by decide +kernel) ⟨rfl, rfl, by decide +kernel, by decide +kernel⟩,
    by decide +kernel, by decide +kernel, by decide +kernel, by decide +kernel, by decide +kernel, by decide +kernel⟩

/-! ### A server that cannot be started -/

/-- A batch is acknowledged and the server is stopped. It is started and stopped after the new file of the log was created and before its schema was
written. -/
def tearing : List (LoggedServer.Event Nat) := .restart ["t"] 10 100 1000 1 :: put [rowA 1 7] ++ [.crash, .restartCrash "t" 10 1]

def tornNode : Node Nat := ((Node.new 100 1000 1).run (smallEnv 2) tearing).get (by decide +kernel)

theorem mapM_none {β γ : Type} {f : β → Option γ} {l : List β} {x : β} (hx : x ∈ l) (h : f x = none) : l.mapM f = none := by
  induction l with
  | nil => cases hx
  | cons y l ih =>
    rw [List.mapM_cons]
    cases hy : f y with
    | none => rfl
    | some z =>
      rcases List.mem_cons.mp hx with rfl | hx
      · rw [h] at hy; cases hy
      · rw [ih hx]; rfl

/-- C81 is false: the server cannot be started again after a crash that left a file without a schema, so that no table can be queried. The row
(a, 1) was acknowledged and is not in the table. -/
theorem C81_not_started : ∃ n : Node Nat, (Node.new 100 1000 1).run (smallEnv 2) tearing = some n ∧ n.running = false ∧
    ("t", 0, [rowA 1 7]) ∈ n.server.acknowledged ∧ rowA 1 7 ∉ Restarts.inTables n.server ∧
    ∀ (tables : List String) (threshold i u c : Nat), n.step (smallEnv 2) (.restart tables threshold i u c) = none := by
  refine ⟨tornNode, (Option.some_get _).symm, by decide +kernel, by decide +kernel, by decide +kernel, ?_⟩
  intro tables threshold i u c
  have hlogs : tornNode.logs "t" = ([⟨.closed 0 0, true, [[rowA 1 7]]⟩, ⟨.active 1, false, []⟩], none) := by decide +kernel
  have hnone : tornNode.toReplay threshold "t" = none := by
    unfold Node.toReplay Node.openLog
    rw [hlogs]
    rfl
  have hlog : tornNode.server.log = [("t", 0, [rowA 1 7])] := by decide +kernel
  simp only [Node.step]
  split
  · rename_i hcond
    simp only [Bool.and_eq_true, decide_eq_true_eq, hlog] at hcond
    rw [mapM_none (hcond.2.2 _ (List.mem_singleton.mpr rfl)) hnone]
    rfl
  · rfl

end ModelarDB.Props
