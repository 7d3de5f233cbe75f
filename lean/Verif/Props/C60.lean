import Verif.Lemmas.LockPrograms
import Mathlib.Data.Fin.VecNotation
import Mathlib.Tactic.FinCases
/-
C60: Requests never wait for each other forever.
-/
namespace ModelarDB.Props
open Model.Locks Spec.Locks Lemmas.Locks

/-- The locks exclude each other: in every execution, no task holds a lock that another task holds for writing. -/
theorem C60_exclusive {n : Nat} {c : Cluster} {requests : Fin n → Nat × Request} {steps : List (Step n)} {st : State n (Nat × Lock)}
    (h : run (server c requests) steps = some st) : Exclusive st :=
  Exclusive.run (fun _ _ _ _ _ h _ => List.not_mem_nil h) h

/-- C60 as long as the configuration is not changed: all requests that are executed at the same time, at all nodes of all clusters, finish.
What is missing are requests that change the configuration, for which the property is false, see below. -/
theorem C60_no_update_partial {n : Nat} {c : Cluster} {requests : Fin n → Nat × Request} (hup : ∀ t, ¬ Updates (requests t).2) :
    AllFinish (server c requests) :=
  (server_ordered (cw := False) (a := 0) hup (fun h => h.elim) (fun h => h.elim)).allFinish

/-- C60 with requests that change the configuration, if no request is for a time series table or removes a node, and requests are sent to other
nodes by at most one node `a`. What is missing are these requests, for which the property is false, see below. -/
theorem C60_plain_partial {n : Nat} {c : Cluster} {requests : Fin n → Nat × Request} (a : Nat)
    (hplain : ∀ t, Plain c (requests t).1 (requests t).2) (hself : a ∉ c.peers a)
    (hlocal : ∀ t, Local c (requests t).1 (requests t).2 ∨ (requests t).1 = a) : AllFinish (server c requests) :=
  (server_ordered (cw := True) (a := a) (fun _ _ => trivial) (fun _ => hplain)
    fun _ t => (hlocal t).imp id fun h => ⟨h, hself⟩).allFinish

/-- A node that is not in a cluster, with a write-ahead log. -/
def single : Cluster := ⟨fun _ => true, fun _ => false, fun _ => []⟩

/-- Two nodes in a cluster. -/
def pair : Cluster := ⟨fun _ => true, fun _ => true, fun u => if u = 0 then [1] else [0]⟩

/-- Non-trivial cases: requests of many kinds at two nodes, and plain requests with a change of the configuration. -/
example : AllFinish (server pair ![(0, .create .series), (1, .drop [(.series, 2)]), (0, .killNode 1), (1, .putSeries 5)]) :=
  C60_no_update_partial fun t => by fin_cases t <;> exact id

example : AllFinish (server pair ![(0, .create .normal), (1, .updateMemory 3), (0, .updateTransfer), (1, .putSeries 5)]) :=
  C60_plain_partial 0 (fun t => by fin_cases t <;> first | rfl | trivial) (by decide)
    (fun t => by fin_cases t <;> first | exact Or.inr rfl | exact Or.inl trivial)

/-- C60 is false for requests for time series tables: a request to create, drop or truncate a time series table reads the configuration while it
holds the lock for reading it, and waits forever if a request to change the configuration came in between. Both requests never finish, whatever
else is requested. -/
theorem C60_create_stuck : ∃ steps st, run (server single ![(0, .create .series), (0, .updateMemory 0)]) steps = some st ∧
    NeverFinish st fun _ => True := by
  refine ⟨[.ask 0, .grant 0, .ask 1, .go 0, .ask 0], _, rfl, Deadlocked.neverFinish fun t _ => ?_⟩
  fin_cases t
  · exact ⟨(0, .configuration), .read, 2, by decide, 1, trivial, Or.inr ⟨.write, 1, by decide, by decide⟩⟩
  · exact ⟨(0, .configuration), .write, 1, by decide, 0, trivial, Or.inl ⟨.read, by decide, by decide⟩⟩

/-- The same for a request to drop a time series table, after its data was flushed and before it is deleted. -/
theorem C60_drop_stuck : ∃ steps st, run (server single ![(0, .drop [(.series, 0)]), (0, .updateSegmentSize)]) steps = some st ∧
    NeverFinish st fun _ => True := by
  refine ⟨[.ask 0, .grant 0, .ask 1, .ask 0, .grant 0, .ask 0, .grant 0, .go 0, .go 0, .ask 0, .grant 0, .go 0, .go 0, .go 0, .ask 0], _, rfl,
    Deadlocked.neverFinish fun t _ => ?_⟩
  fin_cases t
  · exact ⟨(0, .configuration), .read, 5, by decide, 1, trivial, Or.inr ⟨.write, 1, by decide, by decide⟩⟩
  · exact ⟨(0, .configuration), .write, 1, by decide, 0, trivial, Or.inl ⟨.read, by decide, by decide⟩⟩

/-- The same for a request to truncate a time series table. -/
theorem C60_truncate_stuck : ∃ steps st, run (server single ![(0, .truncate [(.series, 0)] false), (0, .updateTransfer)]) steps = some st ∧
    NeverFinish st fun _ => True := by
  refine ⟨[.ask 0, .grant 0, .ask 1, .ask 0, .grant 0, .ask 0, .grant 0, .go 0, .go 0, .ask 0, .grant 0, .go 0, .go 0, .go 0, .ask 0], _, rfl,
    Deadlocked.neverFinish fun t _ => ?_⟩
  fin_cases t
  · exact ⟨(0, .configuration), .read, 5, by decide, 1, trivial, Or.inr ⟨.write, 1, by decide, by decide⟩⟩
  · exact ⟨(0, .configuration), .write, 1, by decide, 0, trivial, Or.inl ⟨.read, by decide, by decide⟩⟩

/-- C60 is false for a request to remove a node: it takes the lock of the storage engine and then that of the configuration, a request to change
the configuration takes them in the other order. -/
theorem C60_kill_stuck : ∃ steps st, run (server pair ![(0, .killNode 0), (0, .updateMemory 0)]) steps = some st ∧
    NeverFinish st fun _ => True := by
  refine ⟨[.ask 0, .grant 0, .ask 1, .grant 1, .ask 1, .ask 0, .grant 0, .go 0, .go 0, .ask 0], _, rfl,
    Deadlocked.neverFinish fun t _ => ?_⟩
  fin_cases t
  · exact ⟨(0, .configuration), .read, 4, by decide, 1, trivial, Or.inl ⟨.write, by decide, by decide⟩⟩
  · exact ⟨(0, .storage), .write, 2, by decide, 0, trivial, Or.inl ⟨.write, by decide, by decide⟩⟩

/-- C60 is false for requests at two nodes: each node waits for the other while its configuration is about to be changed, also if the requests
are for normal tables. -/
theorem C60_nodes_stuck : ∃ steps st,
    run (server pair ![(0, .create .normal), (1, .create .normal), (0, .updateMemory 0), (1, .updateMemory 0)]) steps = some st ∧
      NeverFinish st fun _ => True := by
  refine ⟨[.ask 0, .grant 0, .ask 1, .grant 1, .ask 2, .ask 3, .ask 0, .ask 1], _, rfl, Deadlocked.neverFinish fun t _ => ?_⟩
  fin_cases t
  · exact ⟨(1, .configuration), .read, 4, by decide, 3, trivial, Or.inr ⟨.write, 3, by decide, by decide⟩⟩
  · exact ⟨(0, .configuration), .read, 5, by decide, 2, trivial, Or.inr ⟨.write, 2, by decide, by decide⟩⟩
  · exact ⟨(0, .configuration), .write, 2, by decide, 0, trivial, Or.inl ⟨.read, by decide, by decide⟩⟩
  · exact ⟨(1, .configuration), .write, 3, by decide, 1, trivial, Or.inl ⟨.read, by decide, by decide⟩⟩

/-- Such a deadlock spreads: in every state in which the task `t` holds a lock and waits for it behind the task `w` that wants to write, every task
`v` that asks for the lock later does not finish either. All requests that read the configuration then wait, e.g. those that create and drop
tables. -/
theorem C60_spreads {n : Nat} {L : Type} [DecidableEq L] {st : State n L} {t w v : Fin n} {l : L} {m₁ m₂ m : Mode} {k₁ k₂ k : Nat}
    (hheld : (l, m₁) ∈ (st.task t).held) (ht : (st.task t).waitsFor = some (l, m₂, k₂)) (hw : (st.task w).waitsFor = some (l, .write, k₁))
    (hv : (st.task v).waitsFor = some (l, m, k)) (h12 : k₁ < k₂) (h1 : k₁ < k) :
    NeverFinish st fun u => u = t ∨ u = w ∨ u = v := by
  refine Deadlocked.neverFinish fun u hu => ?_
  rcases hu with rfl | rfl | rfl
  · exact ⟨l, m₂, k₂, ht, w, Or.inr (Or.inl rfl), Or.inr ⟨.write, k₁, hw, h12⟩⟩
  · exact ⟨l, .write, k₁, hw, t, Or.inl rfl, Or.inl ⟨m₁, hheld, by cases m₁ <;> rfl⟩⟩
  · exact ⟨l, m, k, hv, w, Or.inr (Or.inl rfl), Or.inr ⟨.write, k₁, hw, h1⟩⟩

/-- A case of such a state: a request for the configuration after the two of `C60_create_stuck`. -/
example : ∃ steps st, run (server single ![(0, .create .series), (0, .updateMemory 0), (0, .getConfiguration)]) steps = some st ∧
    NeverFinish st fun u => u = 0 ∨ u = 1 ∨ u = 2 :=
  ⟨[.ask 0, .grant 0, .ask 1, .go 0, .ask 0, .ask 2], _, rfl,
    C60_spreads (l := (0, .configuration)) (m₁ := .read) (m₂ := .read) (m := .read) (k₁ := 1) (k₂ := 2) (k := 3)
      (by decide) (by decide) (by decide) (by decide) (by decide) (by decide)⟩

end ModelarDB.Props
