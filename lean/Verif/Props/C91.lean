import Verif.Lemmas.ClusterData
/-
**C91** Rows that are deleted in the whole cluster are gone, and other rows are kept.
-/
namespace ModelarDB.Props
open Model.ClusterData Spec.ClusterData ModelarDB.Lemmas.ClusterData

section
variable {ν ρ : Type} [DecidableEq ν]

/-- **C91**, when `TRUNCATE CLUSTER` has succeeded, the rows of the tables that were in the cluster when it began are gone from all nodes and from the remote data folder, whatever
clients and nodes do in the meantime, including ingesting other rows, saving rows, crashing, starting nodes and deleting more rows, if no node transfers rows of the table or leaves
the cluster while the request is executed, and each node with such a row was in the list of nodes. Missing: nodes that transfer rows in the meantime (`C91_transferred_remains`),
and nodes that were stopped before with rows in their local data folders (`C91_stopped_remains`). -/
theorem C91_gone_partial {st st' : State ν ρ} {steps : List (Step ν ρ)} {i : Nat} {u : ν} {names : List String} {t : String} {r : ρ}
    (h : st.run (.begin_ i u names :: steps) = some st') (hs : st'.request i = .succeeded u names) (ht : t ∈ names)
    (hl : ∀ v, v ≠ u → v ∉ st.listed.map Prod.fst → Free (st.node v) t r)
    (hi : ∀ s ∈ steps, ¬ Ingests t r s) (hm : ∀ s ∈ steps, ¬ Moves t s) (hn : ∀ s ∈ steps, ¬ Leaves s) : Nowhere st' t r := by
  simp only [State.run, Option.bind_eq_some_iff] at h
  obtain ⟨st1, h1, h2⟩ := h
  have hg : Goal st1 u names t r (st1.request i) := by
    simp only [State.step] at h1
    split at h1
    · cases h1
      rw [setRequest_same]
      refine ⟨rfl, rfl, .inl ht, fun v => ?_⟩
      by_cases hu : v = u
      · exact .inl hu
      · by_cases hv : v ∈ st.listed.map Prod.fst
        · exact .inr (.inl hv)
        · exact .inr (.inr (hl v hu hv))
    · cases h1
  have := goal_run ht steps h2 (fun s hs' => ⟨hi s hs', hm s hs', hn s hs'⟩) hg
  rw [hs] at this
  exact this

/-- **C91**, rows that are gone stay gone, whatever clients and nodes do, including nodes that crash, are restarted and transfer their rows, unless the row is ingested again. -/
theorem C91_stay_gone {st st' : State ν ρ} {steps : List (Step ν ρ)} {t : String} {r : ρ} (h : st.run steps = some st') (hg : Nowhere st t r)
    (hi : ∀ s ∈ steps, ¬ Ingests t r s) : Nowhere st' t r ∧ ∀ u rows, st'.answer u t = some rows → r ∉ rows := by
  have hn := nowhere_run steps h hi hg
  refine ⟨hn, fun u rows ha => ?_⟩
  unfold State.answer at ha
  split at ha
  · cases ha
    split
    · exact (hn.2 u).2
    · exact hn.1
  · cases ha

/-- **C91**, a row that is ingested into a table of which no rows are deleted is in the cluster exactly once, whatever clients and nodes do, including deleting the rows of other
tables. -/
theorem C91_others_kept [BEq ρ] [LawfulBEq ρ] {st st' : State ν ρ} {steps : List (Step ν ρ)} {u : ν} {t : String} {r : ρ}
    (h : st.run (.ingest u t r :: steps) = some st') (hg : Nowhere st t r) (hq : Quiet st t)
    (hi : ∀ s ∈ steps, ¬ Ingests t r s) (ht : ∀ s ∈ steps, ¬ Truncates t s) : Once st' u t r := by
  simp only [State.run, Option.bind_eq_some_iff] at h
  obtain ⟨st1, h1, h2⟩ := h
  exact (once_run steps h2 (fun s hs => ⟨hi s hs, ht s hs⟩) (quiet_step h1 id hq) (once_ingest h1 hg)).1

/-- **C91**, `TRUNCATE` deletes the rows of the tables from the node that executes it, whatever tables, and from no other node and not from the remote data folder. -/
theorem C91_truncate_node [BEq ρ] [LawfulBEq ρ] {st st' : State ν ρ} {u : ν} {names : List String} (h : st.step (.truncate u names) = some st') :
    ((∀ t ∈ names, st.known t) → ∀ t ∈ names, (st'.node u).memory t = [] ∧ (st'.node u).disk t = []) ∧
      (∀ t r, t ∉ names → ((st'.node u).memory t).count r + ((st'.node u).disk t).count r =
        ((st.node u).memory t).count r + ((st.node u).disk t).count r) ∧
      (∀ v, v ≠ u → st'.node v = st.node v) ∧ st'.remote = st.remote := by
  simp only [State.step] at h
  split at h
  · next hp =>
    cases h
    unfold State.execute
    rw [if_pos hp]
    refine ⟨fun hk t ht => ?_, fun t r ht => ?_, fun v hv => setNode_other _ _ hv, rfl⟩
    · have hok : ∀ (names : List String) (n : Node ρ), (∀ t ∈ names, st.known t) → (n.truncateAll st.known names).2 = true := by
        intro names
        induction names with
        | nil => intro n _; rfl
        | cons t rest ih =>
          intro n hk
          simp only [Node.truncateAll, if_pos (hk t List.mem_cons_self)]
          exact ih _ fun t' ht' => hk t' (List.mem_cons_of_mem _ ht')
      rw [setNode_same]
      have hf := fun r => free_truncated st.known names (st.node u) r ht (hok names _ hk)
      exact ⟨List.eq_nil_iff_forall_not_mem.mpr fun r => (hf r).1, List.eq_nil_iff_forall_not_mem.mpr fun r => (hf r).2⟩
    · rw [setNode_same]; exact count_truncateAll _ _ _ _ ht
  · cases h

end

/-! ### Examples -/

/-- A cluster with two tables and without nodes and rows. -/
def c91Empty : State String Nat :=
  { known := fun t => t == "t" || t == "s", remote := fun _ => [], listed := [], node := fun _ => ⟨.outside, .edge, fun _ => [], fun _ => []⟩, request := fun _ => .idle }

/-- An edge node and a cloud node with rows in memory, in a local data folder and in the remote data folder. -/
def c91Rows : List (Step String Nat) :=
  [.start "edge" .edge, .serve "edge", .start "cloud" .cloud, .serve "cloud",
    .ingest "edge" "t" 1, .flushNode "edge", .ingest "edge" "t" 2, .save "edge" "t", .ingest "edge" "t" 3]

/-- Deleting the rows in the whole cluster, with `meantime` after the rows have been deleted from the remote data folder. -/
def c91Truncate (meantime : List (Step String Nat)) : List (Step String Nat) :=
  [.begin_ 0 "cloud" ["t"], .remote 0] ++ meantime ++ [.remote 0, .peers 0, .deliver 0 "edge" .delivered, .finish 0]

/-- What a request for all rows is answered by the cloud node and the edge node after `steps`, and the request. -/
def c91Answers (steps : List (Step String Nat)) : Option (Option (List Nat) × Option (List Nat) × Request String) :=
  (c91Empty.run steps).map fun st => (st.answer "cloud" "t", st.answer "edge" "t", st.request 0)

/-- The rows are there before they are deleted. -/
example : c91Answers c91Rows = some (some [1], some [2], .idle) := by decide +kernel

/-- While the request is executed, another row is ingested and a node crashes, is restarted and is therefore in the list of nodes twice. -/
def c91Meantime : List (Step String Nat) :=
  [.remote 0, .ingest "edge" "t" 4, .crash "edge", .start "edge" .edge, .serve "edge", .remote 0, .peers 0, .deliver 0 "edge" .delivered,
    .deliver 0 "edge" .delivered, .finish 0]

example : c91Answers (c91Rows ++ .begin_ 0 "cloud" ["t"] :: c91Meantime ++ [.ingest "edge" "t" 5, .flushNode "edge"]) =
    some (some [5], some [], .succeeded "cloud" ["t"]) := by decide +kernel

/-- The hypotheses of `C91_gone_partial` can be met. -/
example (r : Nat) (hr : r ≤ 3) : ∃ st st', c91Empty.run c91Rows = some st ∧ st.run (.begin_ 0 "cloud" ["t"] :: c91Meantime) = some st' ∧
    st'.request 0 = .succeeded "cloud" ["t"] ∧ (∀ v, v ≠ "cloud" → v ∉ st.listed.map Prod.fst → Free (st.node v) "t" r) ∧
      ∀ s ∈ c91Meantime, ¬ Ingests "t" r s ∧ ¬ Moves "t" s ∧ ¬ Leaves s := by
  have h1 : (c91Empty.run c91Rows).isSome := by decide +kernel
  obtain ⟨st, hst⟩ := Option.isSome_iff_exists.mp h1
  have h2 : ((c91Empty.run c91Rows).bind fun st => (st.run (.begin_ 0 "cloud" ["t"] :: c91Meantime)).map fun st' => st'.request 0) =
      some (.succeeded "cloud" ["t"]) := by decide +kernel
  rw [hst, Option.bind_some, Option.map_eq_some_iff] at h2
  obtain ⟨st', hst', hreq⟩ := h2
  refine ⟨st, st', hst, hst', hreq, fun v _ hv => ?_, fun s hs => ?_⟩
  · have hlisted : (c91Empty.run c91Rows).map (fun st => st.listed.map Prod.fst) = some ["edge", "cloud"] := by decide +kernel
    rw [hst] at hlisted
    have hlisted : st.listed.map Prod.fst = ["edge", "cloud"] := Option.some.inj hlisted
    rw [hlisted] at hv
    have hve : v ≠ "edge" := fun h => hv (h ▸ List.mem_cons_self)
    refine free_run_node v c91Rows hst ?_ ⟨List.not_mem_nil, List.not_mem_nil⟩
    simp [c91Rows, hve]
  · simp only [c91Meantime, List.mem_cons, List.not_mem_nil, or_false] at hs
    rcases hs with rfl | rfl | rfl | rfl | rfl | rfl | rfl | rfl | rfl | rfl
    case inr.inl => exact ⟨fun h => absurd h.2 (by omega), nofun, nofun⟩
    all_goals exact ⟨nofun, nofun, nofun⟩

/-- The hypotheses of `C91_others_kept` can be met: the rows of another table are deleted in the whole cluster after the row has been ingested. -/
example : c91Answers (c91Rows ++ [.begin_ 0 "cloud" ["s"], .remote 0, .remote 0, .peers 0, .deliver 0 "edge" .delivered, .finish 0]) =
    some (some [1], some [2, 3], .succeeded "cloud" ["s"]) := by decide +kernel

/-- `TRUNCATE` at the edge node deletes its rows only. -/
example : c91Answers (c91Rows ++ [.truncate "edge" ["s", "t"]]) = some (some [1], some [], .idle) := by decide +kernel

/-- **C91** is false for nodes that transfer rows while the request is executed: the rows are deleted from the remote data folder first, so rows that an edge node transfers before
it deletes its rows are returned by the cloud node although the request succeeded, and remain. -/
theorem C91_transferred_remains :
    c91Answers (c91Rows ++ c91Truncate [.transfer "edge" "t"]) = some (some [2], some [], .succeeded "cloud" ["t"]) := by decide +kernel

/-- **C91** is false for nodes that were stopped with CTRL+C, which leave the cluster with rows in their local data folders: the rows are returned when the node has been started
again and transfers its rows. -/
theorem C91_stopped_remains :
    c91Answers (c91Rows ++ [.stop "edge", .begin_ 0 "cloud" ["t"], .remote 0, .remote 0, .peers 0, .finish 0, .start "edge" .edge, .serve "edge", .flushNode "edge"]) =
      some (some [2, 3], some [], .succeeded "cloud" ["t"]) := by decide +kernel

/-- A request that fails since a node cannot be reached is not undone: the rows in the remote data folder are gone, the rows of the node are not. -/
theorem C91_failed_part :
    c91Answers (c91Rows ++ [.begin_ 0 "cloud" ["t"], .remote 0, .remote 0, .peers 0, .deliver 0 "edge" .requestLost]) =
      some (some [], some [2], .failed "cloud" ["t"] []) := by decide +kernel

/-- A node that has crashed stays in the list of nodes, so `TRUNCATE CLUSTER` fails until it has been started again. -/
theorem C91_crashed_fails :
    c91Answers (c91Rows ++ [.crash "edge"] ++ c91Truncate [] ) = none ∧
    c91Answers (c91Rows ++ [.crash "edge", .begin_ 0 "cloud" ["t"], .remote 0, .remote 0, .peers 0, .deliver 0 "edge" .delivered]) =
      some (some [], none, .failed "cloud" ["t"] []) := by decide +kernel

/-- `TRUNCATE` without `CLUSTER` at a cloud node succeeds and deletes none of the rows that the node returns for queries, since they are in the remote data folder. -/
theorem C91_cloud_not_deleted : c91Answers (c91Rows ++ [.truncate "cloud" ["t"]]) = some (some [1], some [2], .idle) := by decide +kernel

end ModelarDB.Props
