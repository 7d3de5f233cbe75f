import Verif.Lemmas.Cluster
/-
C48: cluster-wide table changes reach every node.

A change is made in the remote data folder, then by the nodes in the list of nodes and at last by the node that received the request. If no other
change is in progress, a change that is reported as a success has been made in the remote data folder and by every node, also by those that join
while the change is in progress (C48_partial), joining nodes get the tables of the cluster (C48_joins), and a request with the key of the cluster
changes only the node that receives it (C48_forwarded). Without the condition the claim is false: three requests that overlap can all succeed and
leave a node with another definition than the others (C48_concurrent).

A request that fails keeps its effects in the remote data folder and at some nodes. A node that crashed and is still in the list makes each change
fail (C48_stale), also after it has restarted, as it is in the list twice and executes the change twice (C48_twice). After such a failure creating the
table again fails as it exists in the remote data folder, dropping it fails as not all nodes have it, and then a node with the table cannot restart
(C48_failed, C48_unstartable).
-/
namespace ModelarDB.Props
open Model.Cluster Spec.Cluster Lemmas.Cluster

variable {δ ν : Type} [DecidableEq δ] [DecidableEq ν]

/-- The node has its tables. -/
def HasTables (n : Node δ) : Prop := n.phase = .loaded ∨ n.phase = .serving

/-- What is known while a change `c` at `u` of the tables `r0` is in progress. -/
def Progress (r0 : Tables δ) (u : ν) (c : Change δ) (r : Tables δ) (node : ν → Node δ) : Request ν δ → Prop
  | .idle => False
  | .remote u' c' => u' = u ∧ c' = c ∧ SameTables r r0 ∧ ∀ v, HasTables (node v) → SameTables (node v).tables r
  | .peers u' c' => u' = u ∧ c' = c ∧ After r0 c r ∧ ∀ v, HasTables (node v) → SameTables (node v).tables r ∨ SameTables (node v).tables r0
  | .sending u' c' pending => u' = u ∧ c' = c ∧ After r0 c r ∧
    ∀ v, HasTables (node v) → SameTables (node v).tables r ∨ (SameTables (node v).tables r0 ∧ (v ∈ pending ∨ v = u))
  | .succeeded u' c' => u' = u ∧ c' = c ∧ After r0 c r ∧ ∀ v, HasTables (node v) → SameTables (node v).tables r
  | .failed _ _ _ => True

omit [DecidableEq δ] [DecidableEq ν] in
theorem Progress.nodes {r0 : Tables δ} {u : ν} {c : Change δ} {r : Tables δ} {node node' : ν → Node δ} {q : Request ν δ}
    (h : Progress r0 u c r node q)
    (hn : ∀ v, HasTables (node' v) → (HasTables (node v) ∧ (node' v).tables = (node v).tables) ∨ SameTables (node' v).tables r) :
    Progress r0 u c r node' q := by
  cases q with
  | idle => exact h
  | remote u' c' =>
    refine ⟨h.1, h.2.1, h.2.2.1, fun v hv => ?_⟩
    rcases hn v hv with ⟨h1, h2⟩ | h1
    · rw [h2]; exact h.2.2.2 v h1
    · exact h1
  | peers u' c' =>
    refine ⟨h.1, h.2.1, h.2.2.1, fun v hv => ?_⟩
    rcases hn v hv with ⟨h1, h2⟩ | h1
    · rw [h2]; exact h.2.2.2 v h1
    · exact Or.inl h1
  | sending u' c' pending =>
    refine ⟨h.1, h.2.1, h.2.2.1, fun v hv => ?_⟩
    rcases hn v hv with ⟨h1, h2⟩ | h1
    · rw [h2]; exact h.2.2.2 v h1
    · exact Or.inl h1
  | succeeded u' c' =>
    refine ⟨h.1, h.2.1, h.2.2.1, fun v hv => ?_⟩
    rcases hn v hv with ⟨h1, h2⟩ | h1
    · rw [h2]; exact h.2.2.2 v h1
    · exact h1
  | failed _ _ _ => trivial

omit [DecidableEq δ] in
theorem Progress.stop {r0 : Tables δ} {u : ν} {c : Change δ} {r : Tables δ} {node : ν → Node δ} {q : Request ν δ} (w : ν)
    (h : Progress r0 u c r node q) : Progress r0 u c r node (stop w q) := by
  cases q with
  | remote u' c' =>
    rw [Model.Cluster.stop]
    split
    · trivial
    · exact h
  | peers u' c' =>
    rw [Model.Cluster.stop]
    split
    · trivial
    · exact h
  | sending u' c' pending =>
    rw [Model.Cluster.stop]
    split
    · trivial
    · exact h
  | _ => exact h

/-- What is known while one change is in progress. -/
structure Alone (r0 : Tables δ) (i : Nat) (u : ν) (c : Change δ) (st : State ν δ) : Prop where
  others : ∀ j, j ≠ i → st.request j = .idle ∨ ∃ v c', st.request j = .succeeded v c'
  listed : ∀ v, (st.node v).phase ≠ .outside → v ∈ st.rows
  mine : Progress r0 u c st.remote st.node (st.request i)

/-- Steps of nodes that join and leave. -/
theorem step_listed (st st' : State ν δ) (s : Step ν δ) (h : ∀ v, (st.node v).phase ≠ .outside → v ∈ st.rows) (hs : step st s = some st') :
    ∀ v, (st'.node v).phase ≠ .outside → v ∈ st'.rows := by
  intro v hv
  have exec : ∀ (w : ν) (key : Nat) (c : Change δ), ((execute st w key c).1.node v).phase = (st.node v).phase ∧ (execute st w key c).1.rows = st.rows := by
    intro w key c
    rw [execute]
    split
    · refine ⟨?_, rfl⟩
      by_cases hw : v = w
      · subst hw; simp [State.setNode]
      · simp [State.setNode, hw]
    · exact ⟨rfl, rfl⟩
  cases s with
  | save w =>
    simp only [step] at hs
    split at hs <;> simp only [Option.some.injEq, reduceCtorEq] at hs
    subst hs
    by_cases hw : v = w
    · subst hw; simp
    · simp only [State.setNode, if_neg hw] at hv
      exact List.mem_append_left _ (h v hv)
  | load w =>
    simp only [step] at hs
    split at hs
    · rename_i hp
      split at hs
      · simp only [Option.some.injEq] at hs
        subst hs
        by_cases hw : v = w
        · subst hw; exact h v (by rw [hp]; nofun)
        · simp only [State.setNode, if_neg hw] at hv; exact h v hv
      · simp only [Option.some.injEq] at hs
        subst hs
        by_cases hw : v = w
        · subst hw; exact h v (by rw [hp]; nofun)
        · simp only [State.setNode, if_neg hw] at hv; exact h v hv
    · simp at hs
  | serve w =>
    simp only [step] at hs
    split at hs
    · rename_i hp
      simp only [Option.some.injEq] at hs
      subst hs
      by_cases hw : v = w
      · subst hw; exact h v (by rw [hp]; nofun)
      · simp only [State.setNode, if_neg hw] at hv; exact h v hv
    · simp at hs
  | leave w =>
    simp only [step] at hs
    split at hs
    · simp only [Option.some.injEq] at hs
      subst hs
      by_cases hw : v = w
      · subst hw; simp [State.setNode] at hv
      · simp only [State.setNode, if_neg hw] at hv
        simpa using ⟨h v hv, hw⟩
    · simp at hs
  | crash w =>
    simp only [step, Option.some.injEq] at hs
    subst hs
    by_cases hw : v = w
    · subst hw; simp [State.setNode] at hv
    · simp only [State.setNode, if_neg hw] at hv; exact h v hv
  | begin_ i w c key =>
    simp only [step] at hs
    split at hs
    · split at hs <;> (simp only [Option.some.injEq] at hs; subst hs; exact h v hv)
    · simp at hs
  | remote i =>
    simp only [step] at hs
    split at hs
    · simp only [Option.some.injEq] at hs; subst hs; exact h v hv
    · simp at hs
  | peers i =>
    simp only [step] at hs
    split at hs
    · simp only [Option.some.injEq] at hs; subst hs; exact h v hv
    · simp at hs
  | deliver i w d =>
    simp only [step] at hs
    split at hs
    · split at hs
      · split at hs <;> simp only [Option.some.injEq] at hs <;> subst hs
        · exact h v hv
        · have := exec w; simp only [State.setRequest, (exec w _ _).1, (exec w _ _).2] at hv ⊢; exact h v hv
        · simp only [State.setRequest, (exec w _ _).1, (exec w _ _).2] at hv ⊢; exact h v hv
      · simp at hs
    · split at hs
      · split at hs <;> simp only [Option.some.injEq] at hs <;> subst hs
        · exact h v hv
        · simp only [State.setRequest, (exec w _ _).1, (exec w _ _).2] at hv ⊢; exact h v hv
      · simp at hs
    · simp at hs
  | finish i =>
    simp only [step] at hs
    split at hs
    · rename_i w c _
      simp only [Option.some.injEq] at hs
      subst hs
      by_cases hw : v = w
      · subst hw; simp only [State.setRequest, State.setNode, if_true] at hv ⊢; exact h v hv
      · simp only [State.setRequest, State.setNode, if_neg hw] at hv ⊢; exact h v hv
    · simp at hs

omit [DecidableEq δ] in
theorem stop_quiet (w : ν) {q : Request ν δ} (h : q = .idle ∨ ∃ v c', q = .succeeded v c') : stop w q = q := by
  rcases h with h | ⟨v, c', h⟩ <;> rw [h] <;> rfl

theorem step_alone (r0 : Tables δ) (i : Nat) (u : ν) (c : Change δ) (st st' : State ν δ) (s : Step ν δ) (hn : NoRequest s)
    (h : Alone r0 i u c st) (hs : step st s = some st') : Alone r0 i u c st' := by
  have hl := step_listed st st' s h.listed hs
  cases s with
  | begin_ => exact absurd hn id
  | save w =>
    simp only [step] at hs
    split at hs
    · rename_i hp
      simp only [Option.some.injEq] at hs
      subst hs
      refine ⟨h.others, hl, h.mine.nodes fun v hv => ?_⟩
      by_cases hw : v = w
      · subst hw; simp [State.setNode, HasTables] at hv
      · simp only [State.setNode, if_neg hw] at hv ⊢; exact Or.inl ⟨hv, trivial⟩
    · simp at hs
  | load w =>
    simp only [step] at hs
    split at hs
    · split at hs
      · rename_i t ht
        simp only [Option.some.injEq] at hs
        subst hs
        refine ⟨h.others, hl, h.mine.nodes fun v hv => ?_⟩
        by_cases hw : v = w
        · subst hw
          refine Or.inr ?_
          simp only [State.setNode, if_true]
          exact load_same ht
        · simp only [State.setNode, if_neg hw] at hv ⊢; exact Or.inl ⟨hv, trivial⟩
      · simp only [Option.some.injEq] at hs
        subst hs
        refine ⟨h.others, hl, h.mine.nodes fun v hv => ?_⟩
        by_cases hw : v = w
        · subst hw; simp [State.setNode, HasTables] at hv
        · simp only [State.setNode, if_neg hw] at hv ⊢; exact Or.inl ⟨hv, trivial⟩
    · simp at hs
  | serve w =>
    simp only [step] at hs
    split at hs
    · rename_i hp
      simp only [Option.some.injEq] at hs
      subst hs
      refine ⟨h.others, hl, h.mine.nodes fun v hv => ?_⟩
      by_cases hw : v = w
      · subst hw
        refine Or.inl ⟨Or.inl hp, ?_⟩
        simp only [State.setNode, if_true]
      · simp only [State.setNode, if_neg hw] at hv ⊢; exact Or.inl ⟨hv, trivial⟩
    · simp at hs
  | leave w =>
    simp only [step] at hs
    split at hs
    · simp only [Option.some.injEq] at hs
      subst hs
      refine ⟨fun j hj => ?_, hl, ?_⟩
      · show stop w (st.request j) = _ ∨ ∃ v c', stop w (st.request j) = _
        rw [stop_quiet w (h.others j hj)]; exact h.others j hj
      · refine (h.mine.stop w).nodes fun v hv => ?_
        by_cases hw : v = w
        · subst hw; simp [State.setNode, HasTables] at hv
        · simp only [State.setNode, if_neg hw] at hv ⊢; exact Or.inl ⟨hv, trivial⟩
    · simp at hs
  | crash w =>
    simp only [step, Option.some.injEq] at hs
    subst hs
    refine ⟨fun j hj => ?_, hl, ?_⟩
    · show stop w (st.request j) = _ ∨ ∃ v c', stop w (st.request j) = _
      rw [stop_quiet w (h.others j hj)]; exact h.others j hj
    · refine (h.mine.stop w).nodes fun v hv => ?_
      by_cases hw : v = w
      · subst hw; simp [State.setNode, HasTables] at hv
      · simp only [State.setNode, if_neg hw] at hv ⊢; exact Or.inl ⟨hv, trivial⟩
  | remote j =>
    simp only [step] at hs
    split at hs
    · rename_i w c' hq
      by_cases hj : j = i
      · subst hj
        simp only [Option.some.injEq] at hs
        subst hs
        refine ⟨fun j' hj' => ?_, hl, ?_⟩
        · simp only [State.setRequest, if_neg hj']; exact h.others j' hj'
        · have hm := h.mine
          rw [hq] at hm
          obtain ⟨rfl, rfl, hsame, hall⟩ := hm
          simp only [State.setRequest, if_true]
          split
          · rename_i hok
            have ha := change_after _ _ hok
            refine ⟨rfl, rfl, ?_, fun v hv => Or.inr fun n => (hall v hv n).trans (hsame n)⟩
            cases c' with
            | create name d => intro n; rw [ha n, hsame n]
            | drop names => intro n; rw [ha n, hsame n]
          · trivial
      · rcases h.others j hj with hq' | ⟨_, _, hq'⟩ <;> rw [hq'] at hq <;> simp at hq
    · simp at hs
  | peers j =>
    simp only [step] at hs
    split at hs
    · rename_i w c' hq
      by_cases hj : j = i
      · subst hj
        simp only [Option.some.injEq] at hs
        subst hs
        refine ⟨fun j' hj' => ?_, hl, ?_⟩
        · simp only [State.setRequest, if_neg hj']; exact h.others j' hj'
        · have hm := h.mine
          rw [hq] at hm
          obtain ⟨rfl, rfl, ha, hall⟩ := hm
          simp only [State.setRequest, if_true]
          refine ⟨rfl, rfl, ha, fun v hv => (hall v hv).imp id fun h0 => ⟨h0, ?_⟩⟩
          by_cases hw : v = w
          · exact Or.inr hw
          · refine Or.inl ?_
            have : v ∈ st.rows := h.listed v (by rcases hv with hv | hv <;> (rw [show (st.node v).phase = _ from hv]; nofun))
            simpa using ⟨this, hw⟩
      · rcases h.others j hj with hq' | ⟨_, _, hq'⟩ <;> rw [hq'] at hq <;> simp at hq
    · simp at hs
  | deliver j w d =>
    by_cases hj : j = i
    · subst hj
      have hfail : ∀ (st1 : State ν δ) (v : ν) (c' : Change δ) (p : List ν), st1.request = st.request →
          (∀ v', ((st1.setRequest j (.failed v c' p)).node v').phase ≠ .outside → v' ∈ (st1.setRequest j (.failed v c' p)).rows) →
          Alone r0 j u c (st1.setRequest j (.failed v c' p)) := by
        intro st1 v c' p hreq hl
        refine ⟨fun j' hj' => ?_, hl, ?_⟩
        · simp only [State.setRequest, if_neg hj', hreq]; exact h.others j' hj'
        · simp only [State.setRequest, if_true]; trivial
      have hexec : ∀ (key : Nat) (c' : Change δ), (execute st w key c').1.request = st.request := by
        intro key c'; rw [execute]; split <;> rfl
      simp only [step] at hs
      split at hs
      · rename_i v c' pending hq
        split at hs
        · rename_i hmem
          split at hs
          · simp only [Option.some.injEq] at hs; subst hs; exact hfail st _ _ _ rfl hl
          · simp only [Option.some.injEq] at hs; subst hs; exact hfail _ _ _ _ (hexec _ _) hl
          · simp only [Option.some.injEq] at hs
            subst hs
            by_cases hok : (execute st w (st.node v).key c').2 = true
            · rw [if_pos hok] at hl ⊢
              refine ⟨fun j' hj' => ?_, hl, ?_⟩
              · simp only [State.setRequest, if_neg hj', hexec]; exact h.others j' hj'
              · have hm := h.mine
                rw [hq] at hm
                obtain ⟨rfl, rfl, ha, hall⟩ := hm
                rw [execute] at hok ⊢
                by_cases hserve : (st.node w).phase = .serving ∧ (st.node w).key = (st.node v).key
                · rw [if_pos hserve] at hok ⊢
                  simp only [] at hok
                  simp only [State.setRequest, if_true]
                  refine ⟨rfl, rfl, ha, fun x hx => ?_⟩
                  have hw := change_after _ _ hok
                  by_cases hxw : x = w
                  · subst hxw
                    refine Or.inl ?_
                    simp only [State.setNode, if_true]
                    rcases hall x (Or.inr hserve.1) with h1 | ⟨h1, _⟩
                    · intro n
                      cases c' with
                      | create name d =>
                        rw [hw n, h1 n, ha n]
                        split <;> rfl
                      | drop names =>
                        rw [hw n, h1 n, ha n]
                        split <;> rfl
                    · exact Lemmas.Cluster.After.congr hw ha h1
                  · simp only [State.setNode, if_neg hxw] at hx ⊢
                    rcases hall x hx with h1 | ⟨h1, h2 | h2⟩
                    · exact Or.inl h1
                    · exact Or.inr ⟨h1, Or.inl ((List.mem_erase_of_ne hxw).2 h2)⟩
                    · exact Or.inr ⟨h1, Or.inr h2⟩
                · rw [if_neg hserve] at hok
                  simp at hok
            · rw [if_neg hok] at hl ⊢
              exact hfail _ _ _ _ (hexec _ _) hl
        · simp at hs
      · split at hs
        · split at hs
          · simp only [Option.some.injEq] at hs; subst hs; exact hfail st _ _ _ rfl hl
          · simp only [Option.some.injEq] at hs; subst hs; exact hfail _ _ _ _ (hexec _ _) hl
        · simp at hs
      · simp at hs
    · simp only [step] at hs
      rcases h.others j hj with hq' | ⟨_, _, hq'⟩ <;> rw [hq'] at hs <;> simp at hs
  | finish j =>
    by_cases hj : j = i
    · subst hj
      simp only [step] at hs
      split at hs
      · rename_i w c' hq
        simp only [Option.some.injEq] at hs
        subst hs
        refine ⟨fun j' hj' => ?_, hl, ?_⟩
        · simp only [State.setRequest, State.setNode, if_neg hj']; exact h.others j' hj'
        · have hm := h.mine
          rw [hq] at hm
          obtain ⟨rfl, rfl, ha, hall⟩ := hm
          simp only [State.setRequest, State.setNode, if_true]
          split
          · rename_i hok
            have hw := change_after _ _ hok
            refine ⟨rfl, rfl, ha, fun x hx => ?_⟩
            by_cases hxw : x = w
            · subst hxw
              simp only [if_true] at hx ⊢
              rcases hall x hx with h1 | ⟨h1, _⟩
              · intro n
                cases c' with
                | create name d =>
                  rw [hw n, h1 n, ha n]
                  split <;> rfl
                | drop names =>
                  rw [hw n, h1 n, ha n]
                  split <;> rfl
              · exact Lemmas.Cluster.After.congr hw ha h1
            · simp only [if_neg hxw] at hx ⊢
              rcases hall x hx with h1 | ⟨h1, h2 | h2⟩
              · exact h1
              · simp at h2
              · exact absurd h2 hxw
          · trivial
      · simp at hs
    · simp only [step] at hs
      rcases h.others j hj with hq' | ⟨_, _, hq'⟩ <;> rw [hq'] at hs <;> simp at hs

theorem run_alone (r0 : Tables δ) (i : Nat) (u : ν) (c : Change δ) (st st' : State ν δ) (steps : List (Step ν δ)) (hn : ∀ s ∈ steps, NoRequest s)
    (h : Alone r0 i u c st) (hs : run st steps = some st') : Alone r0 i u c st' := by
  induction steps generalizing st with
  | nil =>
    simp only [run, Option.some.injEq] at hs
    exact hs ▸ h
  | cons s rest ih =>
    simp only [run, Option.bind_eq_some_iff] at hs
    obtain ⟨st1, h1, h2⟩ := hs
    exact ih st1 (fun s hs => hn s (List.mem_cons_of_mem _ hs)) (step_alone r0 i u c st st1 s (hn s (List.mem_cons_self ..)) h h1) h2

/-- **C48, partial**: the nodes agree, no request is in progress, and a client requests a change at the node `u`. Nodes may join, leave and crash,
requests to nodes may get lost, and all this may happen in any order, but no other change is requested. If the request succeeds, then the change has
been made in the remote data folder, where nothing else changed, and all nodes that have started have the same tables as the remote data folder. -/
theorem C48_partial (st st' : State ν δ) (h : Agrees st) (hq : Quiet st) (i : Nat) (u : ν) (c : Change δ) (steps : List (Step ν δ))
    (hn : ∀ s ∈ steps, NoRequest s) (hr : run st (.begin_ i u c none :: steps) = some st') (v : ν) (c' : Change δ)
    (hs : st'.request i = .succeeded v c') : After st.remote c st'.remote ∧ Agrees st' ∧ Quiet st' := by
  simp only [run, Option.bind_eq_some_iff] at hr
  obtain ⟨st1, h1, h2⟩ := hr
  have h0 : Alone st.remote i u c st1 := by
    simp only [step] at h1
    split at h1
    · simp only [Option.some.injEq] at h1
      subst h1
      refine ⟨fun j hj => ?_, h.listed, ?_⟩
      · simp only [State.setRequest, if_neg hj]; exact hq j
      · simp only [State.setRequest, if_true]
        exact ⟨rfl, rfl, fun _ => rfl, h.tables⟩
    · simp at h1
  have hend := run_alone _ _ _ _ _ _ _ hn h0 h2
  have hm := hend.mine
  rw [hs] at hm
  obtain ⟨rfl, rfl, ha, hall⟩ := hm
  refine ⟨ha, ⟨hall, hend.listed⟩, fun j => ?_⟩
  by_cases hj : j = i
  · subst hj; exact Or.inr ⟨_, _, hs⟩
  · exact hend.others j hj

/-- **C48**: when no change is requested, nodes that join, leave and crash in any order keep the tables of the cluster and have them when they have
started. -/
theorem C48_joins (st st' : State ν δ) (h : Agrees st) (hq : Quiet st) (steps : List (Step ν δ)) (hn : ∀ s ∈ steps, NoRequest s)
    (hr : run st steps = some st') : st'.remote = st.remote ∧ Agrees st' ∧ Quiet st' := by
  induction steps generalizing st with
  | nil =>
    simp only [run, Option.some.injEq] at hr
    subst hr
    exact ⟨rfl, h, hq⟩
  | cons s rest ih =>
    simp only [run, Option.bind_eq_some_iff] at hr
    obtain ⟨st1, h1, h2⟩ := hr
    have hl := step_listed st st1 s h.listed h1
    have hrest := fun s hs => hn s (List.mem_cons_of_mem _ hs)
    suffices hk : st1.remote = st.remote ∧ (∀ v, HasTables (st1.node v) →
        (HasTables (st.node v) ∧ (st1.node v).tables = (st.node v).tables) ∨ SameTables (st1.node v).tables st.remote) ∧
        ∀ j, st1.request j = st.request j by
      have hA : Agrees st1 := by
        refine ⟨fun v hv => ?_, hl⟩
        rw [hk.1]
        rcases hk.2.1 v hv with ⟨h3, h4⟩ | h3
        · rw [h4]; exact h.tables v h3
        · exact h3
      have hQ : Quiet st1 := fun j => by rw [hk.2.2 j]; exact hq j
      have := ih st1 hA hQ hrest h2
      exact ⟨this.1.trans hk.1, this.2⟩
    have hno : ∀ j, (∀ w c', st.request j ≠ .remote w c') ∧ (∀ w c', st.request j ≠ .peers w c') ∧ (∀ w c' p, st.request j ≠ .sending w c' p) ∧
        ∀ w c' p, st.request j ≠ .failed w c' p := by
      intro j
      rcases hq j with hj | ⟨_, _, hj⟩ <;> rw [hj] <;> exact ⟨nofun, nofun, nofun, nofun⟩
    have hns := hn s (List.mem_cons_self ..)
    clear hn ih h2 hrest hl
    cases s with
    | begin_ => exact absurd hns id
    | save w =>
      simp only [step] at h1
      split at h1
      · simp only [Option.some.injEq] at h1
        subst h1
        refine ⟨rfl, fun v hv => ?_, fun _ => rfl⟩
        by_cases hw : v = w
        · subst hw; simp [State.setNode, HasTables] at hv
        · simp only [State.setNode, if_neg hw] at hv ⊢; exact Or.inl ⟨hv, trivial⟩
      · simp at h1
    | load w =>
      simp only [step] at h1
      split at h1
      · split at h1
        · rename_i t ht
          simp only [Option.some.injEq] at h1
          subst h1
          refine ⟨rfl, fun v hv => ?_, fun _ => rfl⟩
          by_cases hw : v = w
          · subst hw
            refine Or.inr ?_
            simp only [State.setNode, if_true]
            exact load_same ht
          · simp only [State.setNode, if_neg hw] at hv ⊢; exact Or.inl ⟨hv, trivial⟩
        · simp only [Option.some.injEq] at h1
          subst h1
          refine ⟨rfl, fun v hv => ?_, fun _ => rfl⟩
          by_cases hw : v = w
          · subst hw; simp [State.setNode, HasTables] at hv
          · simp only [State.setNode, if_neg hw] at hv ⊢; exact Or.inl ⟨hv, trivial⟩
      · simp at h1
    | serve w =>
      simp only [step] at h1
      split at h1
      · rename_i hp
        simp only [Option.some.injEq] at h1
        subst h1
        refine ⟨rfl, fun v hv => ?_, fun _ => rfl⟩
        by_cases hw : v = w
        · subst hw
          refine Or.inl ⟨Or.inl hp, ?_⟩
          simp only [State.setNode, if_true]
        · simp only [State.setNode, if_neg hw] at hv ⊢; exact Or.inl ⟨hv, trivial⟩
      · simp at h1
    | leave w =>
      simp only [step] at h1
      split at h1
      · simp only [Option.some.injEq] at h1
        subst h1
        refine ⟨rfl, fun v hv => ?_, fun j => stop_quiet w (hq j)⟩
        by_cases hw : v = w
        · subst hw; simp [State.setNode, HasTables] at hv
        · simp only [State.setNode, if_neg hw] at hv ⊢; exact Or.inl ⟨hv, trivial⟩
      · simp at h1
    | crash w =>
      simp only [step, Option.some.injEq] at h1
      subst h1
      refine ⟨rfl, fun v hv => ?_, fun j => stop_quiet w (hq j)⟩
      by_cases hw : v = w
      · subst hw; simp [State.setNode, HasTables] at hv
      · simp only [State.setNode, if_neg hw] at hv ⊢; exact Or.inl ⟨hv, trivial⟩
    | remote j =>
      simp only [step] at h1
      split at h1
      · rename_i hj; exact absurd hj ((hno j).1 _ _)
      · simp at h1
    | peers j =>
      simp only [step] at h1
      split at h1
      · rename_i hj; exact absurd hj ((hno j).2.1 _ _)
      · simp at h1
    | deliver j w d =>
      simp only [step] at h1
      split at h1
      · rename_i hj; exact absurd hj ((hno j).2.2.1 _ _ _)
      · rename_i hj; exact absurd hj ((hno j).2.2.2 _ _ _)
      · simp at h1
    | finish j =>
      simp only [step] at h1
      split at h1
      · rename_i hj; exact absurd hj ((hno j).2.2.1 _ _ _)
      · simp at h1

/-- **C48**: a request with a key. With another key than that of the cluster it fails and nothing changes. With the key of the cluster, only the
tables of the node that received it change: the request changes neither the remote data folder nor is sent to other nodes. -/
theorem C48_forwarded (st st1 : State ν δ) (i : Nat) (u : ν) (c : Change δ) (k : Nat) (h1 : step st (.begin_ i u c (some k)) = some st1) :
    st1.remote = st.remote ∧ st1.node = st.node ∧ st1.rows = st.rows ∧
      (k ≠ (st.node u).key → st1.request i = .failed u c [] ∧ ∀ s, s = .remote i ∨ s = .peers i ∨ s = .finish i ∨ (∃ v d, s = .deliver i v d) →
        step st1 s = none) ∧
      (k = (st.node u).key → (∀ s, s = .remote i ∨ s = .peers i ∨ (∃ v d, s = .deliver i v d) → step st1 s = none) ∧
        ∀ st2, step st1 (.finish i) = some st2 → st2.remote = st.remote ∧ st2.rows = st.rows ∧ (∀ v, v ≠ u → st2.node v = st.node v) ∧
          ((∃ v c', st2.request i = .succeeded v c') → After (st.node u).tables c (st2.node u).tables)) := by
  simp only [step] at h1
  split at h1
  · simp only [Option.some.injEq] at h1
    subst h1
    refine ⟨rfl, rfl, rfl, fun hk => ?_, fun hk => ⟨?_, ?_⟩⟩
    · refine ⟨by simp [State.setRequest, hk], ?_⟩
      rintro s (rfl | rfl | rfl | ⟨v, d, rfl⟩) <;> simp [step, State.setRequest, hk]
    · rintro s (rfl | rfl | ⟨v, d, rfl⟩) <;> simp [step, State.setRequest, hk]
    · intro st2 h2
      simp only [step, State.setRequest, if_true, hk, Option.some.injEq] at h2
      subst h2
      refine ⟨rfl, rfl, fun v hv => ?_, ?_⟩
      · simp [State.setNode, hv]
      · rintro ⟨v, c', hs⟩
        simp only [if_true] at hs
        simp only [State.setNode, if_true]
        split at hs
        · rename_i hok
          exact change_after _ _ hok
        · simp at hs
  · simp at h1

/-- A node in the list that does not run. -/
structure Stale (i : Nat) (u w : ν) (st : State ν δ) : Prop where
  outside : (st.node w).phase = .outside
  listed : w ∈ st.rows
  mine : ∃ c, st.request i = .remote u c ∨ st.request i = .peers u c ∨ (∃ pending, st.request i = .sending u c pending ∧ w ∈ pending) ∨
    ∃ pending, st.request i = .failed u c pending

omit [DecidableEq δ] in
theorem stop_mine {u w x : ν} {q : Request ν δ} (h : ∃ c, q = .remote u c ∨ q = .peers u c ∨ (∃ pending, q = .sending u c pending ∧ w ∈ pending) ∨
    ∃ pending, q = .failed u c pending) : ∃ c, stop x q = .remote u c ∨ stop x q = .peers u c ∨
      (∃ pending, stop x q = .sending u c pending ∧ w ∈ pending) ∨ ∃ pending, stop x q = .failed u c pending := by
  obtain ⟨c, h | h | ⟨p, h, hw⟩ | ⟨p, h⟩⟩ := h <;> subst h <;> refine ⟨c, ?_⟩ <;> rw [stop.eq_def]
  · simp only []
    split
    · exact Or.inr (Or.inr (Or.inr ⟨_, rfl⟩))
    · exact Or.inl rfl
  · simp only []
    split
    · exact Or.inr (Or.inr (Or.inr ⟨_, rfl⟩))
    · exact Or.inr (Or.inl rfl)
  · simp only []
    split
    · exact Or.inr (Or.inr (Or.inr ⟨_, rfl⟩))
    · exact Or.inr (Or.inr (Or.inl ⟨_, rfl, hw⟩))
  · exact Or.inr (Or.inr (Or.inr ⟨_, rfl⟩))

omit [DecidableEq δ] in
theorem execute_phase (st : State ν δ) (u : ν) (key : Nat) (c : Change δ) :
    (∀ v, ((execute st u key c).1.node v).phase = (st.node v).phase) ∧ (execute st u key c).1.rows = st.rows ∧
      (execute st u key c).1.request = st.request ∧ (execute st u key c).1.remote = st.remote := by
  rw [execute]
  split
  · refine ⟨fun v => ?_, rfl, rfl, rfl⟩
    by_cases hv : v = u
    · subst hv; simp [State.setNode]
    · simp [State.setNode, hv]
  · exact ⟨fun _ => rfl, rfl, rfl, rfl⟩

theorem step_stale (i : Nat) (u w : ν) (hu : w ≠ u) (st st' : State ν δ) (s : Step ν δ) (hw : s ≠ .save w) (h : Stale i u w st)
    (hs : step st s = some st') : Stale i u w st' := by
  obtain ⟨ho, hl, hm⟩ := h
  cases s with
  | save x =>
    simp only [step] at hs
    split at hs
    · simp only [Option.some.injEq] at hs
      subst hs
      have hx : w ≠ x := fun e => hw (e ▸ rfl)
      exact ⟨by simpa [State.setNode, hx] using ho, List.mem_append_left _ hl, hm⟩
    · simp at hs
  | load x =>
    simp only [step] at hs
    split at hs
    · rename_i hp
      have hx : w ≠ x := by rintro rfl; rw [ho] at hp; simp at hp
      split at hs <;> (simp only [Option.some.injEq] at hs; subst hs; exact ⟨by simpa [State.setNode, hx] using ho, hl, hm⟩)
    · simp at hs
  | serve x =>
    simp only [step] at hs
    split at hs
    · rename_i hp
      have hx : w ≠ x := by rintro rfl; rw [ho] at hp; simp at hp
      simp only [Option.some.injEq] at hs; subst hs; exact ⟨by simpa [State.setNode, hx] using ho, hl, hm⟩
    · simp at hs
  | leave x =>
    simp only [step] at hs
    split at hs
    · rename_i hp
      have hx : w ≠ x := by rintro rfl; rw [ho] at hp; simp at hp
      simp only [Option.some.injEq] at hs
      subst hs
      exact ⟨by simpa [State.setNode, hx] using ho, by simpa using ⟨hl, hx⟩, stop_mine hm⟩
    · simp at hs
  | crash x =>
    simp only [step, Option.some.injEq] at hs
    subst hs
    refine ⟨?_, hl, stop_mine hm⟩
    by_cases hx : w = x
    · subst hx; simp [State.setNode]
    · simpa [State.setNode, hx] using ho
  | begin_ j x c key =>
    simp only [step] at hs
    split at hs
    · rename_i hp
      have hj : i ≠ j := by
        rintro rfl
        obtain ⟨c, h | h | ⟨p, h, _⟩ | ⟨p, h⟩⟩ := hm <;> rw [h] at hp <;> simp at hp
      split at hs <;> (simp only [Option.some.injEq] at hs; subst hs; exact ⟨ho, hl, by simpa [State.setRequest, hj] using hm⟩)
    · simp at hs
  | remote j =>
    simp only [step] at hs
    split at hs
    · rename_i x c hq
      simp only [Option.some.injEq] at hs
      subst hs
      refine ⟨ho, hl, ?_⟩
      by_cases hj : i = j
      · subst hj
        have hx : x = u := by
          obtain ⟨c, h | h | ⟨p, h, _⟩ | ⟨p, h⟩⟩ := hm <;> rw [h] at hq <;> simp at hq
          exact hq.1.symm
        subst hx
        simp only [State.setRequest, if_true]
        split
        · exact ⟨c, Or.inr (Or.inl rfl)⟩
        · exact ⟨c, Or.inr (Or.inr (Or.inr ⟨_, rfl⟩))⟩
      · simpa [State.setRequest, hj] using hm
    · simp at hs
  | peers j =>
    simp only [step] at hs
    split at hs
    · rename_i x c hq
      simp only [Option.some.injEq] at hs
      subst hs
      refine ⟨ho, hl, ?_⟩
      by_cases hj : i = j
      · subst hj
        have hx : x = u := by
          obtain ⟨c, h | h | ⟨p, h, _⟩ | ⟨p, h⟩⟩ := hm <;> rw [h] at hq <;> simp at hq
          exact hq.1.symm
        subst hx
        simp only [State.setRequest, if_true]
        exact ⟨c, Or.inr (Or.inr (Or.inl ⟨_, rfl, by simpa using ⟨hl, hu⟩⟩))⟩
      · simpa [State.setRequest, hj] using hm
    · simp at hs
  | deliver j x d =>
    have hexec := fun key c => execute_phase st x key c
    simp only [step] at hs
    split at hs
    · rename_i v c pending hq
      split at hs
      · by_cases hj : i = j
        · subst hj
          have hvp : v = u ∧ w ∈ pending := by
            obtain ⟨c, h | h | ⟨p, h, hp⟩ | ⟨p, h⟩⟩ := hm <;> rw [h] at hq <;> simp at hq
            exact ⟨hq.1.symm, hq.2.2 ▸ hp⟩
          obtain ⟨rfl, hp⟩ := hvp
          split at hs <;> simp only [Option.some.injEq] at hs <;> subst hs
          · exact ⟨ho, hl, c, Or.inr (Or.inr (Or.inr ⟨pending.erase x, by simp [State.setRequest]⟩))⟩
          · refine ⟨((hexec _ _).1 w).trans ho, ?_, c, Or.inr (Or.inr (Or.inr ⟨pending.erase x, by simp [State.setRequest]⟩))⟩
            simpa [State.setRequest, (hexec _ _).2.1] using hl
          · refine ⟨((hexec _ _).1 w).trans ho, ?_, c, ?_⟩
            · simpa [State.setRequest, (hexec _ _).2.1] using hl
            · simp only [State.setRequest, if_true]
              split
              · rename_i hok
                refine Or.inr (Or.inr (Or.inl ⟨_, rfl, ?_⟩))
                have hx : w ≠ x := by
                  rintro rfl
                  rw [execute, if_neg (by rw [ho]; simp)] at hok
                  simp at hok
                exact (List.mem_erase_of_ne hx).2 hp
              · exact Or.inr (Or.inr (Or.inr ⟨_, rfl⟩))
        · split at hs <;> simp only [Option.some.injEq] at hs <;> subst hs
          · exact ⟨ho, hl, by simpa [State.setRequest, hj] using hm⟩
          · exact ⟨((hexec _ _).1 w).trans ho, by simpa [State.setRequest, (hexec _ _).2.1] using hl,
              by simpa [State.setRequest, hj, (hexec _ _).2.2.1] using hm⟩
          · exact ⟨((hexec _ _).1 w).trans ho, by simpa [State.setRequest, (hexec _ _).2.1] using hl,
              by simpa [State.setRequest, hj, (hexec _ _).2.2.1] using hm⟩
      · simp at hs
    · rename_i v c pending hq
      split at hs
      · by_cases hj : i = j
        · subst hj
          have hv : v = u := by
            obtain ⟨c, h | h | ⟨p, h, _⟩ | ⟨p, h⟩⟩ := hm <;> rw [h] at hq <;> simp at hq
            exact hq.1.symm
          subst hv
          split at hs <;> simp only [Option.some.injEq] at hs <;> subst hs
          · exact ⟨ho, hl, c, Or.inr (Or.inr (Or.inr ⟨pending.erase x, by simp [State.setRequest]⟩))⟩
          · refine ⟨((hexec _ _).1 w).trans ho, ?_, c, Or.inr (Or.inr (Or.inr ⟨pending.erase x, by simp [State.setRequest]⟩))⟩
            simpa [State.setRequest, (hexec _ _).2.1] using hl
        · split at hs <;> simp only [Option.some.injEq] at hs <;> subst hs
          · exact ⟨ho, hl, by simpa [State.setRequest, hj] using hm⟩
          · exact ⟨((hexec _ _).1 w).trans ho, by simpa [State.setRequest, (hexec _ _).2.1] using hl,
              by simpa [State.setRequest, hj, (hexec _ _).2.2.1] using hm⟩
      · simp at hs
    · simp at hs
  | finish j =>
    simp only [step] at hs
    split at hs
    · rename_i v c hq
      have hj : i ≠ j := by
        rintro rfl
        obtain ⟨c, h | h | ⟨p, h, hp⟩ | ⟨p, h⟩⟩ := hm <;> rw [h] at hq <;> simp at hq
        rw [hq.2.2] at hp
        simp at hp
      simp only [Option.some.injEq] at hs
      subst hs
      refine ⟨?_, hl, by simpa [State.setRequest, State.setNode, hj] using hm⟩
      by_cases hv : w = v
      · subst hv; simpa [State.setRequest, State.setNode] using ho
      · simpa [State.setRequest, State.setNode, hv] using ho
    · simp at hs

/-- **C48, negative**: while a node in the list of nodes has stopped and does not start again, no change that a client requests from another node
succeeds, whatever else happens. -/
theorem C48_stale (st st' : State ν δ) (i : Nat) (u w : ν) (hu : w ≠ u) (c : Change δ) (hw : (st.node w).phase = .outside) (hl : w ∈ st.rows)
    (steps : List (Step ν δ)) (hn : Step.save w ∉ steps) (hr : run st (.begin_ i u c none :: steps) = some st') (v : ν) (c' : Change δ) :
    st'.request i ≠ .succeeded v c' := by
  simp only [run, Option.bind_eq_some_iff] at hr
  obtain ⟨st1, h1, h2⟩ := hr
  have h0 : Stale i u w st1 := by
    simp only [step] at h1
    split at h1
    · simp only [Option.some.injEq] at h1
      subst h1
      exact ⟨hw, hl, c, Or.inl (by simp [State.setRequest])⟩
    · simp at h1
  clear h1 hw hl
  induction steps generalizing st1 with
  | nil =>
    simp only [run, Option.some.injEq] at h2
    subst h2
    obtain ⟨c, h | h | ⟨p, h, _⟩ | ⟨p, h⟩⟩ := h0.mine <;> rw [h] <;> nofun
  | cons s rest ih =>
    simp only [run, Option.bind_eq_some_iff] at h2
    obtain ⟨st2, h2, h3⟩ := h2
    exact ih (fun h => hn (List.mem_cons_of_mem _ h)) st2 h3
      (step_stale i u w hu st1 st2 s (fun e => hn (e ▸ List.mem_cons_self ..)) h0 h2)

/-- What is known about a change when a node is in the list twice. -/
def Double (u w : ν) (c : Change δ) (r : Tables δ) (rows : List ν) (t : Tables δ) : Request ν δ → Prop
  | .idle => False
  | .remote u' c' => u' = u ∧ c' = c ∧ 2 ≤ rows.count w
  | .peers u' c' => u' = u ∧ c' = c ∧ (change r c).2 = false ∧ 2 ≤ rows.count w
  | .sending _ c' pending => c' = c ∧ (change r c).2 = false ∧ (2 ≤ pending.count w ∨ (1 ≤ pending.count w ∧ (change t c).2 = false))
  | .succeeded _ _ => False
  | .failed _ _ _ => True

omit [DecidableEq δ] in
theorem Double.keep {u w : ν} {c : Change δ} {r : Tables δ} {rows rows' : List ν} {t t' : Tables δ} {q : Request ν δ}
    (h : Double u w c r rows t q) (hr : rows.count w ≤ rows'.count w) (ht : t' = t ∨ SameTables t' r) : Double u w c r rows' t' q := by
  cases q with
  | remote u' c' => exact ⟨h.1, h.2.1, Nat.le_trans h.2.2 hr⟩
  | peers u' c' => exact ⟨h.1, h.2.1, h.2.2.1, Nat.le_trans h.2.2.2 hr⟩
  | sending u' c' pending =>
    refine ⟨h.1, h.2.1, h.2.2.imp id fun hc => ⟨hc.1, ?_⟩⟩
    rcases ht with rfl | ht
    · exact hc.2
    · rw [change_congr _ _ _ ht]; exact h.2.1
  | _ => exact h

omit [DecidableEq δ] in
theorem Double.stop {u w x : ν} {c : Change δ} {r : Tables δ} {rows : List ν} {t : Tables δ} {q : Request ν δ} (h : Double u w c r rows t q) :
    Double u w c r rows t (stop x q) := by
  cases q with
  | remote u' c' =>
    rw [Model.Cluster.stop]
    split
    · trivial
    · exact h
  | peers u' c' =>
    rw [Model.Cluster.stop]
    split
    · trivial
    · exact h
  | sending u' c' pending =>
    rw [Model.Cluster.stop]
    split
    · trivial
    · exact h
  | _ => exact h

theorem step_twice (i : Nat) (u w : ν) (hu : w ≠ u) (c : Change δ) (hc : NotEmpty c) (st st' : State ν δ) (s : Step ν δ) (hn : NoRequest s)
    (hw : s ≠ .leave w) (ho : ∀ j, j ≠ i → st.request j = .idle ∨ ∃ v c', st.request j = .succeeded v c')
    (hm : Double u w c st.remote st.rows (st.node w).tables (st.request i)) (hs : step st s = some st') :
    (∀ j, j ≠ i → st'.request j = .idle ∨ ∃ v c', st'.request j = .succeeded v c') ∧
      Double u w c st'.remote st'.rows (st'.node w).tables (st'.request i) := by
  cases s with
  | begin_ => exact absurd hn id
  | save x =>
    simp only [step] at hs
    split at hs
    · simp only [Option.some.injEq] at hs
      subst hs
      refine ⟨ho, hm.keep (by simp) (Or.inl ?_)⟩
      by_cases hx : w = x
      · subst hx; simp [State.setNode]
      · simp [State.setNode, hx]
    · simp at hs
  | load x =>
    simp only [step] at hs
    split at hs
    · split at hs
      · rename_i t ht
        simp only [Option.some.injEq] at hs
        subst hs
        refine ⟨ho, hm.keep (Nat.le_refl _) ?_⟩
        by_cases hx : w = x
        · subst hx
          refine Or.inr ?_
          simp only [State.setNode, if_true]
          exact load_same ht
        · simp [State.setNode, hx]
      · simp only [Option.some.injEq] at hs
        subst hs
        refine ⟨ho, hm.keep (Nat.le_refl _) (Or.inl ?_)⟩
        by_cases hx : w = x
        · subst hx; simp [State.setNode]
        · simp [State.setNode, hx]
    · simp at hs
  | serve x =>
    simp only [step] at hs
    split at hs
    · simp only [Option.some.injEq] at hs
      subst hs
      refine ⟨ho, hm.keep (Nat.le_refl _) (Or.inl ?_)⟩
      by_cases hx : w = x
      · subst hx; simp [State.setNode]
      · simp [State.setNode, hx]
    · simp at hs
  | leave x =>
    simp only [step] at hs
    split at hs
    · simp only [Option.some.injEq] at hs
      subst hs
      have hx : w ≠ x := fun e => hw (e ▸ rfl)
      refine ⟨fun j hj => ?_, hm.stop.keep ?_ (Or.inl (by simp [State.setNode, hx]))⟩
      · show stop x (st.request j) = _ ∨ ∃ v c', stop x (st.request j) = _
        rw [stop_quiet x (ho j hj)]; exact ho j hj
      · exact Nat.le_of_eq (List.count_filter (by simpa using hx)).symm
    · simp at hs
  | crash x =>
    simp only [step, Option.some.injEq] at hs
    subst hs
    refine ⟨fun j hj => ?_, hm.stop.keep (Nat.le_refl _) (Or.inl ?_)⟩
    · show stop x (st.request j) = _ ∨ ∃ v c', stop x (st.request j) = _
      rw [stop_quiet x (ho j hj)]; exact ho j hj
    · by_cases hx : w = x
      · subst hx; simp [State.setNode]
      · simp [State.setNode, hx]
  | remote j =>
    simp only [step] at hs
    split at hs
    · rename_i x c' hq
      by_cases hj : j = i
      · subst hj
        rw [hq] at hm
        obtain ⟨rfl, rfl, h2⟩ := hm
        simp only [Option.some.injEq] at hs
        subst hs
        refine ⟨fun j' hj' => ?_, ?_⟩
        · simp only [State.setRequest, if_neg hj']; exact ho j' hj'
        · simp only [State.setRequest, if_true]
          split
          · rename_i hok
            exact ⟨rfl, rfl, Lemmas.Cluster.After.fails hc (change_after _ _ hok), h2⟩
          · trivial
      · rcases ho j hj with hq' | ⟨_, _, hq'⟩ <;> rw [hq'] at hq <;> simp at hq
    · simp at hs
  | peers j =>
    simp only [step] at hs
    split at hs
    · rename_i x c' hq
      by_cases hj : j = i
      · subst hj
        rw [hq] at hm
        obtain ⟨rfl, rfl, h1, h2⟩ := hm
        simp only [Option.some.injEq] at hs
        subst hs
        refine ⟨fun j' hj' => ?_, ?_⟩
        · simp only [State.setRequest, if_neg hj']; exact ho j' hj'
        · simp only [State.setRequest, if_true]
          refine ⟨rfl, h1, Or.inl ?_⟩
          rw [List.count_filter (by simpa using hu)]
          exact h2
      · rcases ho j hj with hq' | ⟨_, _, hq'⟩ <;> rw [hq'] at hq <;> simp at hq
    · simp at hs
  | deliver j x d =>
    by_cases hj : j = i
    · subst hj
      have hexec := fun key c => execute_phase st x key c
      have hoth : ∀ (st1 : State ν δ) (q : Request ν δ), st1.request = st.request →
          ∀ j', j' ≠ j → (st1.setRequest j q).request j' = .idle ∨ ∃ v c', (st1.setRequest j q).request j' = .succeeded v c' := by
        intro st1 q hreq j' hj'
        simp only [State.setRequest, if_neg hj', hreq]
        exact ho j' hj'
      have hfail : ∀ (st1 : State ν δ) (v : ν) (c' : Change δ) (p : List ν),
          Double u w c (st1.setRequest j (.failed v c' p)).remote (st1.setRequest j (.failed v c' p)).rows
            ((st1.setRequest j (.failed v c' p)).node w).tables ((st1.setRequest j (.failed v c' p)).request j) := by
        intro st1 v c' p
        simp only [State.setRequest, if_true]
        trivial
      simp only [step] at hs
      split at hs
      · rename_i v c' pending hq
        split at hs
        · rename_i hmem
          split at hs
          · simp only [Option.some.injEq] at hs; subst hs; exact ⟨hoth _ _ rfl, hfail _ _ _ _⟩
          · simp only [Option.some.injEq] at hs; subst hs; exact ⟨hoth _ _ (hexec _ _).2.2.1, hfail _ _ _ _⟩
          · simp only [Option.some.injEq] at hs
            subst hs
            refine ⟨hoth _ _ (hexec _ _).2.2.1, ?_⟩
            by_cases hok : (execute st x (st.node v).key c').2 = true
            · rw [if_pos hok]
              rw [hq] at hm
              obtain ⟨rfl, h1, h2⟩ := hm
              rw [execute] at hok ⊢
              by_cases hserve : (st.node x).phase = .serving ∧ (st.node x).key = (st.node v).key
              · rw [if_pos hserve] at hok ⊢
                simp only [] at hok
                simp only [State.setRequest, if_true]
                refine ⟨rfl, h1, ?_⟩
                by_cases hxw : w = x
                · subst hxw
                  simp only [State.setNode, if_true]
                  refine Or.inr ⟨?_, Lemmas.Cluster.After.fails hc (change_after _ _ hok)⟩
                  rw [List.count_erase_self]
                  rcases h2 with h2 | h2
                  · omega
                  · rw [hok] at h2; simp at h2
                · simp only [State.setNode, if_neg hxw]
                  rw [List.count_erase_of_ne hxw]
                  exact h2
              · rw [if_neg hserve] at hok
                simp at hok
            · rw [if_neg hok]
              exact hfail _ _ _ _
        · simp at hs
      · split at hs
        · split at hs
          · simp only [Option.some.injEq] at hs; subst hs; exact ⟨hoth _ _ rfl, hfail _ _ _ _⟩
          · simp only [Option.some.injEq] at hs; subst hs; exact ⟨hoth _ _ (hexec _ _).2.2.1, hfail _ _ _ _⟩
        · simp at hs
      · simp at hs
    · simp only [step] at hs
      rcases ho j hj with hq' | ⟨_, _, hq'⟩ <;> rw [hq'] at hs <;> simp at hs
  | finish j =>
    by_cases hj : j = i
    · subst hj
      simp only [step] at hs
      split at hs
      · rename_i x c' hq
        rw [hq] at hm
        obtain ⟨_, _, h2⟩ := hm
        simp at h2
      · simp at hs
    · simp only [step] at hs
      rcases ho j hj with hq' | ⟨_, _, hq'⟩ <;> rw [hq'] at hs <;> simp at hs

/-- **C48, negative**: while a node is in the list of nodes twice, no change of at least one table that a client requests from another node succeeds
if no other change is in progress, although all nodes may run. -/
theorem C48_twice (st st' : State ν δ) (hq : Quiet st) (i : Nat) (u w : ν) (hu : w ≠ u) (c : Change δ) (hc : NotEmpty c) (hl : 2 ≤ st.rows.count w)
    (steps : List (Step ν δ)) (hn : ∀ s ∈ steps, NoRequest s) (hw : Step.leave w ∉ steps)
    (hr : run st (.begin_ i u c none :: steps) = some st') (v : ν) (c' : Change δ) : st'.request i ≠ .succeeded v c' := by
  simp only [run, Option.bind_eq_some_iff] at hr
  obtain ⟨st1, h1, h2⟩ := hr
  have h0 : (∀ j, j ≠ i → st1.request j = .idle ∨ ∃ v c', st1.request j = .succeeded v c') ∧
      Double u w c st1.remote st1.rows (st1.node w).tables (st1.request i) := by
    simp only [step] at h1
    split at h1
    · simp only [Option.some.injEq] at h1
      subst h1
      refine ⟨fun j hj => ?_, ?_⟩
      · simp only [State.setRequest, if_neg hj]; exact hq j
      · simp only [State.setRequest, if_true]
        exact ⟨rfl, rfl, hl⟩
    · simp at h1
  clear h1 hq hl
  induction steps generalizing st1 with
  | nil =>
    simp only [run, Option.some.injEq] at h2
    subst h2
    intro hs
    have := h0.2
    rw [hs] at this
    exact this
  | cons s rest ih =>
    simp only [run, Option.bind_eq_some_iff] at h2
    obtain ⟨st2, h2, h3⟩ := h2
    exact ih (fun s hs => hn s (List.mem_cons_of_mem _ hs)) (fun h => hw (List.mem_cons_of_mem _ h)) st2 h3
      (step_twice i u w hu c hc st1 st2 s (hn s (List.mem_cons_self ..)) (fun e => hw (e ▸ List.mem_cons_self ..)) h0.1 h0.2 h2)

/-- Two nodes 0 and 1 that run. -/
def twoNodes : State Nat Nat where
  remote := [("a", 1)]
  rows := [0, 1]
  node u := if u < 2 then ⟨.serving, [("a", 1)], 7⟩ else ⟨.outside, [], 7⟩
  request _ := .idle

theorem twoNodes_agrees : Agrees twoNodes := by
  refine ⟨fun u hu => ?_, fun u hu => ?_⟩
  · by_cases h : u < 2
    · intro n; simp [twoNodes, h]
    · simp [Active, twoNodes, h] at hu
  · by_cases h : u < 2
    · have : u = 0 ∨ u = 1 := by omega
      simpa [twoNodes] using this
    · simp [twoNodes, h] at hu

/-- The hypotheses of C48_partial are met by a table that is created while a third node joins, after which all three nodes have the table. -/
example : Agrees twoNodes ∧ Quiet twoNodes ∧
    ∃ st', run twoNodes [.begin_ 0 0 (.create "b" 2) none, .remote 0, .peers 0, .save 2, .load 2, .deliver 0 1 .delivered, .serve 2, .finish 0] =
        some st' ∧ st'.request 0 = .succeeded 0 (.create "b" 2) ∧ (st'.node 0).tables = [("a", 1), ("b", 2)] ∧
      (st'.node 1).tables = [("a", 1), ("b", 2)] ∧ (st'.node 2).tables = [("a", 1), ("b", 2)] :=
  ⟨twoNodes_agrees, fun _ => Or.inl rfl, _, rfl, by decide, by decide, by decide, by decide⟩

/-- Three requests at the node 0 overlap: a table is created, dropped and created with another definition. The node 1 receives them in another order.
All succeed and the nodes have different definitions. -/
theorem C48_concurrent : ∃ st', run twoNodes [
      .begin_ 0 0 (.create "b" 2) none, .remote 0, .peers 0,
      .begin_ 1 0 (.drop ["b"]) none, .remote 1, .peers 1,
      .begin_ 2 0 (.create "b" 3) none, .remote 2, .peers 2,
      .deliver 2 1 .delivered, .deliver 1 1 .delivered, .deliver 0 1 .delivered, .finish 0, .finish 1, .finish 2] = some st' ∧
    st'.request 0 = .succeeded 0 (.create "b" 2) ∧ st'.request 1 = .succeeded 0 (.drop ["b"]) ∧ st'.request 2 = .succeeded 0 (.create "b" 3) ∧
    st'.remote.lookup "b" = some 3 ∧ (st'.node 0).tables.lookup "b" = some 3 ∧ (st'.node 1).tables.lookup "b" = some 2 :=
  ⟨_, rfl, by decide, by decide, by decide, by decide +kernel, by decide +kernel, by decide +kernel⟩

/-- The node 1 crashes. Creating a table fails but the table exists in the remote data folder, so creating it again fails too and the node 0 never
gets the table. Dropping it fails too. -/
theorem C48_failed : ∃ st', run twoNodes [.crash 1,
      .begin_ 0 0 (.create "b" 2) none, .remote 0, .peers 0, .deliver 0 1 .requestLost,
      .begin_ 1 0 (.create "b" 2) none, .remote 1] = some st' ∧
    st'.request 0 = .failed 0 (.create "b" 2) [] ∧ st'.request 1 = .failed 0 (.create "b" 2) [] ∧
    st'.remote.lookup "b" = some 2 ∧ (st'.node 0).tables.lookup "b" = none ∧
    ∃ st'', run st' [.begin_ 2 0 (.drop ["b"]) none, .remote 2, .peers 2, .deliver 2 1 .requestLost] = some st'' ∧
      st''.request 2 = .failed 0 (.drop ["b"]) [] ∧ st''.remote.lookup "b" = none :=
  ⟨_, rfl, by decide, by decide, by decide +kernel, by decide +kernel, _, rfl, by decide, by decide +kernel⟩

/-- The node 1 executes a request but its reply is lost. The table is in the remote data folder and at the node 1 but not at the node 0. Dropping it
succeeds in the remote data folder and at the node 1 and fails at the node 0, and all have the same tables again. If the request is lost instead, the
node 1 has a table that is not in the remote data folder and cannot start again. -/
theorem C48_unstartable : ∃ st', run twoNodes [
      .begin_ 0 0 (.create "b" 2) none, .remote 0, .peers 0, .deliver 0 1 .replyLost,
      .begin_ 1 0 (.drop ["b"]) none, .remote 1, .peers 1, .deliver 1 1 .requestLost, .crash 1, .save 1, .load 1] = some st' ∧
    st'.remote.lookup "b" = none ∧ (st'.node 1).tables.lookup "b" = some 2 ∧ (st'.node 1).phase = .outside ∧ 1 ∈ st'.rows :=
  ⟨_, rfl, by decide +kernel, by decide +kernel, by decide, by decide⟩

/-- The hypotheses of C48_stale and C48_twice are met: the node 1 crashes, and later restarts. -/
example : (∃ st', run twoNodes [.crash 1] = some st' ∧ (st'.node 1).phase = .outside ∧ 1 ∈ st'.rows) ∧
    ∃ st', run twoNodes [.crash 1, .save 1, .load 1, .serve 1] = some st' ∧ Quiet st' ∧ 2 ≤ st'.rows.count 1 ∧ (st'.node 1).phase = .serving ∧
      ∃ st'', run st' [.begin_ 0 0 (.create "b" 2) none, .remote 0, .peers 0, .deliver 0 1 .delivered, .deliver 0 1 .delivered] = some st'' ∧
        st''.request 0 = .failed 0 (.create "b" 2) [] :=
  ⟨⟨_, rfl, by decide, by decide⟩, _, rfl, fun _ => Or.inl rfl, by decide, by decide, _, rfl, by decide⟩

end ModelarDB.Props
