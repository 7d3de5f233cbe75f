import Verif.Spec.ClusterData
namespace ModelarDB.Lemmas.ClusterData
open ModelarDB.Model.ClusterData ModelarDB.Spec.ClusterData

variable {ν ρ : Type} [DecidableEq ν]

theorem setRows_same (f : String → List ρ) (t : String) (rows : List ρ) : setRows f t rows t = rows := by simp [setRows]

theorem setRows_other (f : String → List ρ) {t t' : String} (rows : List ρ) (h : t' ≠ t) : setRows f t rows t' = f t' := by
  simp [setRows, h]

/-! ### Deleting rows in one node -/

theorem truncateAll_phase (known : String → Bool) (names : List String) (n : Node ρ) :
    (n.truncateAll known names).1.phase = n.phase ∧ (n.truncateAll known names).1.mode = n.mode := by
  induction names generalizing n with
  | nil => exact ⟨rfl, rfl⟩
  | cons t rest ih =>
    simp only [Node.truncateAll]
    split
    · exact ih _
    · exact ⟨rfl, rfl⟩

theorem free_flush {n : Node ρ} {t : String} {r : ρ} (h : Free n t r) : Free n.flush t r := by
  refine ⟨by simp [Node.flush], ?_⟩
  simp only [Node.flush, List.mem_append, not_or]
  exact ⟨h.2, h.1⟩

theorem free_truncate {n : Node ρ} {t : String} {r : ρ} (t' : String) (h : Free n t r) : Free (n.truncate t') t r := by
  refine ⟨by simp [Node.truncate, Node.flush], ?_⟩
  by_cases ht : t = t'
  · subst ht; simp [Node.truncate, setRows]
  · simp only [Node.truncate]; rw [setRows_other _ _ ht]; exact (free_flush h).2

theorem free_truncateAll (known : String → Bool) (names : List String) {n : Node ρ} {t : String} {r : ρ} (h : Free n t r) :
    Free (n.truncateAll known names).1 t r := by
  induction names generalizing n with
  | nil => exact h
  | cons t' rest ih =>
    simp only [Node.truncateAll]
    split
    · exact ih (free_truncate t' h)
    · exact h

theorem free_truncated (known : String → Bool) (names : List String) (n : Node ρ) {t : String} (r : ρ) (h : t ∈ names)
    (hok : (n.truncateAll known names).2 = true) : Free (n.truncateAll known names).1 t r := by
  induction names generalizing n with
  | nil => cases h
  | cons t' rest ih =>
    simp only [Node.truncateAll] at hok ⊢
    by_cases hk : known t' = true
    · simp only [if_pos hk] at hok ⊢
      rcases List.mem_cons.mp h with h | h
      · subst h
        exact free_truncateAll _ _ ⟨by simp [Node.truncate, Node.flush], by simp [Node.truncate, setRows]⟩
      · exact ih _ h hok
    · simp only [if_neg hk] at hok; exact absurd hok (by decide)

variable [BEq ρ] [LawfulBEq ρ]

omit [LawfulBEq ρ] in
theorem count_flush (n : Node ρ) (t : String) (r : ρ) :
    (n.flush.memory t).count r + (n.flush.disk t).count r = (n.memory t).count r + (n.disk t).count r := by
  simp only [Node.flush, List.count_nil, List.count_append]; omega

omit [LawfulBEq ρ] in
theorem count_truncateAll (known : String → Bool) (names : List String) (n : Node ρ) {t : String} (r : ρ) (h : t ∉ names) :
    ((n.truncateAll known names).1.memory t).count r + ((n.truncateAll known names).1.disk t).count r =
      (n.memory t).count r + (n.disk t).count r := by
  induction names generalizing n with
  | nil => rfl
  | cons t' rest ih =>
    simp only [Node.truncateAll]
    split
    · rw [ih _ (fun h' => h (List.mem_cons_of_mem _ h')), ← count_flush n]
      simp only [Node.truncate]
      rw [setRows_other _ _ (show t ≠ t' from fun h' => h (h' ▸ List.mem_cons_self))]
    · rfl

/-! ### Nodes -/

omit [BEq ρ] [LawfulBEq ρ] in
theorem setNode_same (st : State ν ρ) (u : ν) (n : Node ρ) : (st.setNode u n).node u = n := by simp [State.setNode]

omit [BEq ρ] [LawfulBEq ρ] in
theorem setNode_other (st : State ν ρ) {u v : ν} (n : Node ρ) (h : v ≠ u) : (st.setNode u n).node v = st.node v := by
  simp [State.setNode, h]

omit [BEq ρ] [LawfulBEq ρ] in
theorem free_setNode {st : State ν ρ} {u : ν} {n : Node ρ} {t : String} {r : ρ} (v : ν) (h : Free (st.node v) t r)
    (hn : Free (st.node u) t r → Free n t r) : Free ((st.setNode u n).node v) t r := by
  by_cases hv : v = u
  · subst hv; rw [setNode_same]; exact hn h
  · rw [setNode_other _ _ hv]; exact h

omit [BEq ρ] [LawfulBEq ρ] in
theorem free_execute {st : State ν ρ} {t : String} {r : ρ} (u v : ν) (names : List String) (h : Free (st.node v) t r) :
    Free ((st.execute u names).1.node v) t r := by
  unfold State.execute
  split
  · exact free_setNode v h (free_truncateAll _ _)
  · exact h

omit [BEq ρ] [LawfulBEq ρ] in
theorem free_executed {st : State ν ρ} {t : String} (r : ρ) (u : ν) {names : List String} (h : t ∈ names)
    (hok : (st.execute u names).2 = true) : Free ((st.execute u names).1.node u) t r := by
  unfold State.execute at hok ⊢
  split
  · next hp => rw [if_pos hp] at hok; rw [setNode_same]; exact free_truncated _ _ _ r h hok
  · next hp => rw [if_neg hp] at hok; cases hok

omit [BEq ρ] [LawfulBEq ρ] in
theorem execute_same (st : State ν ρ) (u : ν) (names : List String) :
    (st.execute u names).1.remote = st.remote ∧ (st.execute u names).1.listed = st.listed ∧ (st.execute u names).1.request = st.request ∧
      (st.execute u names).1.known = st.known := by
  unfold State.execute
  split <;> exact ⟨rfl, rfl, rfl, rfl⟩

/-! ### One step -/

omit [BEq ρ] [LawfulBEq ρ] in
theorem free_step_node {st st' : State ν ρ} {s : Step ν ρ} {t : String} {r : ρ} (h : st.step s = some st') (v : ν) (hi : s ≠ .ingest v t r)
    (hv : Free (st.node v) t r) : Free (st'.node v) t r := by
  cases s with
  | start u mode =>
    simp only [State.step] at h
    split at h
    · cases h; exact free_setNode v hv id
    · cases h
  | serve u =>
    simp only [State.step] at h
    split at h
    · cases h; exact free_setNode v hv id
    · cases h
  | kill u =>
    simp only [State.step] at h
    split at h
    · cases h
      refine free_setNode v ?_ id
      refine free_setNode v ?_ fun hf => ⟨hf.1, by simp⟩
      exact free_setNode v hv free_flush
    · cases h
  | stop u =>
    simp only [State.step] at h
    split at h
    · cases h
      refine free_setNode v ?_ id
      exact free_setNode v hv free_flush
    · cases h
  | crash u => simp only [State.step] at h; cases h; exact free_setNode v hv id
  | ingest u t' r' =>
    simp only [State.step] at h
    split at h
    · cases h
      by_cases hu : v = u
      · subst hu
        refine free_setNode v hv fun hf => ⟨?_, hf.2⟩
        by_cases ht : t = t'
        · subst ht
          simp only [setRows_same, List.mem_append, List.mem_singleton, not_or]
          exact ⟨hf.1, fun hr => hi (by rw [hr])⟩
        · simp only [setRows_other _ _ ht]; exact hf.1
      · rw [setNode_other _ _ hu]; exact hv
    · cases h
  | save u t' =>
    simp only [State.step] at h
    split at h
    · cases h
      refine free_setNode v hv fun hf => ?_
      by_cases ht : t = t'
      · subst ht
        refine ⟨by simp [setRows], ?_⟩
        simp only [setRows_same, List.mem_append, not_or]
        exact ⟨hf.2, hf.1⟩
      · exact ⟨by simp only [setRows_other _ _ ht]; exact hf.1, by simp only [setRows_other _ _ ht]; exact hf.2⟩
    · cases h
  | transfer u t' =>
    simp only [State.step] at h
    split at h
    · cases h
      refine free_setNode v hv fun hf => ⟨hf.1, ?_⟩
      by_cases ht : t = t'
      · subst ht; simp [setRows]
      · simp only [setRows_other _ _ ht]; exact hf.2
    · cases h
  | flushNode u =>
    simp only [State.step] at h
    split at h
    · cases h
      refine free_setNode v ?_ fun hf => ⟨hf.1, by simp⟩
      exact free_setNode v hv free_flush
    · cases h
  | truncate u names =>
    simp only [State.step] at h
    split at h
    · cases h; exact free_execute u v names hv
    · cases h
  | begin_ i u names =>
    simp only [State.step] at h
    split at h
    · cases h; exact hv
    · cases h
  | remote i =>
    simp only [State.step] at h
    split at h
    · cases h; exact hv
    · split at h <;> (cases h; exact hv)
    · cases h
  | peers i =>
    simp only [State.step] at h
    split at h
    · cases h; exact hv
    · cases h
  | deliver i u d =>
    simp only [State.step] at h
    split at h
    · split at h
      · split at h
        · cases h; exact hv
        · cases h; exact free_execute u v _ hv
        · cases h; exact free_execute u v _ hv
      · cases h
    · split at h
      · split at h
        · cases h; exact hv
        · cases h; exact free_execute u v _ hv
      · cases h
    · cases h
  | finish i =>
    simp only [State.step] at h
    split at h
    · cases h; exact free_execute _ v _ hv
    · cases h

omit [BEq ρ] [LawfulBEq ρ] in
theorem free_step {st st' : State ν ρ} {s : Step ν ρ} {t : String} {r : ρ} (h : st.step s = some st') (hi : ¬ Ingests t r s) (v : ν)
    (hv : Free (st.node v) t r) : Free (st'.node v) t r :=
  free_step_node h v (fun he => hi (he ▸ ⟨rfl, rfl⟩)) hv

omit [BEq ρ] [LawfulBEq ρ] in
theorem free_run_node {t : String} {r : ρ} (v : ν) : ∀ (steps : List (Step ν ρ)) {st st' : State ν ρ}, st.run steps = some st' →
    .ingest v t r ∉ steps → Free (st.node v) t r → Free (st'.node v) t r
  | [], st, st', h, _, hg => by simp only [State.run] at h; cases h; exact hg
  | s :: rest, st, st', h, hs, hg => by
    simp only [State.run, Option.bind_eq_some_iff] at h
    obtain ⟨st1, h1, h2⟩ := h
    exact free_run_node v rest h2 (fun hx => hs (List.mem_cons_of_mem _ hx)) (free_step_node h1 v (fun he => hs (he ▸ List.mem_cons_self)) hg)

omit [BEq ρ] [LawfulBEq ρ] in
theorem remote_step {st st' : State ν ρ} {s : Step ν ρ} {t : String} {r : ρ} (h : st.step s = some st')
    (hm : Moves t s → ∀ u, Free (st.node u) t r) (hr : r ∉ st.remote t) : r ∉ st'.remote t := by
  have moved : ∀ u : ν, (∀ u, Free (st.node u) t r) → r ∉ ((st.setNode u (st.node u).flush).transferAll u).remote t := by
    intro u hf
    simp only [State.transferAll, setNode_same, List.mem_append, not_or]
    exact ⟨hr, (free_flush (hf u)).2⟩
  cases s with
  | start u mode =>
    simp only [State.step] at h
    split at h
    · cases h; exact hr
    · cases h
  | serve u =>
    simp only [State.step] at h
    split at h
    · cases h; exact hr
    · cases h
  | kill u =>
    simp only [State.step] at h
    split at h
    · cases h; exact moved u (hm trivial)
    · cases h
  | stop u =>
    simp only [State.step] at h
    split at h
    · cases h; exact hr
    · cases h
  | crash u => simp only [State.step] at h; cases h; exact hr
  | ingest u t' r' =>
    simp only [State.step] at h
    split at h
    · cases h; exact hr
    · cases h
  | save u t' =>
    simp only [State.step] at h
    split at h
    · cases h; exact hr
    · cases h
  | transfer u t' =>
    simp only [State.step] at h
    split at h
    · cases h
      by_cases ht : t = t'
      · subst ht
        simp only [setRows_same, List.mem_append, not_or]
        exact ⟨hr, (hm rfl u).2⟩
      · simp only [setRows_other _ _ ht]; exact hr
    · cases h
  | flushNode u =>
    simp only [State.step] at h
    split at h
    · cases h; exact moved u (hm trivial)
    · cases h
  | truncate u names =>
    simp only [State.step] at h
    split at h
    · cases h; rw [(execute_same st u names).1]; exact hr
    · cases h
  | begin_ i u names =>
    simp only [State.step] at h
    split at h
    · cases h; exact hr
    · cases h
  | remote i =>
    simp only [State.step] at h
    split at h
    · cases h; exact hr
    · split at h
      · cases h
        simp only [State.setRequest, setRows]
        split
        · exact List.not_mem_nil
        · exact hr
      · cases h; exact hr
    · cases h
  | peers i =>
    simp only [State.step] at h
    split at h
    · cases h; exact hr
    · cases h
  | deliver i u d =>
    simp only [State.step] at h
    split at h
    · split at h
      · split at h
        · cases h; exact hr
        · cases h; simp only [State.setRequest]; rw [(execute_same st u _).1]; exact hr
        · cases h; simp only [State.setRequest]; rw [(execute_same st u _).1]; exact hr
      · cases h
    · split at h
      · split at h
        · cases h; exact hr
        · cases h; simp only [State.setRequest]; rw [(execute_same st u _).1]; exact hr
      · cases h
    · cases h
  | finish i =>
    simp only [State.step] at h
    split at h
    · cases h; simp only [State.setRequest]; rw [(execute_same st _ _).1]; exact hr
    · cases h

omit [BEq ρ] [LawfulBEq ρ] in
theorem listed_step {st st' : State ν ρ} {s : Step ν ρ} (h : st.step s = some st') (hl : ¬ Leaves s) {p : ν × Mode} (hp : p ∈ st.listed) :
    p ∈ st'.listed := by
  cases s with
  | start u mode =>
    simp only [State.step] at h
    split at h
    · cases h; exact List.mem_append_left _ hp
    · cases h
  | kill u => exact absurd trivial hl
  | stop u => exact absurd trivial hl
  | crash u => simp only [State.step] at h; cases h; exact hp
  | truncate u names =>
    simp only [State.step] at h
    split at h
    · cases h; rw [(execute_same st u names).2.1]; exact hp
    · cases h
  | remote i =>
    simp only [State.step] at h
    split at h
    · cases h; exact hp
    · split at h <;> (cases h; exact hp)
    · cases h
  | peers i =>
    simp only [State.step] at h
    split at h
    · cases h; exact hp
    · cases h
  | deliver i u d =>
    simp only [State.step] at h
    split at h
    · split at h
      · split at h
        · cases h; exact hp
        · cases h; simp only [State.setRequest]; rw [(execute_same st u _).2.1]; exact hp
        · cases h; simp only [State.setRequest]; rw [(execute_same st u _).2.1]; exact hp
      · cases h
    · split at h
      · split at h
        · cases h; exact hp
        · cases h; simp only [State.setRequest]; rw [(execute_same st u _).2.1]; exact hp
      · cases h
    · cases h
  | finish i =>
    simp only [State.step] at h
    split at h
    · cases h; simp only [State.setRequest]; rw [(execute_same st _ _).2.1]; exact hp
    · cases h
  | _ =>
    simp only [State.step] at h
    split at h
    · cases h; exact hp
    · cases h

/-! ### A request to delete rows in the whole cluster -/

/-- The nodes with the row are in the list of nodes, except the node that handles the request. -/
def Listed (st : State ν ρ) (u : ν) (t : String) (r : ρ) : Prop := ∀ v, v = u ∨ v ∈ st.listed.map Prod.fst ∨ Free (st.node v) t r

/-- What is known about a row when a request has come so far. -/
def Goal (st : State ν ρ) (u : ν) (names : List String) (t : String) (r : ρ) : Request ν → Prop
  | .idle => False
  | .remote v ns todo => v = u ∧ ns = names ∧ (t ∈ todo ∨ r ∉ st.remote t) ∧ Listed st u t r
  | .peers v ns => v = u ∧ ns = names ∧ r ∉ st.remote t ∧ Listed st u t r
  | .sending v ns pending => v = u ∧ ns = names ∧ r ∉ st.remote t ∧ ∀ w, w ∈ pending ∨ w = u ∨ Free (st.node w) t r
  | .succeeded _ _ => Nowhere st t r
  | .failed _ _ _ => True

omit [BEq ρ] [LawfulBEq ρ] in
omit [DecidableEq ν] in
theorem goal_mono {st st' : State ν ρ} {u : ν} {names : List String} {t : String} {r : ρ}
    (hf : ∀ v, Free (st.node v) t r → Free (st'.node v) t r) (hr : r ∉ st.remote t → r ∉ st'.remote t)
    (hl : ∀ p, p ∈ st.listed → p ∈ st'.listed) {q : Request ν} (h : Goal st u names t r q) : Goal st' u names t r q := by
  have hlisted : Listed st u t r → Listed st' u t r := by
    intro h v
    rcases h v with h | h | h
    · exact .inl h
    · obtain ⟨p, hp, rfl⟩ := List.mem_map.mp h
      exact .inr (.inl (List.mem_map.mpr ⟨p, hl p hp, rfl⟩))
    · exact .inr (.inr (hf v h))
  cases q with
  | idle => exact h
  | remote v ns todo => exact ⟨h.1, h.2.1, h.2.2.1.imp_right hr, hlisted h.2.2.2⟩
  | peers v ns => exact ⟨h.1, h.2.1, hr h.2.2.1, hlisted h.2.2.2⟩
  | sending v ns pending => exact ⟨h.1, h.2.1, hr h.2.2.1, fun w => (h.2.2.2 w).imp_right (Or.imp_right (hf w))⟩
  | succeeded v ns => exact ⟨hr h.1, fun w => hf w (h.2 w)⟩
  | failed v ns pending => trivial

omit [BEq ρ] [LawfulBEq ρ] in
theorem goal_endRequest {st : State ν ρ} {u w : ν} {names : List String} {t : String} {r : ρ} {q : Request ν}
    (h : Goal st u names t r q) : Goal st u names t r (endRequest w q) := by
  cases q <;> simp only [endRequest] <;> try exact h
  all_goals
    split
    · trivial
    · exact h

omit [BEq ρ] [LawfulBEq ρ] in
omit [DecidableEq ν] in
theorem setRequest_same (st : State ν ρ) (i : Nat) (q : Request ν) : (st.setRequest i q).request i = q := by simp [State.setRequest]

omit [BEq ρ] [LawfulBEq ρ] in
omit [DecidableEq ν] in
theorem setRequest_other (st : State ν ρ) {i j : Nat} (q : Request ν) (h : j ≠ i) : (st.setRequest i q).request j = st.request j := by
  simp [State.setRequest, h]

omit [BEq ρ] [LawfulBEq ρ] in
theorem goal_step {st st' : State ν ρ} {s : Step ν ρ} {i : Nat} {u : ν} {names : List String} {t : String} {r : ρ} (ht : t ∈ names)
    (h : st.step s = some st') (hi : ¬ Ingests t r s) (hm : ¬ Moves t s) (hl : ¬ Leaves s)
    (hg : Goal st u names t r (st.request i)) : Goal st' u names t r (st'.request i) := by
  have hf := fun v => free_step h hi v
  have hr : r ∉ st.remote t → r ∉ st'.remote t := remote_step h (fun h' => absurd h' hm)
  have hls := fun p => listed_step (p := p) h hl
  have hg' : Goal st' u names t r (st.request i) := goal_mono hf hr hls hg
  cases s with
  | kill u => exact absurd trivial hl
  | stop u => exact absurd trivial hl
  | crash w =>
    simp only [State.step] at h
    cases h
    exact goal_endRequest hg'
  | truncate w ns =>
    simp only [State.step] at h
    split at h
    · cases h; rw [(execute_same st w ns).2.2.1]; exact hg'
    · cases h
  | begin_ j w ns =>
    simp only [State.step] at h
    split at h
    · next hc =>
      cases h
      by_cases hj : i = j
      · subst hj; rw [hc.2] at hg; exact hg.elim
      · rw [setRequest_other _ _ hj]; exact hg'
    · cases h
  | remote j =>
    simp only [State.step] at h
    split at h
    · next v ns hq =>
      cases h
      by_cases hj : i = j
      · subst hj
        rw [hq] at hg'
        rw [setRequest_same]
        exact ⟨hg'.1, hg'.2.1, hg'.2.2.1.resolve_left (by simp), hg'.2.2.2⟩
      · rw [setRequest_other _ _ hj]; exact hg'
    · next v ns t' rest hq =>
      split at h
      · cases h
        by_cases hj : i = j
        · subst hj
          rw [hq] at hg'
          rw [setRequest_same]
          refine ⟨hg'.1, hg'.2.1, ?_, hg'.2.2.2⟩
          by_cases htt : t = t'
          · subst htt; right; simp [State.setRequest, setRows]
          · exact hg'.2.2.1.imp_left fun h => (List.mem_cons.mp h).resolve_left htt
        · rw [setRequest_other _ _ hj]; exact hg'
      · cases h
        by_cases hj : i = j
        · subst hj; rw [setRequest_same]; trivial
        · rw [setRequest_other _ _ hj]; exact hg'
    · cases h
  | peers j =>
    simp only [State.step] at h
    split at h
    · next v ns hq =>
      cases h
      by_cases hj : i = j
      · subst hj
        rw [hq] at hg'
        rw [setRequest_same]
        refine ⟨hg'.1, hg'.2.1, hg'.2.2.1, fun w => ?_⟩
        by_cases hw : w = u
        · exact .inr (.inl hw)
        · rcases hg'.2.2.2 w with h | h | h
          · exact absurd h hw
          · exact .inl (List.mem_filter.mpr ⟨h, by simpa [hg'.1] using hw⟩)
          · exact .inr (.inr h)
      · rw [setRequest_other _ _ hj]; exact hg'
    · cases h
  | deliver j w d =>
    simp only [State.step] at h
    split at h
    · next v ns pending hq =>
      split at h
      · split at h
        · cases h
          by_cases hj : i = j
          · subst hj; rw [setRequest_same]; trivial
          · rw [setRequest_other _ _ hj]; exact hg'
        · cases h
          by_cases hj : i = j
          · subst hj; rw [setRequest_same]; trivial
          · rw [setRequest_other _ _ hj, (execute_same st w ns).2.2.1]; exact hg'
        · cases h
          by_cases hj : i = j
          · subst hj
            rw [hq] at hg'
            rw [setRequest_same]
            by_cases hok : (st.execute w ns).2 = true
            · rw [if_pos hok]
              refine ⟨hg'.1, hg'.2.1, hg'.2.2.1, fun x => ?_⟩
              by_cases hx : x = w
              · subst hx
                exact .inr (.inr (free_executed r x (hg'.2.1 ▸ ht) hok))
              · exact (hg'.2.2.2 x).imp_left fun h => (List.mem_erase_of_ne hx).mpr h
            · rw [if_neg hok]; trivial
          · rw [setRequest_other _ _ hj, (execute_same st w ns).2.2.1]; exact hg'
      · cases h
    · next v ns pending hq =>
      split at h
      · split at h
        · cases h
          by_cases hj : i = j
          · subst hj; rw [setRequest_same]; trivial
          · rw [setRequest_other _ _ hj]; exact hg'
        · cases h
          by_cases hj : i = j
          · subst hj; rw [setRequest_same]; trivial
          · rw [setRequest_other _ _ hj, (execute_same st w ns).2.2.1]; exact hg'
      · cases h
    · cases h
  | finish j =>
    simp only [State.step] at h
    split at h
    · next v ns hq =>
      cases h
      by_cases hj : i = j
      · subst hj
        rw [hq] at hg'
        rw [setRequest_same]
        by_cases hok : (st.execute v ns).2 = true
        · rw [if_pos hok]
          refine ⟨hg'.2.2.1, fun x => ?_⟩
          by_cases hx : x = v
          · subst hx
            exact free_executed r x (hg'.2.1 ▸ ht) hok
          · rcases hg'.2.2.2 x with h | h | h
            · cases h
            · exact absurd (h.trans hg'.1.symm) hx
            · exact h
        · rw [if_neg hok]; trivial
      · rw [setRequest_other _ _ hj, (execute_same st v ns).2.2.1]; exact hg'
    · cases h
  | _ =>
    simp only [State.step] at h
    split at h
    · cases h; exact hg'
    · cases h

omit [BEq ρ] [LawfulBEq ρ] in
theorem goal_run {i : Nat} {u : ν} {names : List String} {t : String} {r : ρ} (ht : t ∈ names) :
    ∀ (steps : List (Step ν ρ)) {st st' : State ν ρ}, st.run steps = some st' →
      (∀ s ∈ steps, ¬ Ingests t r s ∧ ¬ Moves t s ∧ ¬ Leaves s) → Goal st u names t r (st.request i) → Goal st' u names t r (st'.request i)
  | [], st, st', h, _, hg => by simp only [State.run] at h; cases h; exact hg
  | s :: rest, st, st', h, hs, hg => by
    simp only [State.run, Option.bind_eq_some_iff] at h
    obtain ⟨st1, h1, h2⟩ := h
    obtain ⟨ha, hb, hc⟩ := hs s List.mem_cons_self
    exact goal_run ht rest h2 (fun x hx => hs x (List.mem_cons_of_mem _ hx)) (goal_step ht h1 ha hb hc hg)

omit [BEq ρ] [LawfulBEq ρ] in
theorem nowhere_run {t : String} {r : ρ} : ∀ (steps : List (Step ν ρ)) {st st' : State ν ρ}, st.run steps = some st' →
    (∀ s ∈ steps, ¬ Ingests t r s) → Nowhere st t r → Nowhere st' t r
  | [], st, st', h, _, hg => by simp only [State.run] at h; cases h; exact hg
  | s :: rest, st, st', h, hs, hg => by
    simp only [State.run, Option.bind_eq_some_iff] at h
    obtain ⟨st1, h1, h2⟩ := h
    have ha := hs s List.mem_cons_self
    exact nowhere_run rest h2 (fun x hx => hs x (List.mem_cons_of_mem _ hx))
      ⟨remote_step h1 (fun _ => hg.2) hg.1, fun v => free_step h1 ha v (hg.2 v)⟩

/-! ### Rows that are not deleted -/

omit [BEq ρ] [LawfulBEq ρ] in
theorem quiet_step {st st' : State ν ρ} {s : Step ν ρ} {t : String} (h : st.step s = some st') (ht : ¬ Truncates t s) (hq : Quiet st t) :
    Quiet st' t := by
  have set : ∀ (st1 : State ν ρ) (j : Nat) (q : Request ν), st1.request = st.request → ¬ Pending t q → Quiet (st1.setRequest j q) t := by
    intro st1 j q he hp i
    by_cases hj : i = j
    · subst hj; rw [setRequest_same]; exact hp
    · rw [setRequest_other _ _ hj, he]; exact hq i
  have ending : ∀ (w : ν) (i : Nat), ¬ Pending t (endRequest w (st.request i)) := by
    intro w i
    have := hq i
    cases hr : st.request i <;> rw [hr] at this <;> simp only [endRequest] <;> try exact this
    all_goals
      split
      · first | exact fun hp => hp.2 rfl | exact fun hp => this hp.1
      · exact this
  cases s with
  | kill u =>
    simp only [State.step] at h
    split at h
    · cases h; exact ending u
    · cases h
  | stop u =>
    simp only [State.step] at h
    split at h
    · cases h; exact ending u
    · cases h
  | crash w => simp only [State.step] at h; cases h; exact ending w
  | truncate w ns =>
    simp only [State.step] at h
    split at h
    · cases h; intro i; rw [(execute_same st w ns).2.2.1]; exact hq i
    · cases h
  | begin_ j w ns =>
    simp only [State.step] at h
    split at h
    · cases h; exact set _ _ _ rfl fun hp => ht (hp.elim id id)
    · cases h
  | remote j =>
    simp only [State.step] at h
    split at h
    · next v ns hr =>
      cases h
      have := hq j; rw [hr] at this
      exact set _ _ _ rfl fun hp => this (.inl hp)
    · next v ns t' rest hr =>
      have := hq j; rw [hr] at this
      split at h
      · cases h; exact set _ _ _ rfl fun hp => this (hp.imp_right (List.mem_cons_of_mem _))
      · cases h; exact set _ _ _ rfl fun hp => hp.2 rfl
    · cases h
  | peers j =>
    simp only [State.step] at h
    split at h
    · next v ns hr =>
      cases h
      have := hq j; rw [hr] at this
      exact set _ _ _ rfl this
    · cases h
  | deliver j w d =>
    simp only [State.step] at h
    split at h
    · next v ns pending hr =>
      have := hq j; rw [hr] at this
      have hno : t ∉ ns := this
      split at h
      · split at h
        · cases h; exact set _ _ _ rfl fun hp => hno hp.1
        · cases h; exact set _ _ _ (execute_same st w ns).2.2.1 fun hp => hno hp.1
        · cases h
          refine set _ _ _ (execute_same st w ns).2.2.1 ?_
          split
          · exact hno
          · exact fun hp => hno hp.1
      · cases h
    · next v ns pending hr =>
      have := hq j; rw [hr] at this
      split at h
      · next hw =>
        have hno : t ∉ ns := fun hn => this ⟨hn, List.ne_nil_of_mem hw⟩
        split at h
        · cases h; exact set _ _ _ rfl fun hp => hno hp.1
        · cases h; exact set _ _ _ (execute_same st w ns).2.2.1 fun hp => hno hp.1
      · cases h
    · cases h
  | finish j =>
    simp only [State.step] at h
    split at h
    · next v ns hr =>
      cases h
      have := hq j; rw [hr] at this
      refine set _ _ _ (execute_same st v ns).2.2.1 ?_
      split
      · exact id
      · exact fun hp => this hp.1
    · cases h
  | _ =>
    simp only [State.step] at h
    split at h
    · cases h; exact hq
    · cases h

omit [BEq ρ] [LawfulBEq ρ] in
theorem quiet_run {t : String} : ∀ (steps : List (Step ν ρ)) {st st' : State ν ρ}, st.run steps = some st' → (∀ s ∈ steps, ¬ Truncates t s) →
    Quiet st t → Quiet st' t
  | [], st, st', h, _, hq => by simp only [State.run] at h; cases h; exact hq
  | s :: rest, st, st', h, hs, hq => by
    simp only [State.run, Option.bind_eq_some_iff] at h
    obtain ⟨st1, h1, h2⟩ := h
    exact quiet_run rest h2 (fun x hx => hs x (List.mem_cons_of_mem _ hx)) (quiet_step h1 (hs s List.mem_cons_self) hq)

/-- How often a row is in the node and the remote data folder. -/
def total (st : State ν ρ) (u : ν) (t : String) (r : ρ) : Nat :=
  ((st.node u).memory t).count r + ((st.node u).disk t).count r + (st.remote t).count r

omit [LawfulBEq ρ] in
theorem total_setNode {st : State ν ρ} {w : ν} {n : Node ρ} {t : String} {r : ρ} (u : ν)
    (h : (n.memory t).count r + (n.disk t).count r = ((st.node w).memory t).count r + ((st.node w).disk t).count r) :
    total (st.setNode w n) u t r = total st u t r := by
  unfold total
  by_cases hu : u = w
  · subst hu
    rw [setNode_same]
    have : (st.setNode u n).remote = st.remote := rfl
    rw [this]; omega
  · rw [setNode_other _ _ hu]; rfl

omit [LawfulBEq ρ] in
theorem total_endProcess (st : State ν ρ) (w u : ν) (t : String) (r : ρ) : total (st.endProcess w) u t r = total st u t r :=
  total_setNode (st := st) u rfl

omit [LawfulBEq ρ] in
theorem total_execute {st : State ν ρ} {w : ν} {names : List String} {t : String} {r : ρ} (u : ν) (h : t ∉ names) :
    total (st.execute w names).1 u t r = total st u t r := by
  unfold State.execute
  split
  · exact total_setNode u (count_truncateAll _ _ _ _ h)
  · rfl

theorem total_transferAll {st : State ν ρ} {w u : ν} {t : String} {r : ρ} (hf : w ≠ u → Free (st.node w) t r) :
    total (st.transferAll w) u t r = total st u t r := by
  unfold total
  simp only [State.transferAll, List.count_append]
  by_cases hu : u = w
  · subst hu; rw [setNode_same]; simp only [List.count_nil]; omega
  · rw [setNode_other _ _ hu, List.count_eq_zero_of_not_mem (hf (Ne.symm hu)).2]; omega

omit [LawfulBEq ρ] in
theorem once_of_total {st st' : State ν ρ} {s : Step ν ρ} {u : ν} {t : String} {r : ρ} (h : st.step s = some st') (hi : ¬ Ingests t r s)
    (ho : Once st u t r) (ht : total st' u t r = total st u t r) : Once st' u t r :=
  ⟨ht.trans ho.1, fun v hv => free_step h hi v (ho.2 v hv)⟩

theorem once_step {st st' : State ν ρ} {s : Step ν ρ} {u : ν} {t : String} {r : ρ} (h : st.step s = some st') (hi : ¬ Ingests t r s)
    (htr : ¬ Truncates t s) (hq : Quiet st t) (ho : Once st u t r) : Once st' u t r := by
  refine once_of_total h hi ho ?_
  cases s with
  | start w mode =>
    simp only [State.step] at h
    split at h
    · cases h; exact total_setNode u rfl
    · cases h
  | serve w =>
    simp only [State.step] at h
    split at h
    · cases h; exact total_setNode u rfl
    · cases h
  | kill w =>
    simp only [State.step] at h
    split at h
    · cases h
      refine (total_endProcess _ _ _ _ _).trans ?_
      refine (total_transferAll (st := st.setNode w (st.node w).flush) fun hw => ?_).trans ?_
      · rw [setNode_same]; exact free_flush (ho.2 w hw)
      · exact total_setNode u (count_flush _ _ _)
    · cases h
  | stop w =>
    simp only [State.step] at h
    split at h
    · cases h
      refine (total_endProcess _ _ _ _ _).trans ?_
      exact total_setNode (st := st) u (count_flush _ _ _)
    · cases h
  | crash w => simp only [State.step] at h; cases h; exact total_setNode u rfl
  | ingest w t' r' =>
    simp only [State.step] at h
    split at h
    · cases h
      refine total_setNode u ?_
      by_cases ht : t = t'
      · subst ht
        have hne : r' ≠ r := fun hr => hi ⟨rfl, hr⟩
        simp only [setRows_same, List.count_append, List.count_singleton, beq_eq_false_iff_ne.mpr hne]; simp
      · simp only [setRows_other _ _ ht]
    · cases h
  | save w t' =>
    simp only [State.step] at h
    split at h
    · cases h
      refine total_setNode u ?_
      by_cases ht : t = t'
      · subst ht; simp only [setRows_same, List.count_append, List.count_nil]; omega
      · simp only [setRows_other _ _ ht]
    · cases h
  | transfer w t' =>
    simp only [State.step] at h
    split at h
    · cases h
      unfold total
      simp only
      by_cases ht : t = t'
      · subst ht
        simp only [setRows_same, List.count_append]
        by_cases hu : u = w
        · subst hu; rw [setNode_same]; simp only [setRows_same, List.count_nil]; omega
        · rw [setNode_other _ _ hu, List.count_eq_zero_of_not_mem (ho.2 w (Ne.symm hu)).2]; omega
      · simp only [setRows_other _ _ ht]
        exact total_setNode (st := st) u (by simp only [setRows_other _ _ ht])
    · cases h
  | flushNode w =>
    simp only [State.step] at h
    split at h
    · cases h
      refine (total_transferAll (st := st.setNode w (st.node w).flush) fun hw => ?_).trans ?_
      · rw [setNode_same]; exact free_flush (ho.2 w hw)
      · exact total_setNode u (count_flush _ _ _)
    · cases h
  | truncate w ns =>
    simp only [State.step] at h
    split at h
    · cases h; exact total_execute u htr
    · cases h
  | begin_ j w ns =>
    simp only [State.step] at h
    split at h
    · cases h; rfl
    · cases h
  | remote j =>
    simp only [State.step] at h
    split at h
    · cases h; rfl
    · next v ns t' rest hr =>
      have := hq j; rw [hr] at this
      split at h
      · cases h
        have ht : t ≠ t' := fun ht => this (.inr (ht ▸ List.mem_cons_self))
        unfold total
        simp only [State.setRequest, setRows_other _ _ ht]
      · cases h; rfl
    · cases h
  | peers j =>
    simp only [State.step] at h
    split at h
    · cases h; rfl
    · cases h
  | deliver j w d =>
    simp only [State.step] at h
    split at h
    · next v ns pending hr =>
      have := hq j; rw [hr] at this
      have hno : t ∉ ns := this
      split at h
      · split at h
        · cases h; rfl
        · cases h; exact total_execute u hno
        · cases h; exact total_execute u hno
      · cases h
    · next v ns pending hr =>
      have := hq j; rw [hr] at this
      split at h
      · next hw =>
        have hno : t ∉ ns := fun hn => this ⟨hn, List.ne_nil_of_mem hw⟩
        split at h
        · cases h; rfl
        · cases h; exact total_execute u hno
      · cases h
    · cases h
  | finish j =>
    simp only [State.step] at h
    split at h
    · next v ns hr =>
      cases h
      have := hq j; rw [hr] at this
      exact total_execute u this
    · cases h

theorem once_run {u : ν} {t : String} {r : ρ} : ∀ (steps : List (Step ν ρ)) {st st' : State ν ρ}, st.run steps = some st' →
    (∀ s ∈ steps, ¬ Ingests t r s ∧ ¬ Truncates t s) → Quiet st t → Once st u t r → Once st' u t r ∧ Quiet st' t
  | [], st, st', h, _, hq, ho => by simp only [State.run] at h; cases h; exact ⟨ho, hq⟩
  | s :: rest, st, st', h, hs, hq, ho => by
    simp only [State.run, Option.bind_eq_some_iff] at h
    obtain ⟨st1, h1, h2⟩ := h
    obtain ⟨ha, hb⟩ := hs s List.mem_cons_self
    exact once_run rest h2 (fun x hx => hs x (List.mem_cons_of_mem _ hx)) (quiet_step h1 hb hq) (once_step h1 ha hb hq ho)

theorem once_ingest {st st' : State ν ρ} {u : ν} {t : String} {r : ρ} (h : st.step (.ingest u t r) = some st') (hn : Nowhere st t r) :
    Once st' u t r := by
  simp only [State.step] at h
  split at h
  · cases h
    refine ⟨?_, fun v hv => by rw [setNode_other _ _ hv]; exact hn.2 v⟩
    rw [setNode_same]
    have hr : ∀ n, (st.setNode u n).remote = st.remote := fun _ => rfl
    simp only [hr, setRows_same, List.count_append, List.count_singleton_self,
      List.count_eq_zero_of_not_mem hn.1, List.count_eq_zero_of_not_mem (hn.2 u).1, List.count_eq_zero_of_not_mem (hn.2 u).2]
  · cases h

omit [BEq ρ] [LawfulBEq ρ] in
theorem free_run {t : String} {r : ρ} (v : ν) : ∀ (steps : List (Step ν ρ)) {st st' : State ν ρ}, st.run steps = some st' →
    (∀ s ∈ steps, ¬ Ingests t r s) → Free (st.node v) t r → Free (st'.node v) t r
  | [], st, st', h, _, hg => by simp only [State.run] at h; cases h; exact hg
  | s :: rest, st, st', h, hs, hg => by
    simp only [State.run, Option.bind_eq_some_iff] at h
    obtain ⟨st1, h1, h2⟩ := h
    exact free_run v rest h2 (fun x hx => hs x (List.mem_cons_of_mem _ hx)) (free_step h1 (hs s List.mem_cons_self) v hg)

omit [BEq ρ] [LawfulBEq ρ] in
theorem free_flushNode {st st' : State ν ρ} {u : ν} (t : String) (r : ρ) (h : st.step (.flushNode u) = some st') : Free (st'.node u) t r := by
  simp only [State.step] at h
  split at h
  · cases h
    simp only [State.transferAll, setNode_same]
    exact ⟨by simp [Node.flush], by simp⟩
  · cases h

omit [BEq ρ] [LawfulBEq ρ] in
theorem run_append (a b : List (Step ν ρ)) (st : State ν ρ) : st.run (a ++ b) = (st.run a).bind fun st' => st'.run b := by
  induction a generalizing st with
  | nil => rfl
  | cons s rest ih => simp only [List.cons_append, State.run, Option.bind_assoc, ih]

/-! ### The list of nodes -/

omit [BEq ρ] [LawfulBEq ρ] in
theorem execute_phase (st : State ν ρ) (u v : ν) (names : List String) :
    ((st.execute u names).1.node v).phase = (st.node v).phase ∧ ((st.execute u names).1.node v).mode = (st.node v).mode := by
  unfold State.execute
  split
  · by_cases hv : v = u
    · subst hv; rw [setNode_same]; exact truncateAll_phase _ _ _
    · rw [setNode_other _ _ hv]; exact ⟨rfl, rfl⟩
  · exact ⟨rfl, rfl⟩

omit [BEq ρ] [LawfulBEq ρ] in
theorem setNode_phase (st : State ν ρ) (u v : ν) {n : Node ρ} (hp : n.phase = (st.node u).phase) (hm : n.mode = (st.node u).mode) :
    ((st.setNode u n).node v).phase = (st.node v).phase ∧ ((st.setNode u n).node v).mode = (st.node v).mode := by
  by_cases hv : v = u
  · subst hv; rw [setNode_same]; exact ⟨hp, hm⟩
  · rw [setNode_other _ _ hv]; exact ⟨rfl, rfl⟩

/-- A step that starts or ends no process. -/
def Other : Step ν ρ → Prop
  | .start _ _ => False
  | .serve _ => False
  | .kill _ => False
  | .stop _ => False
  | .crash _ => False
  | _ => True

omit [BEq ρ] [LawfulBEq ρ] in
theorem other_step {st st' : State ν ρ} {s : Step ν ρ} (h : st.step s = some st') (ho : Other s) :
    st'.listed = st.listed ∧ ∀ v, (st'.node v).phase = (st.node v).phase ∧ (st'.node v).mode = (st.node v).mode := by
  cases s with
  | start u mode => exact ho.elim
  | serve u => exact ho.elim
  | kill u => exact ho.elim
  | stop u => exact ho.elim
  | crash u => exact ho.elim
  | ingest u t r =>
    simp only [State.step] at h
    split at h
    · cases h; exact ⟨rfl, fun v => setNode_phase st u v rfl rfl⟩
    · cases h
  | save u t =>
    simp only [State.step] at h
    split at h
    · cases h; exact ⟨rfl, fun v => setNode_phase st u v rfl rfl⟩
    · cases h
  | transfer u t =>
    simp only [State.step] at h
    split at h
    · cases h; exact ⟨rfl, fun v => setNode_phase st u v rfl rfl⟩
    · cases h
  | flushNode u =>
    simp only [State.step] at h
    split at h
    · cases h
      refine ⟨rfl, fun v => ?_⟩
      have h1 := setNode_phase st u v (n := (st.node u).flush) rfl rfl
      have h2 := setNode_phase (st.setNode u (st.node u).flush) u v
        (n := { (st.setNode u (st.node u).flush).node u with disk := fun _ => [] }) rfl rfl
      exact ⟨h2.1.trans h1.1, h2.2.trans h1.2⟩
    · cases h
  | truncate u names =>
    simp only [State.step] at h
    split at h
    · cases h; exact ⟨(execute_same st u names).2.1, fun v => execute_phase st u v names⟩
    · cases h
  | begin_ i u names =>
    simp only [State.step] at h
    split at h
    · cases h; exact ⟨rfl, fun v => ⟨rfl, rfl⟩⟩
    · cases h
  | remote i =>
    simp only [State.step] at h
    split at h
    · cases h; exact ⟨rfl, fun v => ⟨rfl, rfl⟩⟩
    · split at h <;> (cases h; exact ⟨rfl, fun v => ⟨rfl, rfl⟩⟩)
    · cases h
  | peers i =>
    simp only [State.step] at h
    split at h
    · cases h; exact ⟨rfl, fun v => ⟨rfl, rfl⟩⟩
    · cases h
  | deliver i u d =>
    simp only [State.step] at h
    split at h
    · split at h
      · split at h
        · cases h; exact ⟨rfl, fun v => ⟨rfl, rfl⟩⟩
        · cases h; exact ⟨(execute_same st u _).2.1, fun v => execute_phase st u v _⟩
        · cases h; exact ⟨(execute_same st u _).2.1, fun v => execute_phase st u v _⟩
      · cases h
    · split at h
      · split at h
        · cases h; exact ⟨rfl, fun v => ⟨rfl, rfl⟩⟩
        · cases h; exact ⟨(execute_same st u _).2.1, fun v => execute_phase st u v _⟩
      · cases h
    · cases h
  | finish i =>
    simp only [State.step] at h
    split at h
    · cases h; exact ⟨(execute_same st _ _).2.1, fun v => execute_phase st _ v _⟩
    · cases h

/-- A node that has started is in the list of nodes. -/
def Present (st : State ν ρ) : Prop := ∀ v, (st.node v).phase ≠ .outside → (v, (st.node v).mode) ∈ st.listed

/-- Cloud nodes in the list of nodes, all of which are in `C`, have started as cloud nodes. -/
def Current (C : ν → Prop) (st : State ν ρ) : Prop :=
  ∀ v, (v, Mode.cloud) ∈ st.listed → C v ∧ (st.node v).phase ≠ .outside ∧ (st.node v).mode = .cloud

omit [BEq ρ] [LawfulBEq ρ] in
theorem mem_unlist {st : State ν ρ} {u v : ν} {m : Mode} : (v, m) ∈ (st.unlist u).listed ↔ (v, m) ∈ st.listed ∧ v ≠ u := by
  simp [State.unlist, List.mem_filter]

omit [BEq ρ] [LawfulBEq ρ] in
/-- The nodes when a node leaves: those of a state with the same phases, modes and list, without the node. -/
theorem leave_nodes {st st1 : State ν ρ} {u : ν} (hl : st1.listed = st.listed)
    (hn : ∀ v, (st1.node v).phase = (st.node v).phase ∧ (st1.node v).mode = (st.node v).mode) (v : ν) :
    ((((st1.unlist u).endProcess u).node v).phase ≠ .outside → v ≠ u ∧ (st.node v).phase ≠ .outside) ∧
      (v ≠ u → (((st1.unlist u).endProcess u).node v).phase = (st.node v).phase) ∧
      (((st1.unlist u).endProcess u).node v).mode = (st.node v).mode ∧
      ∀ m, (v, m) ∈ ((st1.unlist u).endProcess u).listed ↔ (v, m) ∈ st.listed ∧ v ≠ u := by
  have hm : ∀ m, (v, m) ∈ ((st1.unlist u).endProcess u).listed ↔ (v, m) ∈ st.listed ∧ v ≠ u := by
    intro m
    rw [← hl]
    exact mem_unlist
  by_cases hv : v = u
  · subst hv
    have he : ((st1.unlist v).endProcess v).node v = { st1.node v with phase := .outside } := setNode_same _ _ _
    rw [he]
    exact ⟨fun h => absurd rfl h, fun h => absurd rfl h, (hn v).2, hm⟩
  · have he : ((st1.unlist u).endProcess u).node v = st1.node v := setNode_other _ _ hv
    rw [he]
    exact ⟨fun h => ⟨hv, by rw [← (hn v).1]; exact h⟩, fun _ => (hn v).1, (hn v).2, hm⟩

omit [BEq ρ] [LawfulBEq ρ] in
theorem kill_nodes (st : State ν ρ) (u v : ν) :
    ((((st.setNode u (st.node u).flush).transferAll u).node v).phase = (st.node v).phase) ∧
      (((st.setNode u (st.node u).flush).transferAll u).node v).mode = (st.node v).mode := by
  have h1 := setNode_phase st u v (n := (st.node u).flush) rfl rfl
  have h2 := setNode_phase (st.setNode u (st.node u).flush) u v
    (n := { (st.setNode u (st.node u).flush).node u with disk := fun _ => [] }) rfl rfl
  exact ⟨h2.1.trans h1.1, h2.2.trans h1.2⟩

omit [BEq ρ] [LawfulBEq ρ] in
theorem present_step {st st' : State ν ρ} {s : Step ν ρ} (h : st.step s = some st') (hp : Present st) : Present st' := by
  by_cases ho : Other s
  · obtain ⟨hl, hn⟩ := other_step h ho
    intro v hv
    rw [hl, (hn v).2]
    exact hp v (by rw [← (hn v).1]; exact hv)
  · cases s with
    | start u mode =>
      simp only [State.step] at h
      split at h
      · cases h
        intro v hv
        by_cases hu : v = u
        · subst hu
          simp only [setNode_same, List.mem_append]
          exact .inr List.mem_cons_self
        · simp only [setNode_other _ _ hu, List.mem_append] at hv ⊢
          exact .inl (hp v hv)
      · cases h
    | serve u =>
      simp only [State.step] at h
      split at h
      · next hs =>
        cases h
        intro v hv
        by_cases hu : v = u
        · subst hu
          simp only [setNode_same]
          exact hp v (by rw [hs]; decide)
        · simp only [setNode_other _ _ hu] at hv ⊢
          exact hp v hv
      · cases h
    | kill u =>
      simp only [State.step] at h
      split at h
      · cases h
        intro v hv
        have hn := leave_nodes (st := st) (st1 := (st.setNode u (st.node u).flush).transferAll u) (u := u) rfl (kill_nodes st u) v
        obtain ⟨hvu, hph⟩ := hn.1 hv
        rw [hn.2.2.1]
        exact (hn.2.2.2 _).mpr ⟨hp v hph, hvu⟩
      · cases h
    | stop u =>
      simp only [State.step] at h
      split at h
      · cases h
        intro v hv
        have hn := leave_nodes (st := st) (st1 := st.setNode u (st.node u).flush) (u := u) rfl (fun v => setNode_phase st u v rfl rfl) v
        obtain ⟨hvu, hph⟩ := hn.1 hv
        rw [hn.2.2.1]
        exact (hn.2.2.2 _).mpr ⟨hp v hph, hvu⟩
      · cases h
    | crash u =>
      simp only [State.step] at h
      cases h
      intro v hv
      by_cases hu : v = u
      · subst hu
        simp only [State.endProcess, setNode_same] at hv
        exact absurd rfl hv
      · simp only [State.endProcess, setNode_other _ _ hu] at hv ⊢
        exact hp v hv
    | _ => exact absurd trivial ho

omit [BEq ρ] [LawfulBEq ρ] in
theorem current_step {C : ν → Prop} {st st' : State ν ρ} {s : Step ν ρ} (h : st.step s = some st') (hs : ∀ u, s = .start u .cloud → C u)
    (hc : ∀ u, s = .crash u → ¬ C u) (hp : Current C st) : Current C st' := by
  by_cases ho : Other s
  · obtain ⟨hl, hn⟩ := other_step h ho
    intro v hv
    rw [hl] at hv
    rw [(hn v).1, (hn v).2]
    exact hp v hv
  · cases s with
    | start u mode =>
      simp only [State.step] at h
      split at h
      · next hout =>
        cases h
        intro v hv
        by_cases hu : v = u
        · subst hu
          simp only [setNode_same, List.mem_append, List.mem_singleton, Prod.mk.injEq] at hv ⊢
          rcases hv with hv | hv
          · exact absurd hout (hp v hv).2.1
          · exact ⟨hs v (by rw [hv.2]), by decide, hv.2.symm⟩
        · simp only [setNode_other _ _ hu, List.mem_append, List.mem_singleton, Prod.mk.injEq] at hv ⊢
          rcases hv with hv | hv
          · exact hp v hv
          · exact absurd hv.1 hu
      · cases h
    | serve u =>
      simp only [State.step] at h
      split at h
      · cases h
        intro v hv
        have := hp v hv
        by_cases hu : v = u
        · subst hu
          simp only [setNode_same]
          exact ⟨this.1, by decide, this.2.2⟩
        · simp only [setNode_other _ _ hu]
          exact this
      · cases h
    | kill u =>
      simp only [State.step] at h
      split at h
      · cases h
        intro v hv
        have hn := leave_nodes (st := st) (st1 := (st.setNode u (st.node u).flush).transferAll u) (u := u) rfl (kill_nodes st u) v
        obtain ⟨hm, hvu⟩ := (hn.2.2.2 _).mp hv
        rw [hn.2.2.1, hn.2.1 hvu]
        exact hp v hm
      · cases h
    | stop u =>
      simp only [State.step] at h
      split at h
      · cases h
        intro v hv
        have hn := leave_nodes (st := st) (st1 := st.setNode u (st.node u).flush) (u := u) rfl (fun v => setNode_phase st u v rfl rfl) v
        obtain ⟨hm, hvu⟩ := (hn.2.2.2 _).mp hv
        rw [hn.2.2.1, hn.2.1 hvu]
        exact hp v hm
      · cases h
    | crash u =>
      simp only [State.step] at h
      cases h
      intro v hv
      have hv' := hp v hv
      by_cases hu : v = u
      · exact absurd hv'.1 (hu ▸ hc u rfl)
      · simp only [State.endProcess, setNode_other _ _ hu]
        exact hv'
    | _ => exact absurd trivial ho

omit [BEq ρ] [LawfulBEq ρ] in
theorem known_step {st st' : State ν ρ} {s : Step ν ρ} (h : st.step s = some st') : st'.known = st.known := by
  cases s with
  | remote i =>
    simp only [State.step] at h
    split at h
    · cases h; rfl
    · split at h <;> (cases h; rfl)
    · cases h
  | truncate u names =>
    simp only [State.step] at h
    split at h
    · cases h; exact (execute_same st u names).2.2.2
    · cases h
  | crash u => simp only [State.step] at h; cases h; rfl
  | peers i =>
    simp only [State.step] at h
    split at h
    · cases h; rfl
    · cases h
  | deliver i u d =>
    simp only [State.step] at h
    split at h
    · split at h
      · split at h
        · cases h; rfl
        · cases h; exact (execute_same st u _).2.2.2
        · cases h; exact (execute_same st u _).2.2.2
      · cases h
    · split at h
      · split at h
        · cases h; rfl
        · cases h; exact (execute_same st u _).2.2.2
      · cases h
    · cases h
  | finish i =>
    simp only [State.step] at h
    split at h
    · cases h; exact (execute_same st _ _).2.2.2
    · cases h
  | _ =>
    simp only [State.step] at h
    split at h
    · cases h; rfl
    · cases h

omit [BEq ρ] [LawfulBEq ρ] in
/-- A node that receives requests does so in the same mode until its process ends. -/
theorem serving_step {st st' : State ν ρ} {s : Step ν ρ} {u : ν} (h : st.step s = some st') (he : ¬ Ends u s) (hp : (st.node u).phase = .serving) :
    (st'.node u).phase = .serving ∧ (st'.node u).mode = (st.node u).mode := by
  by_cases ho : Other s
  · obtain ⟨_, hn⟩ := other_step h ho
    exact ⟨(hn u).1.trans hp, (hn u).2⟩
  · cases s with
    | start v mode =>
      simp only [State.step] at h
      split at h
      · next hout =>
        cases h
        have hu : u ≠ v := fun hu => by rw [hu, hout] at hp; cases hp
        simp only [setNode_other _ _ hu]
        exact ⟨hp, trivial⟩
      · cases h
    | serve v =>
      simp only [State.step] at h
      split at h
      · next hout =>
        cases h
        have hu : u ≠ v := fun hu => by rw [hu, hout] at hp; cases hp
        simp only [setNode_other _ _ hu]
        exact ⟨hp, trivial⟩
      · cases h
    | kill v =>
      simp only [State.step] at h
      split at h
      · cases h
        have hu : u ≠ v := fun hu => he hu.symm
        have hn := leave_nodes (st := st) (st1 := (st.setNode v (st.node v).flush).transferAll v) (u := v) rfl (kill_nodes st v) u
        exact ⟨(hn.2.1 hu).trans hp, hn.2.2.1⟩
      · cases h
    | stop v =>
      simp only [State.step] at h
      split at h
      · cases h
        have hu : u ≠ v := fun hu => he hu.symm
        have hn := leave_nodes (st := st) (st1 := st.setNode v (st.node v).flush) (u := v) rfl (fun w => setNode_phase st v w rfl rfl) u
        exact ⟨(hn.2.1 hu).trans hp, hn.2.2.1⟩
      · cases h
    | crash v =>
      simp only [State.step] at h
      cases h
      have hu : u ≠ v := fun hu => he hu.symm
      simp only [State.endProcess, setNode_other _ _ hu]
      exact ⟨hp, trivial⟩
    | _ => exact absurd trivial ho

omit [BEq ρ] [LawfulBEq ρ] in
theorem serving_run {u : ν} : ∀ (steps : List (Step ν ρ)) {st st' : State ν ρ}, st.run steps = some st' → (∀ s ∈ steps, ¬ Ends u s) →
    (st.node u).phase = .serving → (st'.node u).phase = .serving ∧ (st'.node u).mode = (st.node u).mode
  | [], st, st', h, _, hp => by simp only [State.run] at h; cases h; exact ⟨hp, rfl⟩
  | s :: rest, st, st', h, hs, hp => by
    simp only [State.run, Option.bind_eq_some_iff] at h
    obtain ⟨st1, h1, h2⟩ := h
    obtain ⟨h3, h4⟩ := serving_step h1 (hs s List.mem_cons_self) hp
    obtain ⟨h5, h6⟩ := serving_run rest h2 (fun x hx => hs x (List.mem_cons_of_mem _ hx)) h3
    exact ⟨h5, h6.trans h4⟩

omit [BEq ρ] [LawfulBEq ρ] in
theorem known_run : ∀ (steps : List (Step ν ρ)) {st st' : State ν ρ}, st.run steps = some st' → st'.known = st.known
  | [], st, st', h => by simp only [State.run] at h; cases h; rfl
  | s :: rest, st, st', h => by
    simp only [State.run, Option.bind_eq_some_iff] at h
    obtain ⟨st1, h1, h2⟩ := h
    exact (known_run rest h2).trans (known_step h1)

omit [BEq ρ] [LawfulBEq ρ] in
theorem present_run : ∀ (steps : List (Step ν ρ)) {st st' : State ν ρ}, st.run steps = some st' → Present st → Present st'
  | [], st, st', h, hp => by simp only [State.run] at h; cases h; exact hp
  | s :: rest, st, st', h, hp => by
    simp only [State.run, Option.bind_eq_some_iff] at h
    obtain ⟨st1, h1, h2⟩ := h
    exact present_run rest h2 (present_step h1 hp)

omit [BEq ρ] [LawfulBEq ρ] in
theorem current_run {C : ν → Prop} : ∀ (steps : List (Step ν ρ)) {st st' : State ν ρ}, st.run steps = some st' →
    (∀ u, .start u .cloud ∈ steps → C u) → (∀ u, .crash u ∈ steps → ¬ C u) → Current C st → Current C st'
  | [], st, st', h, _, _, hp => by simp only [State.run] at h; cases h; exact hp
  | s :: rest, st, st', h, hs, hc, hp => by
    simp only [State.run, Option.bind_eq_some_iff] at h
    obtain ⟨st1, h1, h2⟩ := h
    exact current_run rest h2 (fun u hu => hs u (List.mem_cons_of_mem _ hu)) (fun u hu => hc u (List.mem_cons_of_mem _ hu))
      (current_step h1 (fun u hu => hs u (hu ▸ List.mem_cons_self)) (fun u hu => hc u (hu ▸ List.mem_cons_self)) hp)

omit [BEq ρ] [LawfulBEq ρ] in
omit [DecidableEq ν] in
theorem queryNode_mem {st : State ν ρ} {random : Nat} {u : ν} (h : st.queryNode random = some u) : (u, Mode.cloud) ∈ st.listed := by
  unfold State.queryNode at h
  split at h
  · cases h
  · have := List.mem_of_getElem? h
    simp only [State.cloudNodes, List.mem_map, List.mem_filter, decide_eq_true_eq] at this
    obtain ⟨⟨v, m⟩, ⟨hm, he⟩, rfl⟩ := this
    simp only at he
    subst he; exact hm

omit [BEq ρ] [LawfulBEq ρ] in
omit [DecidableEq ν] in
theorem queryNode_some {st : State ν ρ} {u : ν} (h : (u, Mode.cloud) ∈ st.listed) (random : Nat) : (st.queryNode random).isSome := by
  have hm : u ∈ st.cloudNodes := by
    simp only [State.cloudNodes, List.mem_map, List.mem_filter, decide_eq_true_eq]
    exact ⟨_, ⟨h, rfl⟩, rfl⟩
  have hne : st.cloudNodes ≠ [] := List.ne_nil_of_mem hm
  unfold State.queryNode
  rw [if_neg (by simpa using hne)]
  rw [List.getElem?_eq_getElem (Nat.mod_lt _ (List.length_pos_of_ne_nil hne))]
  rfl

end ModelarDB.Lemmas.ClusterData
