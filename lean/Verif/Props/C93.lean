import Verif.Lemmas.IncludeQuery
/-
C93: A query that includes other nodes returns each row once.
-/
namespace ModelarDB.Props
open Model.DataTransfer Model.IncludeQuery Spec.DataTransfer Spec.IncludeQuery Lemmas.IncludeQuery

variable {ν ρ : Type} [DecidableEq ν]

/-- The node `u` after some steps. -/
private theorem node_of {nodes : List ν} {batchSize : ν → Option Nat} {steps : List (Step ν ρ)} {w : World ν ρ}
    (h : (World.new batchSize).run nodes steps = some w) (u : ν) : (Table.new (batchSize u)).run (at_ u steps) = some (w.node u) :=
  node_run u h

private theorem committed_of {nodes : List ν} {batchSize : ν → Option Nat} {steps : List (Step ν ρ)} {w : World ν ρ}
    (h : (World.new batchSize).run nodes steps = some w) (u : ν) : (w.node u).committed = saved (at_ u steps) := by
  rw [run_committed (node_of h u)]; rfl

/-- What a node uses was saved by some node. -/
private theorem known {nodes : List ν} {batchSize : ν → Option Nat} {steps : List (Step ν ρ)} {w : World ν ρ}
    (h : (World.new batchSize).run nodes steps = some w) {u : ν} {f : ρ}
    (hf : f ∈ (w.node u).localFiles.map Prod.fst ∨ f ∈ (w.node u).remoteFiles) : f ∈ saved (at_ u steps) := by
  rw [← committed_of h u]
  refine C26_nothing_invented (node_of h u) f ?_
  simp only [copies, List.mem_append]
  exact .inl hf

private theorem run_split {nodes : List ν} {w w' : World ν ρ} {a b : List (Step ν ρ)} (h : w.run nodes (a ++ b) = some w') :
    ∃ w1, w.run nodes a = some w1 ∧ w1.run nodes b = some w' := by
  rw [world_run_append] at h
  exact Option.bind_eq_some_iff.mp h

private theorem run_join {nodes : List ν} {w w1 w' : World ν ρ} {a b : List (Step ν ρ)} (h1 : w.run nodes a = some w1) (h2 : w1.run nodes b = some w') :
    w.run nodes (a ++ b) = some w' := by
  rw [world_run_append, h1]; exact h2

private theorem ask_run {nodes : List ν} {w w' : World ν ρ} {r : Source ν} {addresses : List (Source ν)} {steps : List (Step ν ρ)}
    (h : w.run nodes (.ask r addresses :: steps) = some w') :
    w.todo = [] ∧ ({ w with todo := r :: addresses, result := [] } : World ν ρ).run nodes steps = some w' := by
  simp only [World.run, World.step] at h
  split at h
  · next ht => exact ⟨ht, h⟩
  · cases h

/-- A query that was sent and answered, taken apart. -/
private theorem query_split {nodes : List ν} {batchSize : ν → Option Nat} {before during : List (Step ν ρ)} {r : Source ν} {addresses : List (Source ν)}
    {w : World ν ρ} (h : (World.new batchSize).run nodes (before ++ .ask r addresses :: during) = some w) :
    ∃ w0 : World ν ρ, w0.todo = r :: addresses ∧ w0.result = [] ∧ (World.new batchSize).run nodes (before ++ [.ask r addresses]) = some w0 ∧
      w0.run nodes during = some w := by
  obtain ⟨wa, h1, h2⟩ := run_split h
  obtain ⟨ht, h3⟩ := ask_run h2
  refine ⟨_, rfl, rfl, run_join h1 ?_, h3⟩
  simp only [World.run, World.step, if_pos ht, Option.bind_some]

private theorem at_ask (u : ν) (before rest : List (Step ν ρ)) (r : Source ν) (addresses : List (Source ν)) :
    at_ u (before ++ .ask r addresses :: rest) = at_ u before ++ at_ u rest := by
  rw [at_append]; rfl

/-- What is found when a node plans the query is in the result. -/
private theorem scanned {nodes : List ν} {w w' : World ν ρ} {s : Source ν} {b : List (Source ν)} {q : List (Step ν ρ)}
    (h : w.run nodes (.scan :: q) = some w') (hq : NoAsk q) (ht : w.todo = s :: b) {f : ρ} (hf : f ∈ w.files nodes s) : f ∈ w'.result := by
  simp only [World.run, World.step, ht, Option.bind_some] at h
  have keep : ∀ {steps : List (Step ν ρ)} {a b : World ν ρ}, a.run nodes steps = some b → NoAsk steps → f ∈ a.result → f ∈ b.result := by
    intro steps
    induction steps with
    | nil => intro a b hab _ hf; cases hab; exact hf
    | cons s rest ih =>
      intro a b hab hn hf
      simp only [World.run, Option.bind_eq_some_iff] at hab
      obtain ⟨c, hc1, hc2⟩ := hab
      obtain ⟨hn1, hn2⟩ := noAsk_cons hn
      refine ih hc2 hn2 ?_
      rcases step_todo hc1 hn1 with ⟨_, e⟩ | ⟨y, _, e⟩
      · rw [e]; exact hf
      · rw [e]; exact List.mem_append_left _ hf
  exact keep h hq (List.mem_append_right _ hf)

/-- C93, in every history, with any failures, crashes and transfers, and whichever nodes are included: only files that were saved are returned. -/
theorem C93_nothing_invented {nodes : List ν} {batchSize : ν → Option Nat} {steps : List (Step ν ρ)} {w : World ν ρ}
    (h : (World.new batchSize).run nodes steps = some w) : ∀ f ∈ w.result, ∃ u, f ∈ saved (at_ u steps) := by
  suffices hs : ∀ (after before : List (Step ν ρ)) (w1 : World ν ρ), steps = before ++ after → (World.new batchSize).run nodes before = some w1 →
      w1.run nodes after = some w → (∀ f ∈ w1.result, ∃ u, f ∈ saved (at_ u before)) → ∀ f ∈ w.result, ∃ u, f ∈ saved (at_ u steps) from
    hs steps [] _ rfl rfl h (fun f hf => by cases hf)
  intro after
  induction after with
  | nil =>
    intro before w1 he _ h2 hr
    cases h2
    rw [he, List.append_nil]
    exact hr
  | cons s rest ih =>
    intro before w1 he h1 h2 hr
    simp only [World.run, Option.bind_eq_some_iff] at h2
    obtain ⟨w2, h2, h3⟩ := h2
    have h1' : (World.new batchSize).run nodes (before ++ [s]) = some w2 := run_join h1 (by simp only [World.run, h2, Option.bind_some])
    refine ih (before ++ [s]) w2 (by rw [he, List.append_assoc]; rfl) h1' h3 ?_
    have mono : ∀ {f : ρ}, (∃ u, f ∈ saved (at_ u before)) → ∃ u, f ∈ saved (at_ u (before ++ [s])) := by
      rintro f ⟨u, hu⟩
      exact ⟨u, by rw [at_append, saved_append]; exact List.mem_append_left _ hu⟩
    intro f hf
    by_cases hask : ∃ r a, s = .ask r a
    · obtain ⟨r, a, rfl⟩ := hask
      simp only [World.step] at h2
      split at h2
      · cases h2; cases hf
      · cases h2
    · rcases step_todo h2 (fun r a e => hask ⟨r, a, e⟩) with ⟨_, e⟩ | ⟨x, _, e⟩
      · exact mono (hr f (e ▸ hf))
      · rw [e, List.mem_append] at hf
        rcases hf with hf | hf
        · exact mono (hr f hf)
        · cases x with
          | edge u => exact mono ⟨u, known h1 (.inl hf)⟩
          | cloud =>
            obtain ⟨u, _, hf⟩ := List.mem_flatMap.mp hf
            exact mono ⟨u, known h1 (.inr hf)⟩

/-- C93, that no row is missing: if an edge node plans the query before the cloud node does, what the edge node has in its local data folder or has written to the
remote data folder when it does so is returned, with any failures, crashes and transfers before, meanwhile and after. What is missing:
`C93_missed_when_cloud_first` shows that rows are missing if the cloud node is asked first. -/
theorem C93_not_missed_partial {nodes : List ν} {batchSize : ν → Option Nat} {before during : List (Step ν ρ)} {r : Source ν} {addresses a b : List (Source ν)} {u : ν}
    {w : World ν ρ} (h : (World.new batchSize).run nodes (before ++ .ask r addresses :: during) = some w) (hend : w.todo = []) (hq : NoAsk during)
    (hs : r :: addresses = a ++ .edge u :: b) (hcloud : .cloud ∈ b) (hu : u ∈ nodes) {f : ρ}
    (hf : ∀ p q w1, during = p ++ q → (World.new batchSize).run nodes (before ++ .ask r addresses :: p) = some w1 → w1.todo = .edge u :: b →
      f ∈ (w1.node u).localFiles.map Prod.fst ∨ f ∈ (w1.node u).remoteFiles) : f ∈ w.result := by
  obtain ⟨w0, ht, _, h0, h1⟩ := query_split h
  obtain ⟨p, q, w1, rfl, hp, ht1⟩ := scan_at h1 hq (ht.trans hs) hend
  have hq' : NoAsk (.scan :: q) := fun r a hm => hq r a (List.mem_append_right _ hm)
  obtain ⟨w1', hp', h2⟩ := run_split h1
  obtain rfl : w1 = w1' := Option.some.inj (hp.symm.trans hp')
  have hrun : (World.new batchSize).run nodes (before ++ .ask r addresses :: p) = some w1 := by
    have := run_join h0 hp
    rwa [List.append_assoc] at this
  rcases hf p _ w1 rfl hrun ht1 with hf | hf
  · exact scanned h2 (noAsk_cons hq').2 ht1 hf
  · obtain ⟨c, d, hb⟩ := List.append_of_mem hcloud
    obtain ⟨p2, q2, w2, e, hp2, ht2⟩ := scan_at (a := .edge u :: c) h2 hq' (by rw [ht1, hb]; rfl) hend
    rw [e] at h2 hq'
    obtain ⟨w2', hp2', h3⟩ := run_split h2
    obtain rfl : w2 = w2' := Option.some.inj (hp2.symm.trans hp2')
    refine scanned h3 (fun r a hm => hq' r a (List.mem_append_right _ (List.mem_cons_of_mem _ hm))) ht2 ?_
    obtain ⟨new, hnew⟩ := run_remote (node_run u hp2)
    exact List.mem_flatMap.mpr ⟨u, hu, by rw [hnew]; exact List.mem_append_left _ hf⟩

/-- C93, that no row is missing, in histories in which nothing interferes with the transfers of the edge node: if it plans the query before the cloud node does, each file that
it saved before the query was sent is returned. What is missing: as for `C93_not_missed_partial` and `C26_exactly_once_partial`. -/
theorem C93_edge_first_partial {nodes : List ν} {batchSize : ν → Option Nat} {before during : List (Step ν ρ)} {r : Source ν} {addresses a b : List (Source ν)} {u : ν}
    {w : World ν ρ} (h : (World.new batchSize).run nodes (before ++ .ask r addresses :: during) = some w) (hend : w.todo = []) (hq : NoAsk during)
    (hs : r :: addresses = a ++ .edge u :: b) (hcloud : .cloud ∈ b) (hu : u ∈ nodes)
    (hcalm : CalmRun (Table.new (batchSize u)) (at_ u (before ++ during))) (hkeep : Keeps (at_ u (before ++ during))) :
    ∀ f ∈ saved (at_ u before), f ∈ w.result := by
  intro f hf
  refine C93_not_missed_partial h hend hq hs hcloud hu (fun p q w1 he hrun _ => ?_)
  have hn := node_of hrun u
  have hc := committed_of hrun u
  rw [at_ask, ← at_append] at hn hc
  rw [he, ← List.append_assoc, at_append u (before ++ p) q] at hcalm hkeep
  have hcalm' := calmRun_append hcalm
  have hd := run_discarded hn (fun x hx => hkeep x (List.mem_append_left _ hx))
  have hm : f ∈ (w1.node u).committed := by rw [hc, at_append, saved_append]; exact List.mem_append_left _ hf
  obtain ⟨c1, c2⟩ := C26_exactly_once_partial hcalm' hn
  by_cases hw : ∀ x ∈ (w1.node u).running, inWindow x = false
  · have := (c1 hw).mem_iff.mpr hm
    simp only [copies, hd, Table.new, List.append_nil, List.mem_append] at this
    exact this
  · simp only [not_forall, Bool.not_eq_false] at hw
    obtain ⟨x, hx, hx'⟩ := hw
    have := (c2 x hx hx').mem_iff.mpr hm
    simp only [hd, Table.new, List.append_nil] at this
    exact .inr this

/-- What each node returns, if only `u` saved the file. -/
private def shares (u : ν) (l r : Nat) : Source ν → Nat
  | .edge v => if v = u then l else 0
  | .cloud => r

private theorem sum_shares (u : ν) (l r : Nat) (sources : List (Source ν)) :
    (sources.map (shares u l r)).sum = sources.count (.edge u) * l + sources.count .cloud * r := by
  induction sources with
  | nil => simp
  | cons s rest ih =>
    rw [List.map_cons, List.sum_cons, ih, List.count_cons, List.count_cons]
    cases s with
    | edge v =>
      by_cases hv : v = u
      · subst hv
        simp [shares, Nat.add_mul]
        omega
      · simp [shares, hv]
    | cloud => simp [shares, Nat.add_mul]; omega

private theorem files_shares [DecidableEq ρ] {nodes : List ν} {batchSize : ν → Option Nat} {steps : List (Step ν ρ)} {w : World ν ρ}
    (h : (World.new batchSize).run nodes steps = some w) {u : ν} (hn : nodes.Nodup) (hu : u ∈ nodes) {f : ρ}
    (ho : ∀ v, v ≠ u → f ∉ saved (at_ v steps)) (s : Source ν) :
    (w.files nodes s).count f = shares u (((w.node u).localFiles.map Prod.fst).count f) ((w.node u).remoteFiles.count f) s := by
  cases s with
  | edge v =>
    simp only [World.files, shares]
    by_cases hv : v = u
    · subst hv; rw [if_pos rfl]
    · rw [if_neg hv, List.count_eq_zero]
      exact fun hm => ho v hv (known h (.inl hm))
  | cloud => exact count_flatMap f _ hn hu (fun v hv hm => ho v hv (known h (.inr hm)))

/-- C93, in full for a query during which the edge node does not transfer or delete anything: if the edge node and the cloud node are each asked once, in any order, each file that the edge node
saved before is returned as often as it was saved. Other nodes can be asked too and do anything. What is missing: `C93_missed_when_cloud_first`, `C93_twice_when_edge_first`,
`C93_twice_in_window` and `C93_twice_when_named_twice`. -/
theorem C93_exact_partial [DecidableEq ρ] {nodes : List ν} {batchSize : ν → Option Nat} {before during : List (Step ν ρ)} {r : Source ν} {addresses : List (Source ν)} {u : ν}
    {w : World ν ρ} (h : (World.new batchSize).run nodes (before ++ .ask r addresses :: during) = some w) (hend : w.todo = []) (hq : NoAsk during)
    (hedge : (r :: addresses).count (.edge u) = 1) (hcloud : (r :: addresses).count .cloud = 1) (hn : nodes.Nodup) (hu : u ∈ nodes)
    (hcalm : CalmRun (Table.new (batchSize u)) (at_ u before)) (hkeep : Keeps (at_ u (before ++ during)))
    (hwindow : ∀ w0, (World.new batchSize).run nodes before = some w0 → NoWindow (w0.node u)) (hwait : Waits (at_ u during)) {f : ρ}
    (ho : ∀ v, v ≠ u → f ∉ saved (at_ v (before ++ during))) (hnew : f ∉ saved (at_ u during)) :
    w.result.count f = (saved (at_ u before)).count f := by
  obtain ⟨w0, ht, hr, h0, h1⟩ := query_split h
  obtain ⟨wb, hb, hask⟩ := run_split h0
  obtain ⟨_, hask⟩ := ask_run hask
  have hnode : w0.node u = wb.node u := by cases hask; rfl
  -- The copies of the file when the query is sent.
  rw [at_append] at hkeep
  have hd := run_discarded (node_of hb u) (fun x hx => hkeep x (List.mem_append_left _ hx))
  have hperm := (C26_exactly_once_partial hcalm (node_of hb u)).1 (hwindow wb hb)
  have hcount := hperm.count_eq f
  rw [committed_of hb u] at hcount
  simp only [copies, hd, Table.new, List.append_nil, List.count_append] at hcount
  -- They stay where they are.
  have hshare : ∀ p q w1, during = p ++ q → w0.run nodes p = some w1 → ∀ s ∈ r :: addresses, (w1.files nodes s).count f =
      shares u (((wb.node u).localFiles.map Prod.fst).count f) ((wb.node u).remoteFiles.count f) s := by
    intro p q w1 he hp s _
    have hrun := run_join h0 hp
    have hat : ∀ v, at_ v (before ++ [.ask r addresses] ++ p) = at_ v (before ++ p) := fun v => by
      rw [List.append_assoc, at_append v before p]; exact at_ask v before p r addresses
    rw [he, at_append] at hkeep hwait hnew
    rw [saved_append, List.mem_append, not_or] at hnew
    obtain ⟨hl, hr⟩ := run_waits (node_run u hp) (fun i ok hm => hwait i ok (List.mem_append_left _ hm))
      (fun x hx => hkeep x (List.mem_append_right _ (List.mem_append_left _ hx)))
    rw [files_shares hrun hn hu (fun v hv => ?_) s, hl, hr, List.count_append, List.count_eq_zero_of_not_mem hnew.1, hnode]
    · rfl
    · rw [hat]
      intro hm
      refine ho v hv ?_
      rw [he, ← List.append_assoc, at_append v (before ++ p) q, saved_append]
      exact List.mem_append_left _ hm
  have := result_count f _ _ (done := r :: addresses) h1 hq (by rw [ht, hend, List.append_nil])
    (fun p q w1 he hp s hs => ⟨(hshare p q w1 he hp s hs).ge, (hshare p q w1 he hp s hs).le⟩)
  rw [sum_shares, hedge, hcloud, hr, List.count_nil] at this
  omega

/-- C93, that no row is returned twice: if the cloud node plans the query before the edge node does, and the edge node is then not between writing rows to the remote
data folder and deleting them, a file that is saved once is returned at most once, whatever the edge node does afterwards, with any transfers during the query. What is missing:
`C93_twice_when_edge_first` and `C93_twice_in_window` show that rows are returned twice otherwise. -/
theorem C93_cloud_first_partial [DecidableEq ρ] {nodes : List ν} {batchSize : ν → Option Nat} {before during : List (Step ν ρ)} {r : Source ν} {addresses a b : List (Source ν)} {u : ν}
    {w : World ν ρ} (h : (World.new batchSize).run nodes (before ++ .ask r addresses :: during) = some w) (hend : w.todo = []) (hq : NoAsk during)
    (hs : r :: addresses = a ++ .cloud :: b) (ha : .edge u ∉ a ∧ .cloud ∉ a) (hb : b.count (.edge u) ≤ 1 ∧ .cloud ∉ b) (hn : nodes.Nodup) (hu : u ∈ nodes)
    (hcalm : CalmRun (Table.new (batchSize u)) (at_ u (before ++ during)))
    (hwindow : ∀ p q w1, during = p ++ q → (World.new batchSize).run nodes (before ++ .ask r addresses :: p) = some w1 → w1.todo = .cloud :: b → NoWindow (w1.node u)) {f : ρ}
    (ho : ∀ v, v ≠ u → f ∉ saved (at_ v (before ++ during))) (honce : (saved (at_ u (before ++ during))).count f ≤ 1) :
    w.result.count f ≤ 1 := by
  obtain ⟨w0, ht, hr, h0, h1⟩ := query_split h
  obtain ⟨p, q, w1, rfl, hp, ht1⟩ := scan_at h1 hq (ht.trans hs) hend
  obtain ⟨w1', hp', h2⟩ := run_split h1
  obtain rfl : w1 = w1' := Option.some.inj (hp.symm.trans hp')
  have hat : ∀ v (x : List (Step ν ρ)), at_ v (before ++ [.ask r addresses] ++ x) = at_ v (before ++ x) := fun v x => by
    rw [List.append_assoc, at_append v before x]; exact at_ask v before x r addresses
  -- Steps up to any moment of the query.
  have hother : ∀ x y, p ++ .scan :: q = x ++ y → ∀ v, v ≠ u → f ∉ saved (at_ v (before ++ [.ask r addresses] ++ x)) := by
    intro x y he v hv hm
    rw [hat] at hm
    refine ho v hv ?_
    rw [he, ← List.append_assoc, at_append v (before ++ x) y, saved_append]
    exact List.mem_append_left _ hm
  have hzero : ∀ s ∈ a, ∀ l m, shares u l m s = 0 := by
    intro s hm l m
    cases s with
    | edge v =>
      have : v ≠ u := fun e => ha.1 (e ▸ hm)
      simp only [shares, if_neg this]
    | cloud => exact absurd hm ha.2
  -- Nothing before the cloud node.
  have hfirst := (result_count f (fun _ => 0) (fun _ => 0) (done := a) hp (fun r a hm => hq r a (List.mem_append_left _ hm)) (by rw [ht, hs, ht1])
    (fun x y w2 he hx s hm => by
      have := files_shares (run_join h0 hx) hn hu (hother x (y ++ .scan :: q) (by rw [he, List.append_assoc])) s
      rw [hzero s hm] at this
      omega)).2
  have hsum : (a.map fun _ => 0).sum = 0 := by induction a with | nil => rfl | cons _ _ _ => simp
  rw [hr, hsum, List.count_nil] at hfirst
  -- The cloud node.
  have hrun1 := run_join h0 hp
  have hcloud := files_shares hrun1 hn hu (hother p (.scan :: q) rfl) .cloud
  simp only [shares] at hcloud
  simp only [World.run, World.step, ht1, Option.bind_some] at h2
  have hn1 := node_of hrun1 u
  have hc1 := committed_of hrun1 u
  rw [hat] at hn1 hc1
  have hcalm1 : CalmRun (Table.new (batchSize u)) (at_ u (before ++ p)) := by
    rw [← List.append_assoc, at_append u (before ++ p)] at hcalm
    exact calmRun_append hcalm
  have hw1 := hwindow p (.scan :: q) w1 rfl (by rwa [List.append_assoc] at hrun1) ht1
  have hperm := ((C26_exactly_once_partial hcalm1 hn1).1 hw1).count_eq f
  rw [hc1] at hperm
  simp only [copies, List.count_append] at hperm
  rw [← List.append_assoc, at_append u (before ++ p), saved_append, List.count_append] at honce
  -- The edge node, if it is asked, at any later moment.
  have hlater : ∀ x y w2, q = x ++ y → w1.run nodes (.scan :: x) = some w2 →
      ((w2.node u).localFiles.map Prod.fst).count f + (w1.node u).remoteFiles.count f ≤ 1 := by
    intro x y w2 he hx
    have := (run_locals (node_run u hx)).count_le f
    have e : saved (at_ u (.scan :: q)) = saved (at_ u (.scan :: x)) ++ saved (at_ u y) := by
      rw [he, ← saved_append, ← at_append]; rfl
    rw [e, List.count_append] at honce
    rw [List.count_append] at this
    omega
  have hsecond := (result_count f (fun _ => 0) (shares u (1 - (w1.node u).remoteFiles.count f) 0) (done := b) h2
    (fun r a hm => hq r a (List.mem_append_right _ (List.mem_cons_of_mem _ hm))) (by rw [hend, List.append_nil])
    (fun x y w2 he hx s hm => by
      have hx' : w1.run nodes (.scan :: x) = some w2 := by simp only [World.run, World.step, ht1, Option.bind_some]; exact hx
      refine ⟨Nat.zero_le _, ?_⟩
      have hrun2 := run_join hrun1 hx'
      rw [List.append_assoc (before ++ [Step.ask r addresses])] at hrun2
      rw [files_shares hrun2 hn hu (hother _ y (by rw [he, List.append_assoc]; rfl)) s]
      cases s with
      | edge v =>
        simp only [shares]
        have := hlater x y w2 he hx'
        split <;> omega
      | cloud => exact absurd hm hb.2)).2
  rw [sum_shares] at hsecond
  simp only [List.count_append, hcloud] at hsecond
  have : (w1.node u).remoteFiles.count f ≤ 1 := by omega
  have hmul : b.count (.edge u) * (1 - (w1.node u).remoteFiles.count f) ≤ 1 * (1 - (w1.node u).remoteFiles.count f) := Nat.mul_le_mul_right _ hb.1
  omega

/-! ### What goes wrong -/

/-- A file is saved and reported by the node 0. -/
private def save (f : Nat) : List (Step Nat Nat) := [.op 0 (.commit f 10), .op 0 (.report 0)]

/-- The first steps of a transfer of the node 0: until the rows are in both data folders. -/
private def copy : List (Step Nat Nat) := [.op 0 (.request 0), .op 0 (.advance 0 true), .op 0 (.advance 0 true)]

/-- The last steps of a transfer. -/
private def delete : List (Step Nat Nat) := [.op 0 (.advance 0 true), .op 0 (.advance 0 true)]

/-- What is returned at the end. -/
private def returned (steps : List (Step Nat Nat)) : Option (List Nat) :=
  ((World.new fun _ => none).run [0, 1] steps).bind fun w => if w.todo = [] then some w.result else none

/-- C93 is false: if the cloud node is asked first, rows that an edge node transfers before it plans the query are missing. -/
theorem C93_missed_when_cloud_first :
    returned (save 7 ++ [.ask .cloud [.edge 0], .scan] ++ copy ++ delete ++ [.scan]) = some [] := by decide +kernel

/-- C93 is false: if the edge node is asked first, rows that it transfers before the cloud node plans the query are returned twice. -/
theorem C93_twice_when_edge_first :
    returned (save 7 ++ [.ask (.edge 0) [.cloud], .scan] ++ copy ++ delete ++ [.scan]) = some [7, 7] := by decide +kernel

/-- C93 is false: in either order rows are returned twice while they are in both data folders, although nothing happens during the query. -/
theorem C93_twice_in_window :
    returned (save 7 ++ copy ++ [.ask (.edge 0) [.cloud], .scan, .scan]) = some [7, 7] ∧
      returned (save 7 ++ copy ++ [.ask .cloud [.edge 0], .scan, .scan]) = some [7, 7] := by decide +kernel

/-- C93 is false: a node that is named twice, or that is the node that received the query, returns its rows twice. -/
theorem C93_twice_when_named_twice :
    returned (save 7 ++ [.ask .cloud [.edge 0, .edge 0], .scan, .scan, .scan]) = some [7, 7] ∧
      returned (save 7 ++ [.ask (.edge 0) [.edge 0], .scan, .scan]) = some [7, 7] := by decide +kernel

/-! ### Cases -/

/-- The first file is transferred, the second is not. -/
private def history : List (Step Nat Nat) := save 7 ++ copy ++ delete ++ save 8

/-- A case of `C93_edge_first_partial` in which the second file is transferred during the query: both are returned. -/
example : ∃ w : World Nat Nat, (World.new fun _ => none).run [0, 1] (history ++ .ask (.edge 0) [.cloud] :: ([.scan] ++ copy ++ delete ++ [.scan])) = some w ∧
    ∀ f ∈ [7, 8], f ∈ w.result := by
  have hrun : ((World.new fun _ => none : World Nat Nat).run [0, 1]
      (history ++ .ask (.edge 0) [.cloud] :: ([.scan] ++ copy ++ delete ++ [.scan]))).isSome = true := by decide +kernel
  have hend : ∀ w ∈ (World.new fun _ => none : World Nat Nat).run [0, 1]
      (history ++ .ask (.edge 0) [.cloud] :: ([.scan] ++ copy ++ delete ++ [.scan])), w.todo = [] := by decide +kernel
  obtain ⟨w, hw⟩ := Option.isSome_iff_exists.mp hrun
  exact ⟨w, hw, C93_edge_first_partial (u := 0) (a := []) (b := [.cloud]) hw (hend w hw) (fun r a hm => by simp [copy, delete] at hm) rfl
    (by decide) (by decide) (by decide +kernel) (fun x hx e => by subst e; simp [history, save, copy, delete, at_] at hx)⟩

/-- A case of `C93_exact_partial` in which another node saves a file and the edge node is restarted during the query. -/
example : ∃ w : World Nat Nat, (World.new fun _ => none).run [0, 1]
      (history ++ .ask .cloud [.edge 1, .edge 0] :: [.scan, .op 1 (.commit 9 5), .scan, .op 0 (.restart fun _ => 10), .scan]) = some w ∧
    w.result.count 7 = 1 ∧ w.result.count 8 = 1 := by
  have hrun : ((World.new fun _ => none : World Nat Nat).run [0, 1]
      (history ++ .ask .cloud [.edge 1, .edge 0] :: [.scan, .op 1 (.commit 9 5), .scan, .op 0 (.restart fun _ => 10), .scan])).isSome = true := by decide +kernel
  have hend : ∀ w ∈ (World.new fun _ => none : World Nat Nat).run [0, 1]
      (history ++ .ask .cloud [.edge 1, .edge 0] :: [.scan, .op 1 (.commit 9 5), .scan, .op 0 (.restart fun _ => 10), .scan]), w.todo = [] := by decide +kernel
  have hwin : ∀ w ∈ (World.new fun _ => none : World Nat Nat).run [0, 1] history, ∀ x ∈ (w.node 0).running, inWindow x = false := by decide +kernel
  obtain ⟨w, hw⟩ := Option.isSome_iff_exists.mp hrun
  have main : ∀ f : Nat, f ≠ 9 → w.result.count f = (saved (at_ 0 history)).count f := fun f hf =>
    C93_exact_partial (u := 0) hw (hend w hw) (fun r a hm => by simp at hm) (by decide) (by decide) (by decide) (by decide) (by decide +kernel)
      (fun x hx e => by subst e; simp [history, save, copy, delete, at_] at hx)
      (fun w0 hw0 => hwin w0 hw0) (fun i ok hm => by simp [at_] at hm)
      (fun v hv hm => by
        have hv' : ¬ 0 = v := fun e => hv e.symm
        by_cases h1 : 1 = v
        · subst h1; simp [history, save, copy, delete, at_, saved, hf] at hm
        · simp [history, save, copy, delete, at_, saved, hv', h1] at hm)
      (by simp [at_, saved])
  exact ⟨w, hw, by rw [main 7 (by decide)]; decide +kernel, by rw [main 8 (by decide)]; decide +kernel⟩

/-- A case of `C93_cloud_first_partial` in which the second file is transferred after the cloud node has planned the query. -/
example : ∃ w : World Nat Nat, (World.new fun _ => none).run [0, 1] (history ++ .ask .cloud [.edge 0] :: ([.scan] ++ copy ++ [.scan])) = some w ∧
    w.result = [7, 8] ∧ w.result.count 8 ≤ 1 := by
  have hrun : ((World.new fun _ => none : World Nat Nat).run [0, 1] (history ++ .ask .cloud [.edge 0] :: ([.scan] ++ copy ++ [.scan]))).isSome = true := by
    decide +kernel
  have hend : ∀ w ∈ (World.new fun _ => none : World Nat Nat).run [0, 1] (history ++ .ask .cloud [.edge 0] :: ([.scan] ++ copy ++ [.scan])),
      w.todo = [] ∧ w.result = [7, 8] := by decide +kernel
  obtain ⟨w, hw⟩ := Option.isSome_iff_exists.mp hrun
  refine ⟨w, hw, (hend w hw).2, C93_cloud_first_partial (u := 0) (a := []) (b := [.edge 0]) hw (hend w hw).1 (fun r a hm => by simp [copy] at hm) rfl
    (by decide) (by decide) (by decide) (by decide) (by decide +kernel) ?_ ?_ (by decide +kernel)⟩
  · -- The cloud node has not planned the query only before the first step.
    intro p q w1 he hp ht
    cases p with
    | nil =>
      have : ∀ w ∈ (World.new fun _ => none : World Nat Nat).run [0, 1] (history ++ [.ask .cloud [.edge 0]]), ∀ x ∈ (w.node 0).running, inWindow x = false := by
        decide +kernel
      exact this w1 hp
    | cons s p =>
      exfalso
      obtain ⟨hs, he'⟩ := List.cons.inj he
      subst hs
      obtain ⟨w0, ht0, _, _, h1⟩ := query_split hp
      simp only [World.run, World.step, ht0, Option.bind_some] at h1
      have hn : NoAsk p := fun r a hm => by
        have : Step.ask r a ∈ copy ++ [Step.scan] := by
          rw [show copy ++ [Step.scan] = p ++ q from he']; exact List.mem_append_left _ hm
        simp [copy] at this
      have hlen := todo_length h1 hn
      simp [ht] at hlen
  · intro v hv hm
    have hv' : ¬ 0 = v := fun e => hv e.symm
    simp [history, save, copy, delete, at_, saved, hv'] at hm

end ModelarDB.Props
