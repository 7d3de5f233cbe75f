import Verif.Lemmas.EdgeNode
import Verif.Props.ScaledRows
/-
C87: rows that are ingested by edge nodes are returned by queries in the cloud when they have been transferred.
-/
namespace ModelarDB.Props
open Model Model.Query Model.TableDefinition Model.StoredTable Model.Restarts Model.EdgeNode Spec Spec.Storage Spec.Restarts Spec.DataTransfer
  Spec.EdgeNode Lemmas

variable {α ε : Type}

/-! ### Where the rows are -/

/-- **C87**, in every history, also with failures, crashes and transfers at the same time: what a node has written to the cloud are segments that were
saved in the table by the node, with rows that were sent to the node. The conditions are those of C22. -/
theorem C87_nothing_invented {store : Model.Storage.Env α} (hs : Sorts store) (hcap : 2 ≤ store.capacity) {name : String} {n : Node α}
    (hn : Reached name store n) (hg : Good store (rowsIn n.server.log)) :
    (∀ x ∈ transferred n, x ∈ n.server.allSaved ∧ x.table = name) ∧ ∀ r ∈ transferredRows n, r ∈ rowsOfTable name (rowsIn n.server.log) := by
  obtain ⟨hi, ⟨i, u, c, actions, hrun, hok⟩, batchSize, ops, ht⟩ := EdgeNode.reached_spec hn
  have h1 : ∀ x ∈ transferred n, x ∈ n.server.allSaved ∧ x.table = name := by
    intro x hx
    obtain ⟨file, hf, hxf⟩ := List.mem_flatten.mp hx
    have := C26_nothing_invented ht file (by simp [copies, hf])
    have hx' : x ∈ n.server.allSaved.filter fun c => c.table = name := by
      rw [← hi.committed]
      exact List.mem_flatten.mpr ⟨file, this, hxf⟩
    simpa using hx'
  refine ⟨h1, fun r hr => ?_⟩
  obtain ⟨x, hx, hrx⟩ := List.mem_flatMap.mp hr
  obtain ⟨h2, h3⟩ := h1 x hx
  refine List.mem_filter.mpr ⟨(C79_no_row_twice hs hcap hok hrun hg).subset (List.mem_flatMap.mpr ⟨x, h2, hrx⟩), ?_⟩
  obtain ⟨p, _, rfl⟩ := List.mem_map.mp hrx
  simpa using h3

/-- **C87**, rows are in one place: if nothing interferes with transfers, each row that was saved is in the local data folder of the node or in the
cloud and not in both, except that while a transfer deletes rows that it has written to the cloud all rows are in the cloud. Missing: the histories of
C26, for which the property is false (`C87_row_lost`, `C87_row_twice`). -/
theorem C87_one_place_partial {store : Model.Storage.Env α} {name : String} {n : Node α} (hn : CalmlyReached name store n) :
    (¬Deleting n → (localRows n ++ transferredRows n).Perm (rowsOfTable name (inTables n.server))) ∧
      (AllTransferred n → (transferredRows n).Perm (rowsOfTable name (inTables n.server))) := by
  obtain ⟨hi, _⟩ := EdgeNode.reached_spec (EdgeNode.calmly_reached hn)
  obtain ⟨batchSize, ops, ht, hc⟩ := EdgeNode.calm_spec hn
  obtain ⟨h1, h2⟩ := C26_exactly_once_partial hc ht
  have hall : n.table.committed.flatten.flatMap chunkRows = rowsOfTable name (inTables n.server) := by
    rw [hi.committed, EdgeNode.rowsOfTable_chunks]
    rfl
  have hsome : ¬Deleting n → (localRows n ++ transferredRows n).Perm (rowsOfTable name (inTables n.server)) := by
    intro hd
    have hp := h1 fun x hx => by
      cases hw : inWindow x with
      | false => rfl
      | true => exact absurd ⟨x, hx, hw⟩ hd
    rw [← hall]
    have := (hp.flatten).flatMap_right chunkRows
    unfold copies at this
    rw [hi.discarded] at this
    simpa [localRows, transferredRows, transferred, List.flatMap_def, List.flatMap_append] using this
  refine ⟨hsome, fun ha => ?_⟩
  rw [← hall]
  rcases Classical.em (Deleting n) with hd | hd
  · obtain ⟨x, hx, hw⟩ := hd
    have hp := h2 x hx hw
    rw [hi.discarded, List.append_nil] at hp
    exact hp.flatten.flatMap_right chunkRows
  · rcases ha with ha | ha
    · have := hsome hd
      rw [hall]
      simpa [localRows, ha] using this
    · exact absurd ha hd

/-- **C87**, acknowledged rows arrive: a node was stopped without warning any number of times and started again, a flush that was requested when the
write-ahead log had been replayed has been answered, and everything in the local table has been transferred. Then each row that was acknowledged before
the request is in the cloud, once. Missing: the rows that are missing in C79 and the histories of C26. -/
theorem C87_acknowledged_partial {store : Model.Storage.Env α} (hs : Sorts store) (hcap : 2 ≤ store.capacity) {name : String} {n : Node α}
    (hn : CalmlyReached name store n) (ha : AllTransferred n) (hg : Good store (rowsIn n.server.log)) {i u c : Nat} {actions : List (Action α)}
    (hok : ∀ a ∈ actions, Action.ok a) {crashed requested : Server α} (hrun : (Server.new i u c).run store actions = some crashed)
    (hr : Recovered store crashed requested n.server) :
    (transferredRows n).Nodup ∧ ∀ b ∈ requested.acknowledged, b.1 = name → ∀ r ∈ b.2.2,
      r ∈ transferredRows n ∨ (r ∉ inTables crashed ∧ ∃ r' ∈ b.2.2, r' ∈ inTables crashed) := by
  have hp := (C87_one_place_partial hn).2 ha
  obtain ⟨_, ⟨i', u', c', actions', hrun', hok'⟩, _⟩ := EdgeNode.reached_spec (EdgeNode.calmly_reached hn)
  have hnodup : (rowsOfTable name (inTables n.server)).Nodup := by
    obtain ⟨l, h1, h2⟩ := C79_no_row_twice hs hcap hok' hrun' hg
    exact ((h1.nodup_iff).mp ((Restarts.rows_nodup hg).sublist h2)).sublist List.filter_sublist
  refine ⟨hp.nodup_iff.mpr hnodup, fun b hb hbn r hrb => ?_⟩
  rcases C79_acknowledged_kept_partial hs hcap hok hrun hr hg b hb r hrb with h | h
  · refine Or.inl (hp.mem_iff.mpr (List.mem_filter.mpr ⟨h, ?_⟩))
    have hgc : Good store (rowsIn crashed.log) := by
      obtain ⟨more, hmore, _⟩ := Restarts.recovered_run hr
      exact Restarts.good_run hmore hg
    obtain ⟨i2, _⟩ := Restarts.recovered hs hcap (Restarts.inv_run hs hcap actions hok (Restarts.inv_new i u c) hrun hgc) hr hg
    rw [i2.tables b (i2.acknowledged b hb).1 r hrb, hbn]
    simp
  · exact Or.inr h

/-! ### Queries in the cloud -/

/-- All rows that were sent to nodes. -/
def sentRows (nodes : List (Node α)) : List (Model.Storage.Row α) := nodes.flatMap fun n => rowsIn n.server.log

/-- The segments in the cloud are those that were saved by nodes. -/
theorem cloud_chunks {store : Model.Storage.Env α} (hs : Sorts store) (hcap : 2 ≤ store.capacity) {name : String} {nodes : List (Node α)}
    (hn : ∀ n ∈ nodes, Reached name store n ∧ Good store (rowsIn n.server.log)) {cloud : List (Model.Storage.Chunk α)}
    (hcloud : cloud.Perm (nodes.flatMap transferred)) :
    (∀ r ∈ cloud.flatMap chunkRows, r ∈ sentRows nodes) ∧ (∀ x ∈ cloud, x.table = name) ∧
      ∀ x ∈ cloud, x.points ≠ [] ∧ x.points.length ≤ store.capacity ∧ StrictlyIncreasing (x.points.map Prod.fst) := by
  have hfrom : ∀ x ∈ cloud, ∃ n ∈ nodes, x ∈ transferred n := fun x hx => List.mem_flatMap.mp (hcloud.mem_iff.mp hx)
  refine ⟨fun r hr => ?_, fun x hx => ?_, fun x hx => ?_⟩
  · obtain ⟨x, hx, hrx⟩ := List.mem_flatMap.mp hr
    obtain ⟨n, hnn, hxn⟩ := hfrom x hx
    have := (C87_nothing_invented hs hcap (hn n hnn).1 (hn n hnn).2).2 r (List.mem_flatMap.mpr ⟨x, hxn, hrx⟩)
    exact List.mem_flatMap.mpr ⟨n, hnn, (List.mem_filter.mp this).1⟩
  · obtain ⟨n, hnn, hxn⟩ := hfrom x hx
    exact ((C87_nothing_invented hs hcap (hn n hnn).1 (hn n hnn).2).1 x hxn).2
  · obtain ⟨n, hnn, hxn⟩ := hfrom x hx
    have hsaved := ((C87_nothing_invented hs hcap (hn n hnn).1 (hn n hnn).2).1 x hxn).1
    obtain ⟨_, ⟨i, u, c, actions, hrun, hok⟩, _⟩ := EdgeNode.reached_spec (hn n hnn).1
    exact ((Restarts.inv_run hs hcap actions hok (Restarts.inv_new i u c) hrun (hn n hnn).2).saved hs hcap (hn n hnn).2).2 x hsaved

/-- All rows of segments of a table are rows of the table. -/
theorem rowsOfTable_self {name : String} {saved : List (Model.Storage.Chunk α)} (h : ∀ x ∈ saved, x.table = name) :
    rowsOfTable name (saved.flatMap chunkRows) = saved.flatMap chunkRows := by
  rw [← EdgeNode.rowsOfTable_chunks, List.filter_eq_self.mpr fun x hx => by simpa using h x hx]

/-- **C87** for queries in the cloud for at most one field, in every history: any number of nodes transfer a table to the same data folder. Every query
for stored columns with at most one field returns the rows that are there, as often as they are there. These are rows that were written by the nodes, and
the values are those that were sent to the nodes if the field is lossless and within the error bound otherwise. If nothing interferes with the transfers
and they have transferred everything, these are the rows that are saved by all nodes. Missing: the cases in C73 and, for the last part, those in C26. -/
theorem C87_query_partial {store : Model.Storage.Env α} (hs : Sorts store) (hcap : 2 ≤ store.capacity) (hmax : store.capacity < 2 ^ 63)
    {name : String} {nodes : List (Node α)} (hn : ∀ n ∈ nodes, Reached name store n ∧ Good store (rowsIn n.server.log))
    {cloud : List (Model.Storage.Chunk α)} (hcloud : cloud.Perm (nodes.flatMap transferred))
    {qs : List Column} {bs : List ErrorBound} {gs : List (Option (Generated ε))} {md : Metadata ε}
    (hm : tryNew name qs bs gs = .ok md) (hunique : (qs.map (·.name)).Nodup) (hfree : ∀ tag ∈ tagNamesOf md, FreeName tag)
    {value : α → Nat → Nat} {field : Nat} (hfield : field ∈ md.fieldIndices) {eb : ErrorBound} (heb : md.errorBounds[field]? = some eb)
    (hrows : ∀ r ∈ rowsOfTable name (sentRows nodes), WellFormed md.tagIndices.length value field r)
    (hvalues : Compressible eb ((rowsOfTable name (sentRows nodes)).map fun r => value r.val field))
    (log2 : Log2) (hlog : Log2Accurate log2)
    {m M G T D : ℚ} (hscale : RowsScale eb store.capacity value field (rowsOfTable name (sentRows nodes)) m M G T D) :
    ∃ stored ingested, storedSegments log2 md value field cloud = some stored ∧ ingested.Perm (nodes.flatMap transferredRows) ∧
      (∀ r ∈ ingested, r ∈ rowsOfTable name (sentRows nodes)) ∧
      ((∀ n ∈ nodes, CalmlyReached name store n ∧ AllTransferred n) →
        ingested.Perm (nodes.flatMap fun n => rowsOfTable name (inTables n.server))) ∧
      ∀ (env : Env ε) (w : World ε StoredSegment), ReadsStoredSegments w field stored → ∀ (projection : List Nat) (filters : List Expr),
        OneFieldQuery env w md projection filters field → ∀ rows : Point → String → Value,
        (∀ p, p.tags.length = md.tagIndices.length → RowOf md p (rows p)) →
        ReturnsRows env w md projection filters field value (ReadBack eb) rows ingested := by
  have hname : name = md.name := by obtain ⟨_, _, _, _, _, _, _, h8⟩ := tryNew_ok.mp hm; rw [h8]
  subst hname
  obtain ⟨hsub, htable, hchunks⟩ := cloud_chunks hs hcap hn hcloud
  obtain ⟨stored, g1, g2, g3⟩ := EndToEnd.storedSegments_spec hfield (EndToEnd.saved_stored hmax hsub hchunks heb hrows log2
    (ReadBack eb) (fun ts vs hlen hne hr hinc hsize h32 hnan hv hl => readBack hlog hvalues ts vs hlen hne hr hinc hsize h32 hnan
      (fun v hvs => by obtain ⟨r, hr, rfl⟩ := hv v hvs; exact List.mem_map.mpr ⟨r, hr, rfl⟩) hl)
    (linear_of_members hvalues.valid hsub hchunks hrows hscale))
  rw [rowsOfTable_self htable] at g3
  have hsent : ∀ r ∈ cloud.flatMap chunkRows, r ∈ rowsOfTable md.name (sentRows nodes) := by
    intro r hr
    refine List.mem_filter.mpr ⟨hsub r hr, ?_⟩
    rw [← rowsOfTable_self htable] at hr
    exact (List.mem_filter.mp hr).2
  have hperm : (cloud.flatMap chunkRows).Perm (nodes.flatMap transferredRows) := by
    have := hcloud.flatMap_right chunkRows
    rw [List.flatMap_assoc] at this
    exact this
  refine ⟨stored, cloud.flatMap chunkRows, g1, hperm, hsent, ?_, ?_⟩
  · intro hall
    refine hperm.trans (List.Perm.flatMap_left _ fun n hnn => ?_)
    exact (C87_one_place_partial (hall n hnn).1).2 (hall n hnn).2
  intro env w hreads projection filters hq rows hrowOf
  obtain ⟨plan, hplan, hpf⟩ := hq.plan
  obtain ⟨parquet, grid, hfilters⟩ := hq.rewritten
  have htags : ∀ p ∈ stored.flatMap pointsOf, p.tags.length = md.tagIndices.length := by
    intro p hp
    obtain ⟨k, hk, rfl⟩ := List.getElem_of_mem hp
    have hk' : k < (cloud.flatMap chunkRows).length := by rw [g3.length_eq]; exact hk
    have h4 := (List.forall₂_iff_get.mp g3).2 k hk' hk
    have h5 := h4.tags
    simp only [List.get_eq_getElem] at h5
    rw [h5]
    exact (hrows _ (hsent _ (List.getElem_mem hk'))).tags
  obtain ⟨batches, returned, n₀, a1, a2, a3, a4⟩ := EndToEnd.answer_of_stored hq.order hq.batch hm hunique hfree hq.asked hq.stored hplan hpf
    hfilters hq.forward g2 htags hreads rows fun p hp => hrowOf p (htags p hp)
  obtain ⟨_, _, hres, _⟩ := planScan_ok hplan
  exact ⟨n₀, plan.result, batches, stored.flatMap pointsOf, returned, mapM_option_eq_some.mp hres, a1, a2, g3, a3, a4⟩

/-- The rows of a series are sent to one node. -/
def OneNodePerSeries (name : String) (nodes : List (Node α)) : Prop :=
  nodes.Pairwise fun n n' => ∀ r ∈ rowsOfTable name (rowsIn n.server.log), ∀ r' ∈ rowsOfTable name (rowsIn n'.server.log), r.tags ≠ r'.tags

/-- Without interference no segment is in the cloud twice. -/
theorem transferred_subperm {store : Model.Storage.Env α} {name : String} {n : Node α} (hn : CalmlyReached name store n) :
    (transferred n).Subperm (n.server.allSaved.filter fun c => c.table = name) := by
  obtain ⟨hi, _⟩ := EdgeNode.reached_spec (EdgeNode.calmly_reached hn)
  obtain ⟨batchSize, ops, ht, hc⟩ := EdgeNode.calm_spec hn
  obtain ⟨h1, h2⟩ := C26_exactly_once_partial hc ht
  rw [← hi.committed]
  rcases Classical.em (Deleting n) with ⟨x, hx, hw⟩ | hd
  · have hp := h2 x hx hw
    rw [hi.discarded, List.append_nil] at hp
    exact hp.flatten.subperm
  · have hp := h1 fun x hx => by
      cases hw : inWindow x with
      | false => rfl
      | true => exact absurd ⟨x, hx, hw⟩ hd
    unfold copies at hp
    rw [hi.discarded, List.append_nil] at hp
    refine List.Subperm.trans (List.Sublist.subperm ?_) hp.flatten.subperm
    rw [List.flatten_append]
    exact List.sublist_append_right _ _

/-- Without interference the rows in the cloud are rows that were sent, none more often than it was sent. -/
theorem cloud_subperm {store : Model.Storage.Env α} (hs : Sorts store) (hcap : 2 ≤ store.capacity) {name : String} {nodes : List (Node α)}
    (hn : ∀ n ∈ nodes, CalmlyReached name store n ∧ Good store (rowsIn n.server.log)) {cloud : List (Model.Storage.Chunk α)}
    (hcloud : cloud.Perm (nodes.flatMap transferred)) : (cloud.flatMap chunkRows).Subperm (rowsOfTable name (sentRows nodes)) := by
  have hperm : (cloud.flatMap chunkRows).Perm (nodes.flatMap transferredRows) := by
    have := hcloud.flatMap_right chunkRows
    rw [List.flatMap_assoc] at this
    exact this
  refine hperm.subperm.trans ?_
  unfold sentRows rowsOfTable
  rw [List.filter_flatMap]
  clear hperm hcloud
  induction nodes with
  | nil => exact List.Subperm.refl _
  | cons n nodes ih =>
    rw [List.flatMap_cons, List.flatMap_cons]
    refine List.Subperm.append ?_ (ih fun x hx => hn x (List.mem_cons_of_mem _ hx))
    obtain ⟨h1, h2⟩ := hn n (List.mem_cons_self ..)
    obtain ⟨_, ⟨i, u, c, actions, hrun, hok⟩, _⟩ := EdgeNode.reached_spec (EdgeNode.calmly_reached h1)
    have h3 := (C79_no_row_twice hs hcap hok hrun h2).filter fun r => decide (r.table = name)
    refine List.Subperm.trans ?_ h3
    obtain ⟨l, h4, h5⟩ := transferred_subperm h1
    have h6 : (transferredRows n).Subperm ((n.server.allSaved.filter fun c => c.table = name).flatMap chunkRows) :=
      ((h4.symm.flatMap_right chunkRows).subperm).trans (EndToEnd.sublist_flatMap h5 _).subperm
    rw [EdgeNode.rowsOfTable_chunks] at h6
    exact h6

/-- Segments that do not overlap in any order and of which some are left out. -/
theorem separated_subperm {name : String} {l l' : List (Model.Storage.Chunk α)} (h : l.Subperm l') (hs : Separated name l') : Separated name l := by
  obtain ⟨k, h1, h2⟩ := h
  refine (h1.pairwise_iff ?_).mp (List.Pairwise.sublist h2 hs)
  intro x y hxy hy hx ht
  exact (hxy hx hy ht.symm).symm.imp (fun h p hp q hq => h q hq p hp) (fun h p hp q hq => h q hq p hp)

/-- The segments in the cloud of series that are each sent to one node do not overlap. -/
theorem cloud_separated {store : Model.Storage.Env α} (hs : Sorts store) (hcap : 2 ≤ store.capacity) {name : String} {nodes : List (Node α)}
    (hn : ∀ n ∈ nodes, CalmlyReached name store n ∧ Good store (rowsIn n.server.log)) (hin : ∀ n ∈ nodes, InOrder name (rowsIn n.server.log))
    (hone : OneNodePerSeries name nodes) {cloud : List (Model.Storage.Chunk α)} (hcloud : cloud.Perm (nodes.flatMap transferred)) :
    Separated name cloud := by
  have hn' : ∀ n ∈ nodes, Reached name store n ∧ Good store (rowsIn n.server.log) := fun n h => ⟨EdgeNode.calmly_reached (hn n h).1, (hn n h).2⟩
  obtain ⟨_, _, hchunks⟩ := cloud_chunks hs hcap hn' hcloud
  refine separated_subperm hcloud.subperm (List.pairwise_flatMap.mpr ⟨fun n hnn => ?_, ?_⟩)
  · obtain ⟨_, ⟨i, u, c, actions, hrun, hok⟩, _⟩ := EdgeNode.reached_spec (hn' n hnn).1
    have hi := Restarts.inv_run hs hcap actions hok (Restarts.inv_new i u c) hrun (hn n hnn).2
    have hq := Restarts.sequence_run hs hcap actions hok (Restarts.inv_new i u c) (Restarts.sequence_new (T := name) i u c) hrun (hn n hnn).2
      (hin n hnn)
    exact separated_subperm (transferred_subperm (hn n hnn).1)
      (List.Pairwise.sublist List.filter_sublist (hi.all_separated hs hcap (hn n hnn).2 hq (hin n hnn)))
  · refine List.Pairwise.imp_of_mem (fun {n n'} hnn hnn' hd x hx y hy _ _ htags => ?_) hone
    have row : ∀ m ∈ nodes, ∀ z ∈ transferred m, ∃ r ∈ rowsOfTable name (rowsIn m.server.log), r.tags = z.tags := by
      intro m hm z hz
      have hne := (hchunks z (hcloud.mem_iff.mpr (List.mem_flatMap.mpr ⟨m, hm, hz⟩))).1
      obtain ⟨p, hp⟩ := List.exists_mem_of_ne_nil _ hne
      exact ⟨⟨z.table, z.tags, p.1, p.2⟩, (C87_nothing_invented hs hcap (hn' m hm).1 (hn' m hm).2).2 _
        (List.mem_flatMap.mpr ⟨z, hz, List.mem_map.mpr ⟨p, hp, rfl⟩⟩), rfl⟩
    obtain ⟨r, hr, hrt⟩ := row n hnn x hx
    obtain ⟨r', hr', hrt'⟩ := row n' hnn' y hy
    exact absurd (by rw [hrt, hrt', htags]) (hd r hr r' hr')

/-- The rows that are sent of series that are each sent to one node are different. -/
theorem sentRows_keys {store : Model.Storage.Env α} {name : String} {nodes : List (Node α)} (hn : ∀ n ∈ nodes, Good store (rowsIn n.server.log))
    (hone : OneNodePerSeries name nodes) : ((rowsOfTable name (sentRows nodes)).map key).Nodup := by
  unfold sentRows rowsOfTable
  rw [List.filter_flatMap, List.map_flatMap]
  refine List.pairwise_flatMap.mpr ⟨fun n hnn => (hn n hnn).keys.sublist (List.filter_sublist.map _), ?_⟩
  refine hone.imp fun {n n'} hd x hx y hy hxy => ?_
  obtain ⟨r, hr, rfl⟩ := List.mem_map.mp hx
  obtain ⟨r', hr', rfl⟩ := List.mem_map.mp hy
  have hxy : key r = key r' := hxy
  simp only [key, Prod.mk.injEq] at hxy
  exact hd r hr r' hr' hxy.2.1

/-- **C87** for queries in the cloud for any number of fields: any number of nodes transfer a table to the same data folder, each series is sent to one
node and its rows are sent in the order of their timestamps, and nothing interferes with the transfers. Then every query for stored columns returns the
rows that have been transferred, once. In each row that is returned the values of all fields are those of one row that was sent. Missing: the cases in
C74 and in C26. -/
theorem C87_rows_partial {store : Model.Storage.Env α} (hs : Sorts store) (hcap : 2 ≤ store.capacity) (hmax : store.capacity < 2 ^ 63)
    {name : String} {nodes : List (Node α)} (hn : ∀ n ∈ nodes, CalmlyReached name store n ∧ Good store (rowsIn n.server.log))
    (hin : ∀ n ∈ nodes, InOrder name (rowsIn n.server.log)) (hone : OneNodePerSeries name nodes)
    {cloud : List (Model.Storage.Chunk α)} (hcloud : cloud.Perm (nodes.flatMap transferred))
    {qs : List Column} {bs : List ErrorBound} {gs : List (Option (Generated ε))} {m : Metadata ε}
    (hm : tryNew name qs bs gs = .ok m) (hunique : (qs.map (·.name)).Nodup) (hfree : ∀ tag ∈ tagNamesOf m, FreeName tag)
    {value : α → Nat → Nat} {bound : Nat → ErrorBound} (hbound : ∀ field ∈ m.fieldIndices, m.errorBounds[field]? = some (bound field))
    (hrows : ∀ field ∈ m.fieldIndices, ∀ r ∈ rowsOfTable name (sentRows nodes), WellFormed m.tagIndices.length value field r)
    (hvalues : ∀ field ∈ m.fieldIndices, Compressible (bound field) ((rowsOfTable name (sentRows nodes)).map fun r => value r.val field))
    (log2 : Log2) (hlog : Log2Accurate log2)
    (hscale : ScaledFields bound store.capacity value m.fieldIndices (rowsOfTable name (sentRows nodes))) :
    ∃ (stored : Nat → List StoredSegment) (ingested : List (Model.Storage.Row α)),
      (∀ field ∈ m.fieldIndices, storedSegments log2 m value field cloud = some (stored field)) ∧
      ingested.Perm (nodes.flatMap transferredRows) ∧ ingested.Subperm (rowsOfTable name (sentRows nodes)) ∧
      ((∀ n ∈ nodes, AllTransferred n) → ingested.Perm (nodes.flatMap fun n => rowsOfTable name (inTables n.server))) ∧
      ∀ (env : Env ε) (w : World ε StoredSegment) (lt : List String → List String → Prop), StrictOrder lt →
        ReadsSortedSegments w lt m.fieldIndices stored → ∀ (projection : List Nat) (filters : List Expr),
        FieldsQuery env w m projection filters → ∀ rows : TableRow → String → Value,
        (∀ row, row.tags.length = m.tagIndices.length → ∀ field, RowOf m (row.point field) (rows row)) →
        ReturnsTableRows env w m projection filters value (fun field => ReadBack (bound field)) rows ingested := by
  have hn' : ∀ n ∈ nodes, Reached name store n ∧ Good store (rowsIn n.server.log) := fun n h => ⟨EdgeNode.calmly_reached (hn n h).1, (hn n h).2⟩
  obtain ⟨-, htable, hchunks⟩ := cloud_chunks hs hcap hn' hcloud
  have hsep := cloud_separated hs hcap hn hin hone hcloud
  have hkeys := sentRows_keys (fun n h => (hn n h).2) hone
  have hperm : (cloud.flatMap chunkRows).Perm (nodes.flatMap transferredRows) := by
    have := hcloud.flatMap_right chunkRows
    rw [List.flatMap_assoc] at this
    exact this
  have htwice : rowsOfTable name (rowsOfTable name (sentRows nodes)) = rowsOfTable name (sentRows nodes) := by
    simp [rowsOfTable, List.filter_filter]
  have hsub := cloud_subperm hs hcap hn hcloud
  obtain ⟨stored, back, g1, hvalid, hdisjoint, hread, hback, hkeys', htags⟩ := rows_of_chunks hmax hkeys hsub hchunks hm hbound
    (by rw [htwice]; exact hrows) (by rw [htwice]; exact hvalues) log2 hlog (fun field hf => by
      obtain ⟨a, M, G, T, D, h⟩ := hscale field hf
      exact linear_of_rows (hvalues field hf).valid hsub hchunks (by rw [htwice]; exact hrows field hf) (by rw [htwice]; exact h))
  rw [rowsOfTable_self htable] at hread
  refine ⟨stored, cloud.flatMap chunkRows, g1, hperm, hsub, ?_, ?_⟩
  · intro hall
    exact hperm.trans (List.Perm.flatMap_left _ fun n hnn => (C87_one_place_partial (hn n hnn).1).2 (hall n hnn))
  intro env w lt hlt hreads projection filters hq rows hrowOf
  obtain ⟨plan, hplan, hpf⟩ := hq.plan
  obtain ⟨parquet, grid, hfilters, hfull⟩ := hq.rewritten
  obtain ⟨batches, returned, n₀, a1, a2, a3, a4⟩ := EndToEnd.answer_of_rows hq.order hq.batch hm hunique hfree hq.asked hq.stored hplan hpf
    hfilters hq.forward hfull hlt hreads hvalid (hdisjoint hsep) hback hkeys' htags rows
    fun row hrow f => hrowOf row (htags row hrow) f
  obtain ⟨_, _, hres, _⟩ := planScan_ok hplan
  exact ⟨n₀, plan.result, batches, back, returned, mapM_option_eq_some.mp hres, a1, a2, hread, a3, a4⟩

/-! ### Two nodes -/

/-- Steps of the server of a node. -/
def serverSteps (actions : List (Action α)) : List (NodeAction α) := actions.map fun a => .server a 10 fun _ => 10

/-- The steps of a transfer. -/
def transferSteps : List (NodeAction α) :=
  [.transfer (.report 0), .transfer (.request 0), .transfer (.advance 0 true), .transfer (.advance 0 true), .transfer (.advance 0 true),
    .transfer (.advance 0 true)]

/-- A row is sent and flushed. -/
def sendAndFlush (id : Nat) (r : Model.Storage.Row α) : List (Action α) :=
  [.append "t" id [r], .send 1, .engine .ingestionTake, .engine (.ingestionRow true), .engine .ingestionDone, .engine .flush, .engine .ingestionTake,
    .engine .compressionTake, .engine .compressionDone, .engine .compressionTake, .engine .write, .engine .write]

/-- The server of C79 that is stopped twice transfers its table. -/
def firstSteps : List (NodeAction Nat) :=
  serverSteps (crashing ++ .restart ["t", "u"] 6 48 20 :: recovering.1 ++ .engine .flush :: recovering.2) ++ transferSteps

/-- Another node that transfers its table and has a row that is not transferred. -/
def secondSteps : List (NodeAction Nat) :=
  serverSteps (sendAndFlush 0 ⟨"t", ["c"], 2, 0x3f800000⟩) ++ transferSteps ++ serverSteps (sendAndFlush 1 ⟨"t", ["c"], 3, 0x40000000⟩)

def firstNode : Node Nat := ((Node.new 6 48 20 none).run "t" (smallEnv 4) firstSteps).get (by decide +kernel)

def secondNode : Node Nat := ((Node.new 6 48 20 none).run "t" (smallEnv 4) secondSteps).get (by decide +kernel)

theorem firstNode_reached : CalmlyReached "t" (smallEnv 4) firstNode :=
  ⟨6, 48, 20, none, firstSteps, by
    simp [firstSteps, serverSteps, transferSteps, crashing, recovering, NodeAction.ok, Action.ok, Op.ioOk, rowA, rowB, rowC],
    by decide +kernel, (Option.some_get _).symm⟩

theorem secondNode_reached : CalmlyReached "t" (smallEnv 4) secondNode :=
  ⟨6, 48, 20, none, secondSteps, by simp [secondSteps, serverSteps, transferSteps, sendAndFlush, NodeAction.ok, Action.ok, Op.ioOk],
    by decide +kernel, (Option.some_get _).symm⟩

/-- Everything that the first node has saved is in the cloud, and one of the two rows of the second. -/
example : AllTransferred firstNode ∧ (transferredRows firstNode).Perm [rowA 2 0x3f800000, rowB 1 0x40000000, rowA 3 0xbf800000] ∧
    localRows secondNode = [⟨"t", ["c"], 3, 0x40000000⟩] ∧ transferredRows secondNode = [⟨"t", ["c"], 2, 0x3f800000⟩] := by
  refine ⟨Or.inl (by decide +kernel), by decide +kernel, by decide +kernel, by decide +kernel⟩

theorem nodes_scale : RowsScale .lossless 4 (fun v _ => v) 2 (rowsOfTable "t" (sentRows [firstNode, secondNode])) 1 2 3 3 1 := by
  refine ⟨?_, ?_, ?_, ?_, ?_, ?_, ?_, ?_, ?_⟩
  · unfold FiniteBits; decide +kernel
  · decide +kernel
  · decide +kernel
  · decide +kernel
  · decide +kernel
  · decide +kernel
  · norm_num
  · norm_num
  · exact Or.inl ⟨rfl, by norm_num⟩

/-- The node that was stopped twice has transferred each of the three rows that were acknowledged. -/
example : ∃ crashed requested : Server Nat, Recovered (smallEnv 4) crashed requested firstNode.server ∧ (transferredRows firstNode).Nodup ∧
    (∀ b ∈ requested.acknowledged, b.1 = "t" → ∀ r ∈ b.2.2, r ∈ transferredRows firstNode) ∧ (rowsIn requested.acknowledged).length = 3 := by
  obtain ⟨crashed, requested, s, hrun, h1, h2, h3, hr⟩ := recovered_example
  have hs : s = firstNode.server := by
    apply Option.some.inj
    rw [← h3]
    decide +kernel
  rw [hs] at hr
  have hc : inTables crashed = [] := by
    have : crashedServer.map inTables = some [] := by decide +kernel
    rw [h1] at this
    simpa using this
  have hack : (rowsIn requested.acknowledged).length = 3 := by
    have : requestedServer.map (fun s => (rowsIn s.acknowledged).length) = some 3 := by decide +kernel
    rw [h2] at this
    simpa using this
  obtain ⟨g1, g2⟩ := C87_acknowledged_partial (smallEnv_sorts 4) (by decide) firstNode_reached (Or.inl (by decide +kernel)) (by decide +kernel)
    (actions := crashing) (by simp [crashing, Action.ok, Op.ioOk, rowA, rowB]) hrun hr
  refine ⟨crashed, requested, hr, g1, fun b hb hbt r hrb => ?_, hack⟩
  rcases g2 b hb hbt r hrb with h | ⟨_, r', _, h⟩
  · exact h
  · rw [hc] at h
    cases h

/-- `SELECT v, timestamp, day FROM t WHERE timestamp >= 2` returns in the cloud three of the four rows that the two nodes have transferred. -/
example : ∃ stored ingested, storedSegments exactLog2 dayMetadata (fun v _ => v) 2 (transferred firstNode ++ transferred secondNode) = some stored ∧
    ingested.Perm (transferredRows firstNode ++ transferredRows secondNode) ∧
    ReturnsRows listEnv (storedWorld stored) dayMetadata [2, 0, 1] [.binary (.column "timestamp") .ge (.constant (.time 2))] 2 (fun v _ => v)
      SameFloat dayRow ingested := by
  have hm : tryNew "t" dayMetadata.querySchema [.lossless, .lossless, .lossless] [none, none, none] = .ok dayMetadata := by decide +kernel
  have hrows : ∀ r ∈ rowsOfTable "t" (sentRows [firstNode, secondNode]), WellFormed dayMetadata.tagIndices.length (fun v _ => v) 2 r := by
    have : ∀ r ∈ rowsOfTable "t" (sentRows [firstNode, secondNode]), (r.tags.length = 1 ∧ (-2 ^ 63 ≤ r.ts ∧ r.ts < 2 ^ 63)) ∧
        r.val < 2 ^ 32 ∧ (FVal.ofBits32 r.val).isNan = false := by decide +kernel
    exact fun r hr => ⟨(this r hr).1.1, (this r hr).1.2, (this r hr).2.1, (this r hr).2.2⟩
  have hn : ∀ n ∈ [firstNode, secondNode], Reached "t" (smallEnv 4) n ∧ Good (smallEnv 4) (rowsIn n.server.log) := by
    intro n hn
    simp only [List.mem_cons, List.not_mem_nil, or_false] at hn
    rcases hn with rfl | rfl
    · exact ⟨EdgeNode.calmly_reached firstNode_reached, by decide +kernel⟩
    · exact ⟨EdgeNode.calmly_reached secondNode_reached, by decide +kernel⟩
  obtain ⟨stored, ingested, g1, g2, _, _, g4⟩ := C87_query_partial (smallEnv_sorts 4) (by decide) (by decide) hn
    (cloud := transferred firstNode ++ transferred secondNode) (by simp) hm (by decide) (by decide) (field := 2) (by decide) (eb := .lossless)
    (by decide +kernel) hrows ⟨.inl rfl, by simp, by simp⟩ exactLog2 exactLog2_accurate nodes_scale
  refine ⟨stored, ingested, g1, by simpa using g2, g4 listEnv _ (storedWorld_reads stored 2) _ _ ?_ dayRow fun p hp => dayRow_rowOf p hp⟩
  exact ⟨by simp, by decide, ⟨_, rfl, rfl⟩, ⟨_, _, rfl⟩, by simp [ReversedEquality], fun _ _ => Iff.rfl, show 1 ≤ 8192 by decide⟩

/-! ### Two nodes and two fields -/

/-- The server of C79 that is stopped when rows of a series are saved and others are in memory transfers its table. -/
def pairFirstSteps : List (NodeAction (Nat × Nat)) :=
  serverSteps (pairCrashing ++ .restart ["t"] 100 1000 100 :: pairRecovering.1 ++ .engine .flush :: pairRecovering.2) ++ transferSteps

/-- Another node. -/
def pairSecondSteps : List (NodeAction (Nat × Nat)) := serverSteps (sendAndFlush 0 (pairRow "c" 20 0x3f800000 0x3f800000)) ++ transferSteps

def pairFirst : Node (Nat × Nat) := ((Node.new 100 1000 100 none).run "t" pairEnv pairFirstSteps).get (by decide +kernel)

def pairSecond : Node (Nat × Nat) := ((Node.new 100 1000 100 none).run "t" pairEnv pairSecondSteps).get (by decide +kernel)

theorem pairFirst_reached : CalmlyReached "t" pairEnv pairFirst :=
  ⟨100, 1000, 100, none, pairFirstSteps, by
    simp [pairFirstSteps, serverSteps, transferSteps, pairCrashing, pairRecovering, NodeAction.ok, Action.ok, Op.ioOk, pairRow],
    by decide +kernel, (Option.some_get _).symm⟩

theorem pairSecond_reached : CalmlyReached "t" pairEnv pairSecond :=
  ⟨100, 1000, 100, none, pairSecondSteps, by
    simp [pairSecondSteps, serverSteps, transferSteps, sendAndFlush, NodeAction.ok, Action.ok, Op.ioOk, pairRow],
    by decide +kernel, (Option.some_get _).symm⟩

theorem pairNodes_scale : ScaledFields pairBound pairEnv.capacity pairValue pairMetadata.fieldIndices (rowsOfTable "t" (sentRows [pairFirst, pairSecond])) := by
  intro field hf
  simp only [pairMetadata, List.mem_cons, List.not_mem_nil, or_false] at hf
  rcases hf with rfl | rfl
  · refine ⟨1, 2, 1, 35, 10, ?_, ?_, ?_, ?_, ?_, ?_, ?_, ?_, ?_⟩
    · unfold FiniteBits; decide +kernel
    · decide +kernel
    · decide +kernel
    · decide +kernel
    · decide +kernel
    · decide +kernel
    · norm_num
    · norm_num [pairEnv]
    · exact Or.inl ⟨rfl, by norm_num [pairEnv]⟩
  · refine ⟨1 / 2, 2, 1, 35, 10, ?_, ?_, ?_, ?_, ?_, ?_, ?_, ?_, ?_⟩
    · unfold FiniteBits; decide +kernel
    · decide +kernel
    · decide +kernel
    · decide +kernel
    · decide +kernel
    · decide +kernel
    · norm_num
    · norm_num [pairEnv]
    · refine Or.inr ⟨?_, ?_, ?_⟩
      · intro v _ _
        norm_num [linearSlack, pairEnv, pairBound, margin, allowed]
      · norm_num [pairEnv]
      · norm_num

/-- `SELECT ts, tag, x, y FROM t WHERE ts >= 20` returns in the cloud the three of the five rows that satisfy the filter. -/
example : ∃ (stored : Nat → List StoredSegment) (ingested : List (Model.Storage.Row (Nat × Nat))),
    (∀ field ∈ pairMetadata.fieldIndices,
      storedSegments exactLog2 pairMetadata pairValue field (transferred pairSecond ++ transferred pairFirst) = some (stored field)) ∧
    ingested.Perm (rowsOfTable "t" (inTables pairFirst.server) ++ rowsOfTable "t" (inTables pairSecond.server)) ∧ ingested.length = 5 ∧
    ReturnsTableRows listEnv (pairWorld stored) pairMetadata [0, 1, 2, 3] [.binary (.column "ts") .ge (.constant (.time 20))] pairValue
      (fun field => ReadBack (pairBound field)) pairColumns ingested := by
  have hm : tryNew "t" pairMetadata.querySchema [.lossless, .lossless, .lossless, .absolute (.fin false (1 / 4))] [none, none, none, none] =
    .ok pairMetadata := by decide +kernel
  have hnodes : ∀ {p : Node (Nat × Nat) → Prop}, p pairFirst → p pairSecond → ∀ n ∈ [pairFirst, pairSecond], p n := by
    intro p hp hp' n hn
    simp only [List.mem_cons, List.not_mem_nil, or_false] at hn
    rcases hn with rfl | rfl
    · exact hp
    · exact hp'
  have hfields : ∀ {p : Nat → Prop}, p 2 → p 3 → ∀ field ∈ pairMetadata.fieldIndices, p field := by
    intro p hp hp' field hf
    simp only [pairMetadata, List.mem_cons, List.not_mem_nil, or_false] at hf
    rcases hf with rfl | rfl
    · exact hp
    · exact hp'
  have hrow : ∀ field ∈ pairMetadata.fieldIndices, ∀ r ∈ rowsOfTable "t" (sentRows [pairFirst, pairSecond]),
      (r.tags.length = 1 ∧ (-2 ^ 63 ≤ r.ts ∧ r.ts < 2 ^ 63)) ∧
      pairValue r.val field < 2 ^ 32 ∧ (FVal.ofBits32 (pairValue r.val field)).isNan = false := by decide +kernel
  have hvalues : ∀ v ∈ (rowsOfTable "t" (sentRows [pairFirst, pairSecond])).map fun r => pairValue r.val 3,
      FVal.ofBits32 v = .fin false 1 ∨ FVal.ofBits32 v = .fin false (9227469 / 8388608) ∨ FVal.ofBits32 v = .fin false (7549747 / 8388608) := by
    decide +kernel
  have hone : OneNodePerSeries "t" [pairFirst, pairSecond] := by
    refine List.pairwise_pair.mpr ?_
    decide +kernel
  obtain ⟨stored, ingested, g1, g2, _, g3, g4⟩ := C87_rows_partial pairEnv_sorts (by decide) (by decide)
    (hnodes ⟨pairFirst_reached, by decide +kernel⟩ ⟨pairSecond_reached, by decide +kernel⟩)
    (hnodes (p := fun n => InOrder "t" (rowsIn n.server.log)) (by decide +kernel) (by decide +kernel)) hone
    (cloud := transferred pairSecond ++ transferred pairFirst) (by simpa using List.perm_append_comm) hm (by decide) (by decide)
    (value := pairValue) (bound := pairBound) (by decide +kernel)
    (fun field hf r hr => ⟨(hrow field hf r hr).1.1, (hrow field hf r hr).1.2, (hrow field hf r hr).2.1, (hrow field hf r hr).2.2⟩)
    (hfields ⟨Or.inl rfl, by simp [pairBound], by simp [pairBound]⟩
      ⟨Or.inr ⟨0x3e800000, by decide, Or.inl (by decide +kernel)⟩, by simp [pairBound], fun _ v hv => by
        rcases hvalues v hv with h | h | h <;> rw [h] <;> simp only [pairBound, XorGuard] <;> norm_num⟩)
    exactLog2 exactLog2_accurate pairNodes_scale
  have hall := g3 (hnodes (p := AllTransferred) (Or.inl (by decide +kernel)) (Or.inl (by decide +kernel)))
  refine ⟨stored, ingested, g1, by simpa using hall, by rw [hall.length_eq]; decide +kernel,
    g4 listEnv _ tagsLt tagsLt_order (pairWorld_reads stored _) _ _ ?_ pairColumns fun row hr field => pairColumns_rowOf row hr field⟩
  refine ⟨by simp, by decide, ⟨_, rfl, fun i hi => by simpa [pairMetadata] using hi⟩, ⟨_, _, rfl, fun i _ => ?_⟩, by simp [ReversedEquality], fun _ _ => Iff.rfl,
    show 1 ≤ 8192 by decide⟩
  simp [FullBatches, pairWorld, itemsOf]

/-! ### Rows that are lost and rows that are returned twice -/

/-- A row is flushed while a transfer has read the table and not yet deleted it, and the server is then stopped without warning. -/
def losingSteps : List (NodeAction Nat) :=
  serverSteps (sendAndFlush 0 (rowA 1 7)) ++ [.transfer (.report 0), .transfer (.request 0), .transfer (.advance 0 true)] ++
    serverSteps (sendAndFlush 1 (rowA 2 8)) ++ [.transfer (.advance 0 true), .transfer (.advance 0 true), .transfer (.advance 0 true),
    .transfer (.report 0)] ++ serverSteps [.restart ["t"] 6 48 20]

/-- C87 is false: a row was acknowledged, the flush after it was answered and it is neither in the local data folder nor in the cloud. It is not
replayed after the server is started again as its id is in a commit to the table. -/
theorem C87_row_lost : ∃ n : Node Nat, (Node.new 6 48 20 none).run "t" (smallEnv 4) losingSteps = some n ∧
    rowsIn n.server.acknowledged = [rowA 1 7, rowA 2 8] ∧ inTables n.server = [rowA 1 7, rowA 2 8] ∧ n.server.pending = [] ∧
    n.table.running = [] ∧ localRows n = [] ∧ transferredRows n = [rowA 1 7] :=
  ⟨((Node.new 6 48 20 none).run "t" (smallEnv 4) losingSteps).get (by decide +kernel), (Option.some_get _).symm, by decide +kernel⟩

/-- A node is stopped without warning when a transfer has written the rows to the cloud and not yet deleted them. -/
def doublingSteps : List (NodeAction Nat) :=
  serverSteps (sendAndFlush 0 (rowA 1 7)) ++ [.transfer (.report 0), .transfer (.request 0), .transfer (.advance 0 true), .transfer (.advance 0 true)] ++
    serverSteps [.restart ["t"] 6 48 20] ++ [.transfer (.request 0), .transfer (.advance 0 true), .transfer (.advance 0 true),
    .transfer (.advance 0 true), .transfer (.advance 0 true)]

/-- C87 is false: a row that was sent once is in the cloud twice. -/
theorem C87_row_twice : ∃ n : Node Nat, (Node.new 6 48 20 none).run "t" (smallEnv 4) doublingSteps = some n ∧
    rowsIn n.server.log = [rowA 1 7] ∧ n.table.running = [] ∧ localRows n = [] ∧ transferredRows n = [rowA 1 7, rowA 1 7] :=
  ⟨((Node.new 6 48 20 none).run "t" (smallEnv 4) doublingSteps).get (by decide +kernel), (Option.some_get _).symm, by decide +kernel⟩

end ModelarDB.Props
