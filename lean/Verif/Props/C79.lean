import Verif.Lemmas.RestartsOrder
import Verif.Props.C74
/-
C79: rows are kept when the server is stopped without warning any number of times.
-/
namespace ModelarDB.Props
open Model Model.Query Model.TableDefinition Model.StoredTable Model.Restarts Spec Spec.Storage Spec.Restarts Lemmas

variable {α ε : Type}

/-- **C79**, rows are not stored twice: whatever happens, and however often and whenever the server is stopped without warning and started again,
the tables have no row more often than it was sent, and no other rows. The conditions are those of C22. -/
theorem C79_no_row_twice {store : Model.Storage.Env α} (hs : Sorts store) (hcap : 2 ≤ store.capacity) {i u c : Nat} {actions : List (Action α)}
    (hok : ∀ a ∈ actions, Action.ok a) {s : Server α} (hrun : (Server.new i u c).run store actions = some s) (hg : Good store (rowsIn s.log)) :
    (inTables s).Subperm (rowsIn s.log) :=
  ((Restarts.inv_run hs hcap actions hok (Restarts.inv_new i u c) hrun hg).saved hs hcap hg).1

/-- **C79**, rows are not lost: the server is stopped without warning and started again any number of times. After the last time a flush is
requested when the batches in the write-ahead log have been replayed, and the flush is answered. Then each row that was acknowledged before the
request, in any of the lifetimes of the server, is in its table. Missing: rows of batches of which other rows, but not this one, were in the table
when the server was stopped (`C79_row_lost`). -/
theorem C79_acknowledged_kept_partial {store : Model.Storage.Env α} (hs : Sorts store) (hcap : 2 ≤ store.capacity) {i u c : Nat}
    {actions : List (Action α)} (hok : ∀ a ∈ actions, Action.ok a) {crashed requested s : Server α}
    (hrun : (Server.new i u c).run store actions = some crashed) (hr : Recovered store crashed requested s) (hg : Good store (rowsIn s.log)) :
    ∀ b ∈ requested.acknowledged, ∀ r ∈ b.2.2,
      r ∈ inTables s ∨ (r ∉ inTables crashed ∧ ∃ r' ∈ b.2.2, r' ∈ inTables crashed) := by
  have hgc : Good store (rowsIn crashed.log) := by
    obtain ⟨_, _, _, _, s₁, s₃, _, _, _, r1, r2, _, _, r5, r6, _⟩ := hr
    exact Restarts.good_step r1 (Restarts.good_run r2 (Restarts.good_step r5 (Restarts.good_run r6 hg)))
  have hi := Restarts.inv_run hs hcap actions hok (Restarts.inv_new i u c) hrun hgc
  obtain ⟨i2, _, ⟨l, hl⟩, h1, h2, h3, h4⟩ := Restarts.recovered hs hcap hi hr hg
  have hpending : requested.pending = [] := by
    obtain ⟨_, _, _, _, _, _, _, _, _, _, _, r3, _⟩ := hr
    exact r3
  intro b hb r hrb
  obtain ⟨hlog, hw⟩ := i2.acknowledged b hb
  by_cases hc : Restarts.ident b ∈ requested.commits
  · by_cases hsaved : r ∈ inTables crashed
    · exact Or.inl (h1 r hsaved)
    · refine Or.inr ⟨hsaved, ?_⟩
      obtain ⟨b', hb', he, r', hr', hrs⟩ := i2.diskIds _ hc
      have : b' = b := List.inj_on_of_nodup_map i2.ids hb' hlog he
      subst this
      rw [h4] at hrs
      exact ⟨r', hr', hrs⟩
  · refine Or.inl ?_
    have hlive := i2.all b hlog hc
    simp only [Restarts.live, hpending, List.append_nil, List.mem_append, Option.mem_toList] at hlive
    rcases hlive with hlive | hlive
    · have : r ∈ s.engine.c.saved.flatMap chunkRows := h2.subset (List.mem_flatMap.mpr ⟨b, hlive, hrb⟩)
      unfold inTables Server.allSaved
      rw [List.flatMap_append]
      exact List.mem_append_right _ this
    · exact absurd hlive hw

/-- **C79** for queries: under the same conditions every query for stored columns with at most one field returns the rows that are in the table. It
has each row once, only rows that were sent, and all rows that were acknowledged before the request except those that are missing above. The
values are those that were sent if the field is lossless and within the error bound otherwise. Missing are also the cases in C73. -/
theorem C79_query_partial {store : Model.Storage.Env α} (hs : Sorts store) (hcap : 2 ≤ store.capacity) (hmax : store.capacity < 2 ^ 63)
    {i u c : Nat} {actions : List (Action α)} (hok : ∀ a ∈ actions, Action.ok a) {crashed requested s : Server α}
    (hrun : (Server.new i u c).run store actions = some crashed) (hr : Recovered store crashed requested s) (hg : Good store (rowsIn s.log))
    {name : String} {qs : List Column} {bs : List ErrorBound} {gs : List (Option (Generated ε))} {m : Metadata ε}
    (hm : tryNew name qs bs gs = .ok m) (hunique : (qs.map (·.name)).Nodup) (hfree : ∀ tag ∈ tagNamesOf m, FreeName tag)
    {value : α → Nat → Nat} {field : Nat} (hfield : field ∈ m.fieldIndices) {eb : ErrorBound} (heb : m.errorBounds[field]? = some eb)
    (hrows : ∀ r ∈ rowsOfTable name (rowsIn s.log), WellFormed m.tagIndices.length value field r)
    (hvalues : Compressible eb ((rowsOfTable name (rowsIn s.log)).map fun r => value r.val field))
    (log2 : Log2) (hlog : Log2Accurate log2)
    (hlinear : ∀ x ∈ s.allSaved, x.table = name →
      LinearFaithful (ReadBack eb) eb (x.points.map Prod.fst) (x.points.map fun p => value p.2 field)) :
    ∃ stored ingested, storedSegments log2 m value field s.allSaved = some stored ∧ ingested.Subperm (rowsOfTable name (rowsIn s.log)) ∧
      (∀ b ∈ requested.acknowledged, b.1 = name → ∀ r ∈ b.2.2,
        r ∈ ingested ∨ (r ∉ inTables crashed ∧ ∃ r' ∈ b.2.2, r' ∈ inTables crashed)) ∧
      ∀ (env : Env ε) (w : World ε StoredSegment), ReadsStoredSegments w field stored → ∀ (projection : List Nat) (filters : List Expr),
        OneFieldQuery env w m projection filters field → ∀ rows : Point → String → Value,
        (∀ p, p.tags.length = m.tagIndices.length → RowOf m p (rows p)) →
        ReturnsRows env w m projection filters field value (ReadBack eb) rows ingested := by
  have hname : name = m.name := by obtain ⟨_, _, _, _, _, _, _, h8⟩ := tryNew_ok.mp hm; rw [h8]
  have hgc : Good store (rowsIn crashed.log) := by
    obtain ⟨_, _, _, _, s₁, s₃, _, _, _, r1, r2, _, _, r5, r6, _⟩ := hr
    exact Restarts.good_step r1 (Restarts.good_run r2 (Restarts.good_step r5 (Restarts.good_run r6 hg)))
  have hi := Restarts.inv_run hs hcap actions hok (Restarts.inv_new i u c) hrun hgc
  obtain ⟨i2, hi4, _⟩ := Restarts.recovered hs hcap hi hr hg
  obtain ⟨hsub, hchunks⟩ := hi4.saved hs hcap hg
  have hkept := C79_acknowledged_kept_partial hs hcap hok hrun hr hg
  subst hname
  obtain ⟨stored, g1, g2, g3⟩ := EndToEnd.storedSegments_spec hfield (EndToEnd.saved_stored hmax (fun _ h => hsub.subset h) hchunks heb hrows log2
    (ReadBack eb) (fun ts vs hlen hne hr hinc hsize h32 hnan hv hl => readBack hlog hvalues ts vs hlen hne hr hinc hsize h32 hnan
      (fun v hvs => by obtain ⟨r, hr, rfl⟩ := hv v hvs; exact List.mem_map.mpr ⟨r, hr, rfl⟩) hl) hlinear)
  have g3 : List.Forall₂ (ReadFor value field (ReadBack eb)) (rowsOfTable m.name (inTables s)) (stored.flatMap pointsOf) := g3
  refine ⟨stored, rowsOfTable m.name (inTables s), g1, hsub.filter _, ?_, ?_⟩
  · intro b hb hbn r hrb
    rcases hkept b hb r hrb with h | h
    · refine Or.inl (List.mem_filter.mpr ⟨h, ?_⟩)
      rw [i2.tables b (i2.acknowledged b hb).1 r hrb, hbn]
      simp
    · exact Or.inr h
  intro env w hreads projection filters hq rows hrowOf
  obtain ⟨plan, hplan, hpf⟩ := hq.plan
  obtain ⟨parquet, grid, hfilters⟩ := hq.rewritten
  have htags : ∀ p ∈ stored.flatMap pointsOf, p.tags.length = m.tagIndices.length := by
    intro p hp
    obtain ⟨k, hk, rfl⟩ := List.getElem_of_mem hp
    have hk' : k < (rowsOfTable m.name (inTables s)).length := by rw [g3.length_eq]; exact hk
    have h4 := (List.forall₂_iff_get.mp g3).2 k hk' hk
    have h5 := h4.tags
    simp only [List.get_eq_getElem] at h5
    rw [h5]
    exact (hrows _ ((hsub.filter _).subset (List.getElem_mem hk'))).tags
  obtain ⟨batches, returned, n₀, a1, a2, a3, a4⟩ := EndToEnd.answer_of_stored hq.order hq.batch hm hunique hfree hq.asked hq.stored hplan hpf
    hfilters hq.forward g2 htags hreads rows fun p hp => hrowOf p (htags p hp)
  obtain ⟨_, _, hres, _⟩ := planScan_ok hplan
  exact ⟨n₀, plan.result, batches, stored.flatMap pointsOf, returned, mapM_option_eq_some.mp hres, a1, a2, g3, a3, a4⟩

/-- **C79** for queries for any number of fields: under the same conditions, if the rows of each series of the table were sent in the order of
their timestamps, every query for stored columns returns the rows that are in the table. In each row that is returned the values of all fields
are those of one row that was sent, also if the server was stopped when rows of the series were in memory and rows of it are in segments that
were saved before and after. Missing are the rows that are missing above and the cases in C74. -/
theorem C79_rows_partial {store : Model.Storage.Env α} (hs : Sorts store) (hcap : 2 ≤ store.capacity) (hmax : store.capacity < 2 ^ 63)
    {i u c : Nat} {actions : List (Action α)} (hok : ∀ a ∈ actions, Action.ok a) {crashed requested s : Server α}
    (hrun : (Server.new i u c).run store actions = some crashed) (hr : Recovered store crashed requested s) (hg : Good store (rowsIn s.log))
    {name : String} (hin : InOrder name (rowsIn s.log)) {qs : List Column} {bs : List ErrorBound} {gs : List (Option (Generated ε))}
    {m : Metadata ε} (hm : tryNew name qs bs gs = .ok m) (hunique : (qs.map (·.name)).Nodup) (hfree : ∀ tag ∈ tagNamesOf m, FreeName tag)
    {value : α → Nat → Nat} {bound : Nat → ErrorBound} (hbound : ∀ field ∈ m.fieldIndices, m.errorBounds[field]? = some (bound field))
    (hrows : ∀ field ∈ m.fieldIndices, ∀ r ∈ rowsOfTable name (rowsIn s.log), WellFormed m.tagIndices.length value field r)
    (hvalues : ∀ field ∈ m.fieldIndices, Compressible (bound field) ((rowsOfTable name (rowsIn s.log)).map fun r => value r.val field))
    (log2 : Log2) (hlog : Log2Accurate log2)
    (hlinear : ∀ field ∈ m.fieldIndices, ∀ x ∈ s.allSaved, x.table = name →
      LinearFaithful (ReadBack (bound field)) (bound field) (x.points.map Prod.fst) (x.points.map fun p => value p.2 field)) :
    ∃ (stored : Nat → List StoredSegment) (ingested : List (Model.Storage.Row α)),
      (∀ field ∈ m.fieldIndices, storedSegments log2 m value field s.allSaved = some (stored field)) ∧
      ingested.Subperm (rowsOfTable name (rowsIn s.log)) ∧
      (∀ b ∈ requested.acknowledged, b.1 = name → ∀ r ∈ b.2.2,
        r ∈ ingested ∨ (r ∉ inTables crashed ∧ ∃ r' ∈ b.2.2, r' ∈ inTables crashed)) ∧
      ∀ (env : Env ε) (w : World ε StoredSegment) (lt : List String → List String → Prop), StrictOrder lt →
        ReadsSortedSegments w lt m.fieldIndices stored → ∀ (projection : List Nat) (filters : List Expr),
        FieldsQuery env w m projection filters → ∀ rows : TableRow → String → Value,
        (∀ row, row.tags.length = m.tagIndices.length → ∀ field, RowOf m (row.point field) (rows row)) →
        ReturnsTableRows env w m projection filters value (fun field => ReadBack (bound field)) rows ingested := by
  obtain ⟨more, hrun', hok'⟩ := Restarts.recovered_run hr
  have hgc := Restarts.good_run hrun' hg
  have hi := Restarts.inv_run hs hcap actions hok (Restarts.inv_new i u c) hrun hgc
  have hinc : InOrder name (rowsIn crashed.log) := by
    obtain ⟨l, hl⟩ := Restarts.run_log hrun'
    rw [hl, Restarts.rowsIn_append] at hin
    exact (List.pairwise_append.mp hin).1
  have hq := Restarts.sequence_run hs hcap actions hok (Restarts.inv_new i u c) (Restarts.sequence_new (T := name) i u c) hrun hgc hinc
  have hi4 := Restarts.inv_run hs hcap more hok' hi hrun' hg
  have hsep := hi4.all_separated hs hcap hg (Restarts.sequence_run hs hcap more hok' hi hq hrun' hg hin) hin
  obtain ⟨hsub, hchunks⟩ := hi4.saved hs hcap hg
  have hkept := C79_acknowledged_kept_partial hs hcap hok hrun hr hg
  obtain ⟨i2, _⟩ := Restarts.recovered hs hcap hi hr hg
  obtain ⟨stored, back, g1, hvalid, hdisjoint, hread, hback, hkeys, htags⟩ := rows_of_chunks hmax hg.keys hsub hchunks hm hbound hrows hvalues log2
    hlog hlinear
  refine ⟨stored, rowsOfTable name (inTables s), g1, hsub.filter _, ?_, ?_⟩
  · intro b hb hbn r hrb
    rcases hkept b hb r hrb with h | h
    · refine Or.inl (List.mem_filter.mpr ⟨h, ?_⟩)
      rw [i2.tables b (i2.acknowledged b hb).1 r hrb, hbn]
      simp
    · exact Or.inr h
  intro env w lt hlt hreads projection filters hq rows hrowOf
  obtain ⟨plan, hplan, hpf⟩ := hq.plan
  obtain ⟨parquet, grid, hfilters, hfull⟩ := hq.rewritten
  obtain ⟨batches, returned, n₀, a1, a2, a3, a4⟩ := EndToEnd.answer_of_rows hq.order hq.batch hm hunique hfree hq.asked hq.stored hplan hpf
    hfilters hq.forward hfull hlt hreads hvalid (hdisjoint hsep) hback hkeys htags rows
    fun row hrow f => hrowOf row (htags row hrow) f
  obtain ⟨_, _, hres, _⟩ := planScan_ok hplan
  exact ⟨n₀, plan.result, batches, back, returned, mapM_option_eq_some.mp hres, a1, a2, hread, a3, a4⟩

/-! ### A server that is stopped twice -/

/-- A batch of two rows is acknowledged and one of its rows is inserted into a buffer when the server is stopped, and it is stopped again when the
batch has been replayed. -/
def crashing : List (Action Nat) :=
  [.append "t" 0 [rowA 2 0x3f800000, rowB 1 0x40000000], .send 3, .engine .ingestionTake, .engine (.ingestionRow true),
    .restart ["u", "t"] 6 48 20, .replay 3, .engine .ingestionTake]

/-- What happens after the server is started again: the batch is replayed and a batch of another row is sent before a flush is requested. -/
def recovering : List (Action Nat) × List (Action Nat) :=
  ([.replay 3, .append "t" 1 [rowA 3 0xbf800000], .engine .ingestionTake, .send 1],
    [.append "u" 0 [rowC 1 0], .send 1, .engine (.ingestionRow true), .engine (.ingestionRow true), .engine .ingestionDone,
      .engine .ingestionTake, .engine (.ingestionRow true), .engine .ingestionDone, .engine .ingestionTake, .engine .compressionTake,
      .engine .compressionDone, .engine .compressionTake, .engine .compressionDone, .engine .compressionTake, .engine .write, .engine .write,
      .engine .write])

def crashedServer : Option (Server Nat) := (Server.new 6 48 20).run (smallEnv 4) crashing

def requestedServer : Option (Server Nat) :=
  crashedServer.bind fun s => (s.step (smallEnv 4) (.restart ["t", "u"] 6 48 20)).bind fun s => s.run (smallEnv 4) recovering.1

def recoveredServer : Option (Server Nat) :=
  requestedServer.bind fun s => (s.step (smallEnv 4) (.engine .flush)).bind fun s => s.run (smallEnv 4) recovering.2

/-- The states above are reached. -/
theorem recovered_example : ∃ crashed requested s : Server Nat, (Server.new 6 48 20).run (smallEnv 4) crashing = some crashed ∧
    crashedServer = some crashed ∧ requestedServer = some requested ∧ recoveredServer = some s ∧ Recovered (smallEnv 4) crashed requested s := by
  let crashed := crashedServer.get (by decide +kernel)
  let s₁ := (crashed.step (smallEnv 4) (.restart ["t", "u"] 6 48 20)).get (by decide +kernel)
  let requested := requestedServer.get (by decide +kernel)
  let s₃ := (requested.step (smallEnv 4) (.engine .flush)).get (by decide +kernel)
  let s := recoveredServer.get (by decide +kernel)
  refine ⟨crashed, requested, s, by decide +kernel, by decide +kernel, by decide +kernel, by decide +kernel, ["t", "u"], 6, 48, 20, s₁, s₃, recovering.1,
    recovering.2, .engine .flush, by decide +kernel, by decide +kernel, by decide +kernel, rfl, by decide +kernel, by decide +kernel, ?_, by decide +kernel⟩
  simp [recovering, Action.ok, Action.isRestart, Op.ioOk, rowA, rowC]

/-- `SELECT v, timestamp, day FROM t WHERE timestamp >= 2` returns two of the three rows that were acknowledged, although the server was stopped
twice. -/
example : ∃ (crashed requested s : Server Nat) (stored : List StoredSegment), Recovered (smallEnv 4) crashed requested s ∧
    storedSegments exactLog2 dayMetadata (fun v _ => v) 2 s.allSaved = some stored ∧
    (∃ ingested, ingested.Subperm (rowsOfTable "t" (rowsIn s.log)) ∧ (∀ r ∈ rowsIn requested.acknowledged, r ∈ ingested) ∧
      ReturnsRows listEnv (storedWorld stored) dayMetadata [2, 0, 1] [.binary (.column "timestamp") .ge (.constant (.time 2))] 2 (fun v _ => v)
        SameFloat dayRow ingested) ∧
    rowsIn requested.acknowledged = [rowA 2 0x3f800000, rowB 1 0x40000000, rowA 3 0xbf800000] := by
  obtain ⟨crashed, requested, s, hrun, h1, h2, h3, hr⟩ := recovered_example
  have hc : inTables crashed = [] := by
    have : crashedServer.map inTables = some [] := by decide +kernel
    rw [h1] at this
    simpa using this
  have hack : requested.acknowledged = [("t", 0, [rowA 2 0x3f800000, rowB 1 0x40000000]), ("t", 1, [rowA 3 0xbf800000])] := by
    have : requestedServer.map (·.acknowledged) = some [("t", 0, [rowA 2 0x3f800000, rowB 1 0x40000000]), ("t", 1, [rowA 3 0xbf800000])] := by
      decide +kernel
    rw [h2] at this
    simpa using this
  have hs : s = recoveredServer.get (by decide +kernel) := by
    apply Option.some.inj
    rw [← h3, Option.some_get]
  have hm : tryNew "t" dayMetadata.querySchema [.lossless, .lossless, .lossless] [none, none, none] = .ok dayMetadata := by decide +kernel
  have hg : Good (smallEnv 4) (rowsIn s.log) := by rw [hs]; decide +kernel
  have hlinear : ∀ x ∈ s.allSaved, x.table = "t" → LinearFaithful SameFloat .lossless (x.points.map Prod.fst) (x.points.map fun p => p.2) := by
    have : ∀ x ∈ s.allSaved, linearFaithfulCheck SameFloat .lossless (x.points.map Prod.fst) (x.points.map fun p => p.2) = true := by
      rw [hs]
      decide +kernel
    exact fun x hx _ => linearFaithful_of_check (this x hx)
  have hrows : ∀ r ∈ rowsOfTable "t" (rowsIn s.log), WellFormed dayMetadata.tagIndices.length (fun v _ => v) 2 r := by
    have : ∀ r ∈ rowsOfTable "t" (rowsIn s.log), (r.tags.length = 1 ∧ (-2 ^ 63 ≤ r.ts ∧ r.ts < 2 ^ 63)) ∧
        r.val < 2 ^ 32 ∧ (FVal.ofBits32 r.val).isNan = false := by rw [hs]; decide +kernel
    exact fun r hr => ⟨(this r hr).1.1, (this r hr).1.2, (this r hr).2.1, (this r hr).2.2⟩
  obtain ⟨stored, ingested, g1, g2, g3, g4⟩ := C79_query_partial (smallEnv_sorts 4) (by decide) (by decide) (actions := crashing)
    (by simp [crashing, Action.ok, Op.ioOk, rowA, rowB]) hrun hr hg hm (by decide) (by decide) (field := 2) (by decide) (eb := .lossless)
    (by decide +kernel) hrows ⟨.inl rfl, by simp, by simp⟩ exactLog2 exactLog2_accurate hlinear
  refine ⟨crashed, requested, s, stored, hr, g1, ⟨ingested, g2, ?_, g4 listEnv _ (storedWorld_reads stored 2) _ _ ?_ dayRow
    fun p hp => dayRow_rowOf p hp⟩, by rw [hack]; rfl⟩
  · intro r hr
    obtain ⟨b, hb, hrb⟩ := List.mem_flatMap.mp hr
    have hbt : b.1 = "t" := by
      rw [hack] at hb
      rcases List.mem_cons.mp hb with rfl | hb
      · rfl
      · rw [List.mem_singleton] at hb
        subst hb
        rfl
    rcases g3 b hb hbt r hrb with h | ⟨_, r', _, h⟩
    · exact h
    · rw [hc] at h
      cases h
  · exact ⟨by simp, by decide, ⟨_, rfl, rfl⟩, ⟨_, _, rfl⟩, by simp [ReversedEquality], fun _ _ => Iff.rfl,
      show 1 ≤ 8192 by decide⟩

/-! ### A server that is stopped when rows of a series are saved and others are in memory -/

/-- A batch is saved, another is in the buffers and in the channel when the server is stopped. -/
def pairCrashing : List (Action (Nat × Nat)) :=
  [.append "t" 0 [pairRow "b" 10 0x40000000 0x3f800000, pairRow "a" 10 0x3f800000 0x3f800000], .send 2, .engine .ingestionTake,
    .engine (.ingestionRow true), .engine (.ingestionRow true), .engine .ingestionDone, .engine .flush, .engine .ingestionTake,
    .engine .compressionTake, .engine .compressionDone, .engine .compressionTake, .engine .compressionDone, .engine .compressionTake,
    .engine .write, .engine .write, .engine .write,
    .append "t" 1 [pairRow "a" 20 0xbf800000 0x3f8ccccd, pairRow "a" 35 0x40000000 0x3f666666], .send 2, .engine .ingestionTake,
    .engine (.ingestionRow true)]

/-- What happens after the server is started again. -/
def pairRecovering : List (Action (Nat × Nat)) × List (Action (Nat × Nat)) :=
  ([.replay 2],
    [.engine .ingestionTake, .engine (.ingestionRow true), .engine (.ingestionRow true), .engine .ingestionDone, .engine .ingestionTake,
      .engine .compressionTake, .engine .compressionDone, .engine .compressionTake, .engine .write, .engine .write])

/-- `SELECT ts, tag, x, y FROM t WHERE ts >= 20` returns the two of the four rows of the table that satisfy the filter. -/
example : ∃ (crashed requested s : Server (Nat × Nat)) (stored : Nat → List StoredSegment), Recovered pairEnv crashed requested s ∧
    (∀ field ∈ pairMetadata.fieldIndices, storedSegments exactLog2 pairMetadata pairValue field s.allSaved = some (stored field)) ∧
    (∃ ingested, ingested.Subperm (rowsOfTable "t" (rowsIn s.log)) ∧ (∀ b ∈ requested.acknowledged, b.1 = "t" → ∀ r ∈ b.2.2, r ∈ ingested) ∧
      ReturnsTableRows listEnv (pairWorld stored) pairMetadata [0, 1, 2, 3] [.binary (.column "ts") .ge (.constant (.time 20))] pairValue
        (fun field => ReadBack (pairBound field)) pairColumns ingested) ∧
    (rowsIn requested.acknowledged).length = 4 ∧ (inTables crashed).length = 2 ∧ s.allSaved.length = 3 := by
  let crashed := ((Server.new 100 1000 100).run pairEnv pairCrashing).get (by decide +kernel)
  let s₁ := (crashed.step pairEnv (.restart ["t"] 100 1000 100)).get (by decide +kernel)
  let requested := (s₁.run pairEnv pairRecovering.1).get (by decide +kernel)
  let s₃ := (requested.step pairEnv (.engine .flush)).get (by decide +kernel)
  let s := (s₃.run pairEnv pairRecovering.2).get (by decide +kernel)
  have hr : Recovered pairEnv crashed requested s := by
    refine ⟨["t"], 100, 1000, 100, s₁, s₃, pairRecovering.1, pairRecovering.2, .engine .flush, by decide +kernel, by decide +kernel,
      by decide +kernel, rfl, by decide +kernel, by decide +kernel, ?_, by decide +kernel⟩
    simp [pairRecovering, Action.ok, Action.isRestart, Op.ioOk]
  have hm : tryNew "t" pairMetadata.querySchema [.lossless, .lossless, .lossless, .absolute (.fin false (1 / 4))] [none, none, none, none] =
    .ok pairMetadata := by decide +kernel
  have hfields : ∀ {p : Nat → Prop}, p 2 → p 3 → ∀ field ∈ pairMetadata.fieldIndices, p field := by
    intro p hp hp' field hf
    simp only [pairMetadata, List.mem_cons, List.not_mem_nil, or_false] at hf
    rcases hf with rfl | rfl
    · exact hp
    · exact hp'
  have hrow : ∀ field ∈ pairMetadata.fieldIndices, ∀ r ∈ rowsOfTable "t" (rowsIn s.log), (r.tags.length = 1 ∧ (-2 ^ 63 ≤ r.ts ∧ r.ts < 2 ^ 63)) ∧
      pairValue r.val field < 2 ^ 32 ∧ (FVal.ofBits32 (pairValue r.val field)).isNan = false := by decide +kernel
  have hnone : ∀ field ∈ pairMetadata.fieldIndices, ∀ x ∈ s.allSaved, ∀ i < (x.points.map Prod.fst).length,
      (fitNextModel i (pairBound field) (x.points.map Prod.fst) (x.points.map fun p => pairValue p.2 field)).bytesPerValue.le (.fin false 4) =
        true → (fitNextModel i (pairBound field) (x.points.map Prod.fst) (x.points.map fun p => pairValue p.2 field)).modelType ≠ .swing := by
    decide +kernel
  have hvalues : ∀ v ∈ (rowsOfTable "t" (rowsIn s.log)).map fun r => pairValue r.val 3,
      FVal.ofBits32 v = .fin false 1 ∨ FVal.ofBits32 v = .fin false (9227469 / 8388608) ∨ FVal.ofBits32 v = .fin false (7549747 / 8388608) := by
    decide +kernel
  obtain ⟨stored, ingested, g1, g2, g3, g4⟩ := C79_rows_partial pairEnv_sorts (by decide) (by decide) (i := 100) (u := 1000) (c := 100) (actions := pairCrashing)
    (by simp [pairCrashing, Action.ok, Op.ioOk, pairRow]) (crashed := crashed) (by decide +kernel) hr (by decide +kernel) (name := "t")
    (by decide +kernel) hm (by decide) (by decide)
    (value := pairValue) (bound := pairBound) (by decide +kernel)
    (fun field hf r hr => ⟨(hrow field hf r hr).1.1, (hrow field hf r hr).1.2, (hrow field hf r hr).2.1, (hrow field hf r hr).2.2⟩)
    (hfields ⟨Or.inl rfl, by simp [pairBound], by simp [pairBound]⟩
      ⟨Or.inr ⟨0x3e800000, by decide, Or.inl (by decide +kernel)⟩, by simp [pairBound], fun _ v hv => by
        rcases hvalues v hv with h | h | h <;> rw [h] <;> simp only [pairBound, XorGuard] <;> norm_num⟩)
    exactLog2 exactLog2_accurate (fun field hf x hx _ => linearFaithful_of_none (hnone field hf x hx))
  refine ⟨crashed, requested, s, stored, hr, g1, ⟨ingested, g2, ?_, g4 listEnv _ tagsLt tagsLt_order (pairWorld_reads stored _) _ _ ?_ pairColumns
    fun row hr field => pairColumns_rowOf row hr field⟩, by decide +kernel, by decide +kernel, by decide +kernel⟩
  · have hall : ∀ b ∈ requested.acknowledged, ∀ r ∈ b.2.2, r ∈ inTables crashed ∨ ∀ r' ∈ b.2.2, r' ∉ inTables crashed := by decide +kernel
    intro b hb hbt r hrb
    rcases g3 b hb hbt r hrb with h | ⟨h1, r', h2, h3⟩
    · exact h
    · rcases hall b hb r hrb with h | h
      · exact absurd h h1
      · exact absurd h3 (h r' h2)
  · refine ⟨by simp, by decide, ⟨_, rfl, fun i hi => by simpa [pairMetadata] using hi⟩, ⟨_, _, rfl, fun i _ => ?_⟩, by simp [ReversedEquality], fun _ _ => Iff.rfl,
      show 1 ≤ 8192 by decide⟩
    simp [FullBatches, pairWorld, itemsOf]

/-! ### A row that is lost -/

/-- A batch has rows of two series. One series fills a buffer, which is compressed and saved, and the server is stopped. -/
def losing : List (Action Nat) :=
  [.append "t" 0 [rowA 1 7, rowA 2 7, rowB 1 8], .send 2, .engine .ingestionTake, .engine (.ingestionRow true), .engine (.ingestionRow true),
    .engine (.ingestionRow true), .engine .ingestionDone, .engine .compressionTake, .engine .compressionDone, .engine .write,
    .append "t" 1 [rowA 3 7, rowA 4 7], .send 2, .engine .ingestionTake, .engine (.ingestionRow true), .engine (.ingestionRow true),
    .engine .compressionTake, .engine .compressionDone, .engine .write]

/-- The flush. There is nothing to be replayed. -/
def losingFlush : List (Action Nat) :=
  [.engine .ingestionTake, .engine .compressionTake, .engine .write]

/-- C79 is false: the row (b, 1) was acknowledged and is not in the table after the server was started again, replayed the write-ahead log and
answered a flush. The row (a, 1) of the same batch is in the table. -/
theorem C79_row_lost : ∃ crashed requested s : Server Nat, (Server.new 100 1000 3).run (smallEnv 2) losing = some crashed ∧
    Recovered (smallEnv 2) crashed requested s ∧ Good (smallEnv 2) (rowsIn s.log) ∧
    ("t", 0, [rowA 1 7, rowA 2 7, rowB 1 8]) ∈ requested.acknowledged ∧ rowA 1 7 ∈ inTables s ∧ rowB 1 8 ∉ inTables s := by
  let crashed := ((Server.new 100 1000 3).run (smallEnv 2) losing).get (by decide +kernel)
  let s₁ := (crashed.step (smallEnv 2) (.restart ["t"] 100 1000 3)).get (by decide +kernel)
  let s₃ := (s₁.step (smallEnv 2) (.engine .flush)).get (by decide +kernel)
  let s := (s₃.run (smallEnv 2) losingFlush).get (by decide +kernel)
  refine ⟨crashed, s₁, s, by decide +kernel, ⟨["t"], 100, 1000, 3, s₁, s₃, [], losingFlush, .engine .flush, by decide +kernel, by decide +kernel,
    by decide +kernel, rfl, by decide +kernel, by decide +kernel, ?_, by decide +kernel⟩, by decide +kernel, by decide +kernel, by decide +kernel,
    by decide +kernel⟩
  simp [losingFlush, Action.ok, Action.isRestart, Op.ioOk]

end ModelarDB.Props
