import Verif.Props.ScaledRows
/-
C86: the number of rows without conditions on the values, and the aggregates after the server was stopped without warning.
-/
namespace ModelarDB.Props
open Model Model.Aggregates Model.TableDefinition Model.StoredTable Model.Restarts Spec Spec.Storage Spec.Restarts Lemmas Lemmas.StoredRows

variable {α ε : Type}

/-- The number of points of a segment as it is computed for COUNT, and the timestamps it stores. -/
def HasLength (s : Segment) (part : List Int) : Prop := segmentLen s.startTime s.endTime s.timestamps = some part.length

/-- The segments of a series have as many points as the series, whatever its values are. -/
theorem compress_lengths (log2 : Log2) (eb : ErrorBound) (ts : List Int) (vs : List Nat) (hlen : ts.length = vs.length) (hne : ts ≠ [])
    (hrange : ∀ t ∈ ts, IsI64 t) (hinc : StrictlyIncreasing ts) (hsize : ts.length < 2 ^ 63) :
    ∃ segments parts, tryCompressUnivariate log2 eb ts vs = .segments segments ∧ parts.flatten = ts ∧ List.Forall₂ HasLength segments parts := by
  obtain ⟨segments, h1, h2⟩ := tryCompressWith_chain (log2 := log2) (eb := eb) (goodFit_fitNextModel eb ts vs hlen) hne hlen
  obtain ⟨parts, h3, h4⟩ := chain_parts HasLength (fun s a b hp => by
    have ht := piece_times (goodFit_fitNextModel eb ts vs hlen) hp
    refine ⟨ht.le, ?_⟩
    unfold HasLength
    rw [ht.start, ht.stop, ht.bytes]
    exact (slice_timestamps hrange hinc hsize ht.le ht.lt).2) h2 rfl
  exact ⟨segments, parts, h1, by simpa using h3, h4⟩

/-- The lengths of segments, zero if there is none. -/
def lengthOf (s : Segment) : Nat := (segmentLen s.startTime s.endTime s.timestamps).getD 0

theorem lengths_of_parts {segments : List Segment} {parts : List (List Int)} (h : List.Forall₂ HasLength segments parts) :
    (∀ s ∈ segments, segmentLen s.startTime s.endTime s.timestamps = some (lengthOf s)) ∧ (segments.map lengthOf).sum = parts.flatten.length := by
  induction h with
  | nil => simp
  | cons h1 _ ih =>
    rename_i s part _ _ _
    have h2 : lengthOf s = part.length := by unfold lengthOf; rw [h1]; rfl
    refine ⟨fun s hs => ?_, ?_⟩
    · rcases List.mem_cons.mp hs with rfl | hs
      · rw [h2]; exact h1
      · exact ih.1 s hs
    · rw [List.map_cons, List.sum_cons, ih.2, h2, List.flatten_cons, List.length_append]

theorem countState_lengths (l : List Segment) (hl : ∀ s ∈ l, segmentLen s.startTime s.endTime s.timestamps = some (lengthOf s))
    (count : Nat) (hsize : count + (l.map lengthOf).sum < 2 ^ 63) : countState count l = some ((count + (l.map lengthOf).sum : Nat) : Int) := by
  induction l generalizing count with
  | nil => simp [countState]
  | cons s l ih =>
    rw [List.map_cons, List.sum_cons] at hsize ⊢
    rw [countState, hl s (by simp)]
    dsimp only
    rw [wrapI64_of_range (x := (lengthOf s : Int)) (by unfold IsI64; omega), wrapI64_of_range (by unfold IsI64; omega)]
    have := ih (fun x hx => hl x (by simp [hx])) (count + lengthOf s) (by omega)
    rw [Nat.cast_add] at this
    rw [this]
    congr 2
    omega

/-- COUNT of segments in any number of partitions is the sum of their lengths. -/
theorem count_lengths (partitions : List (List Segment))
    (hl : ∀ s ∈ partitions.flatten, segmentLen s.startTime s.endTime s.timestamps = some (lengthOf s))
    (hsize : (partitions.flatten.map lengthOf).sum < 2 ^ 63) :
    execute .count partitions = some (.int (partitions.flatten.map lengthOf).sum) := by
  have hsum : (partitions.map fun p => (p.map lengthOf).sum).sum = (partitions.flatten.map lengthOf).sum := by
    clear hl hsize
    induction partitions with
    | nil => rfl
    | cons p l ih => simp [ih]
  rw [← hsum] at hsize
  have hstate : ∀ p ∈ partitions, countState 0 p = some (((p.map lengthOf).sum : Nat) : Int) := by
    intro p hp
    have hle : (p.map lengthOf).sum ≤ (partitions.map fun p => (p.map lengthOf).sum).sum :=
      List.le_sum_of_mem (List.mem_map.mpr ⟨p, hp, rfl⟩)
    have := countState_lengths p (fun s hs => hl s (List.mem_flatten_of_mem hp hs)) 0 (by omega)
    simpa using this
  rw [execute, mapAll_some hstate]
  have := foldl_count (fun p => (p.map lengthOf).sum) partitions 0 (by omega)
  rw [show ((0 : Nat) : Int) = 0 from rfl] at this
  dsimp only
  rw [this, hsum, Nat.zero_add]

/-- What is stored of rows with any values: as many points as rows. -/
theorem stored_lengths (log2 : Log2) {m : Metadata ε} {value : α → Nat → Nat} {field : Nat} {eb : ErrorBound}
    (heb : m.errorBounds[field]? = some eb) {chunks : List (Model.Storage.Chunk α)} {n : Nat} (hn : n < 2 ^ 63)
    (h : ∀ x ∈ chunks, x.points ≠ [] ∧ x.points.length ≤ n ∧ StrictlyIncreasing (x.points.map Prod.fst) ∧ ∀ p ∈ x.points, IsI64 p.1) :
    ∃ segments, chunks.mapM (compressField log2 m value field) = some segments ∧
      (∀ s ∈ segments.flatten.map Prod.snd, segmentLen s.startTime s.endTime s.timestamps = some (lengthOf s)) ∧
      ((segments.flatten.map Prod.snd).map lengthOf).sum = (chunks.flatMap chunkRows).length := by
  induction chunks with
  | nil => exact ⟨[], rfl, by simp, rfl⟩
  | cons x chunks ih =>
    obtain ⟨segments, h1, h2, h3⟩ := ih fun y hy => h y (List.mem_cons_of_mem _ hy)
    obtain ⟨w1, w2, w3, w4⟩ := h x (by simp)
    obtain ⟨l, parts, h4, h5, h6⟩ := compress_lengths log2 eb (x.points.map Prod.fst) (x.points.map fun p => value p.2 field) (by simp) (by simpa using w1)
      (fun t ht => by obtain ⟨p, hp, rfl⟩ := List.mem_map.mp ht; exact w4 p hp) w3 (by simp only [List.length_map]; omega)
    obtain ⟨h7, h8⟩ := lengths_of_parts h6
    have hmap : (l.map fun s => (x.tags, s)).map Prod.snd = l := by simp
    refine ⟨(l.map fun s => (x.tags, s)) :: segments, ?_, ?_, ?_⟩
    · rw [List.mapM_cons, h1, show compressField log2 m value field x = some (l.map fun s => (x.tags, s)) by
        unfold compressField
        rw [heb]
        simp only [h4]]
      rfl
    · intro s hs
      rw [List.flatten_cons, List.map_append, hmap, List.mem_append] at hs
      exact hs.elim (h7 s) (h2 s)
    · rw [List.flatten_cons, List.map_append, hmap, List.map_append, List.sum_append, h3, h8, h5, List.flatMap_cons, List.length_append]
      simp [chunkRows, rowsOf]

/-- COUNT for the chunks that are saved. -/
theorem count_saved (log2 : Log2) {md : Metadata ε} {value : α → Nat → Nat} {field : Nat} (hfield : field ∈ md.fieldIndices) {eb : ErrorBound}
    (heb : md.errorBounds[field]? = some eb) {n : Nat} (hn : n < 2 ^ 63) {saved : List (Model.Storage.Chunk α)} {received : List (Model.Storage.Row α)}
    (hsub : (saved.flatMap chunkRows).Subperm received)
    (hchunks : ∀ x ∈ saved, x.points ≠ [] ∧ x.points.length ≤ n ∧ StrictlyIncreasing (x.points.map Prod.fst))
    (htime : ∀ r ∈ rowsOfTable md.name received, IsI64 r.ts) (hcount : (rowsOfTable md.name received).length < 2 ^ 63) :
    ∃ stored, storedSegments log2 md value field saved = some stored ∧ ∀ partitions, partitions.flatten.Perm (stored.map Prod.snd) →
      execute .count partitions = some (.int (rowsOfTable md.name (saved.flatMap chunkRows)).length) := by
  have hall : (rowsOfTable md.name (saved.flatMap chunkRows)).Subperm (rowsOfTable md.name received) := hsub.filter _
  have hmem : ∀ x ∈ saved, x.table = md.name → ∀ r ∈ chunkRows x, r ∈ rowsOfTable md.name received := by
    intro x hx ht r hr
    refine List.mem_filter.mpr ⟨hsub.subset (List.mem_flatMap.mpr ⟨x, hx, hr⟩), ?_⟩
    obtain ⟨p, _, rfl⟩ := List.mem_map.mp hr
    simpa using ht
  obtain ⟨segments, h1, h2, h3⟩ := stored_lengths log2 (value := value) heb hn (chunks := saved.filter fun c => c.table = md.name) fun x hx => by
    obtain ⟨hx, ht⟩ := List.mem_filter.mp hx
    obtain ⟨a, b, c⟩ := hchunks x hx
    exact ⟨a, b, c, fun p hp => htime _ (hmem x hx (by simpa using ht) _ (List.mem_map.mpr ⟨p, hp, rfl⟩))⟩
  have hrows : ((saved.filter fun c => c.table = md.name).flatMap chunkRows).length = (rowsOfTable md.name (saved.flatMap chunkRows)).length := by
    have h4 := congrArg List.length (values_of_chunks value field md.name saved)
    simp only [ingestedValues, valuesOfRows, List.length_map] at h4
    rw [← h4, List.length_flatMap, List.length_flatMap, List.map_map]
    congr 1
    refine List.map_congr_left fun x _ => ?_
    simp [seriesOf, chunkRows, rowsOf]
  refine ⟨segments.flatten, ?_, fun partitions hp => ?_⟩
  · unfold storedSegments
    rw [if_pos hfield, h1]
    rfl
  · have hsum : (partitions.flatten.map lengthOf).sum = (rowsOfTable md.name (saved.flatMap chunkRows)).length := by
      rw [(hp.map lengthOf).sum_eq, h3, hrows]
    rw [count_lengths partitions (fun s hs => h2 s (hp.subset hs)) (by rw [hsum]; exact lt_of_le_of_lt hall.length_le hcount), hsum]

/-- **C86** for COUNT, without conditions on the values and the error bound: the values can be NaN, infinite or anything else. COUNT is the number of
rows of a selection of the rows that were received that has all rows that were received before the flush was requested. The conditions are those of C22:
no two series with the same hash, no repeated timestamps and I/O that does not fail. -/
theorem C86_count {store : Model.Storage.Env α} (hs : Sorts store) (hcap : 2 ≤ store.capacity) (hmax : store.capacity < 2 ^ 63)
    {i u c : Nat} {before after : List (Model.Storage.Op α)} {request : Model.Storage.Op α} (hreq : Op.isRequest request)
    (hio : ∀ op ∈ before ++ after, Op.ioOk op) {e₁ e₂ e : Model.Storage.Engine α} (h1 : (Storage.Engine.new i u c).run store before = some e₁)
    (h2 : e₁.step store request = some e₂) (h3 : e₂.run store after = some e)
    (hanswered : before.countP Op.isRequest < e.results.length) (hg : Good store e.received)
    {md : Metadata ε} (value : α → Nat → Nat) {field : Nat} (hfield : field ∈ md.fieldIndices) {eb : ErrorBound}
    (heb : md.errorBounds[field]? = some eb) (htime : ∀ r ∈ rowsOfTable md.name e.received, IsI64 r.ts) (log2 : Log2)
    (hcount : (rowsOfTable md.name e.received).length < 2 ^ 63) :
    ∃ stored ingested, storedSegments log2 md value field e.c.saved = some stored ∧
      (rowsOfTable md.name e₁.received).Subperm ingested ∧ ingested.Subperm (rowsOfTable md.name e.received) ∧
      ∀ partitions, partitions.flatten.Perm (stored.map Prod.snd) → execute .count partitions = some (.int ingested.length) := by
  obtain ⟨hrun, hio'⟩ := EndToEnd.run_request hreq hio h1 h2 h3
  obtain ⟨hsub, hchunks⟩ := EndToEnd.saved_spec hs hcap hio' hrun hg
  have hall := C23_flush_saves_everything_partial hs hcap hreq hio h1 h2 h3 hanswered hg
  obtain ⟨stored, k1, k2⟩ := count_saved log2 (value := value) hfield heb hmax hsub hchunks htime hcount
  exact ⟨stored, rowsOfTable md.name (savedRows e), k1, hall.filter _, hsub.filter _, k2⟩

/-- **C86** for COUNT, MIN and MAX after the server was stopped without warning and started again any number of times (C79): COUNT is the number of the
rows in the table, whatever their values, and MIN and MAX are those of their values up to the error bound if the rows that were sent have a scale. The
rows in the table are those of C79: rows that were sent, none twice, and all rows that were acknowledged except those of `C79_row_lost`. Missing: rows
without a scale, and SUM and AVG: a row that is lost leaves a gap in a series and SUM is wrong for series that are not regular (`C84_sum_wrong`). -/
theorem C86_restarts_partial {store : Model.Storage.Env α} (hs : Sorts store) (hcap : 2 ≤ store.capacity) (hmax : store.capacity < 2 ^ 63)
    {i u c : Nat} {actions : List (Action α)} (hok : ∀ a ∈ actions, Action.ok a) {crashed requested s : Server α}
    (hrun : (Server.new i u c).run store actions = some crashed) (hr : Recovered store crashed requested s) (hg : Good store (rowsIn s.log))
    {md : Metadata ε} {value : α → Nat → Nat} {field : Nat} (hfield : field ∈ md.fieldIndices) {eb : ErrorBound}
    (heb : md.errorBounds[field]? = some eb) (htime : ∀ r ∈ rowsOfTable md.name (rowsIn s.log), IsI64 r.ts) (log2 : Log2)
    (hcount : (rowsOfTable md.name (rowsIn s.log)).length < 2 ^ 63) :
    ∃ stored ingested, storedSegments log2 md value field s.allSaved = some stored ∧ ingested.Subperm (rowsOfTable md.name (rowsIn s.log)) ∧
      (∀ b ∈ requested.acknowledged, b.1 = md.name → ∀ r ∈ b.2.2,
        r ∈ ingested ∨ (r ∉ inTables crashed ∧ ∃ r' ∈ b.2.2, r' ∈ inTables crashed)) ∧
      ∀ partitions, partitions.flatten.Perm (stored.map Prod.snd) → execute .count partitions = some (.int ingested.length) ∧
        (ingested ≠ [] → ProvedBound eb → Log2Accurate log2 →
          (∀ r ∈ rowsOfTable md.name (rowsIn s.log), WellFormed md.tagIndices.length value field r) →
          (∀ r ∈ rowsOfTable md.name (rowsIn s.log), XorGuard eb (FVal.ofBits32 (value r.val field))) →
          ∀ m M G T D, RowsScale eb store.capacity value field (rowsOfTable md.name (rowsIn s.log)) m M G T D →
          ∀ f, (f = .min ∨ f = .max) →
            ∃ r, execute f partitions = some r ∧ AggregateDeviates eb (rowsError M T D) 0 f (valuesOfRows value field ingested) r) := by
  obtain ⟨more, hrun', hok'⟩ := Restarts.recovered_run hr
  have hi := Restarts.inv_run hs hcap actions hok (Restarts.inv_new i u c) hrun (Restarts.good_run hrun' hg)
  obtain ⟨i2, hi4, _⟩ := Restarts.recovered hs hcap hi hr hg
  obtain ⟨hsub, hchunks⟩ := hi4.saved hs hcap hg
  have hkept := C79_acknowledged_kept_partial hs hcap hok hrun hr hg
  obtain ⟨stored, k1, k2⟩ := count_saved log2 (value := value) hfield heb hmax hsub hchunks htime hcount
  refine ⟨stored, rowsOfTable md.name (inTables s), k1, hsub.filter _, ?_, fun partitions hp => ⟨k2 partitions hp, ?_⟩⟩
  · intro b hb hbn r hrb
    rcases hkept b hb r hrb with h | h
    · refine Or.inl (List.mem_filter.mpr ⟨h, ?_⟩)
      rw [i2.tables b (i2.acknowledged b hb).1 r hrb, hbn]
      simp
    · exact Or.inr h
  · intro hsome hproved hlog hrows hguard m M G T D hscale f hf
    obtain ⟨stored', series, g1, g2, g3, g4, g5, g6⟩ := stored_chunks hcap hmax hsub hchunks hfield heb hproved hrows hguard hscale log2 hlog hsome
    have hsame : stored' = stored := Option.some.inj (g1.symm.trans k1)
    subst hsame
    obtain ⟨⟨a, ha, ha'⟩, ⟨b, hb, hb'⟩⟩ := C84_min_max_partial log2 eb series partitions (g4 partitions hp) g3 (rowsError M T D)
      fun p hp => ⟨3 * M, T, D, (g6 p hp).2, le_refl _⟩
    rw [show valuesOfRows value field (rowsOfTable md.name (inTables s)) = ingestedValues series from g2.symm]
    rcases hf with rfl | rfl
    · exact ⟨_, ha, a, rfl, ha'⟩
    · exact ⟨_, hb, b, rfl, hb'⟩

/-! ### Values that are not numbers, and a server that is stopped twice -/

/-- Three rows of two series, the values are NaN, infinity and `1`. -/
def strangeRows : List (Model.Storage.Op Nat) :=
  [.insert "t" [rowA 60000 0x7fc00000, rowB 60000 0x7f800000] (some 0) 3, .ingestionTake, .ingestionRow true, .insert "t" [rowA 120000 0x3f800000] (some 1) 1]

def strangeFlushed : Model.Storage.Engine Nat × Model.Storage.Engine Nat × Model.Storage.Engine Nat :=
  (((Storage.Engine.new 6 48 20).run (smallEnv 4) strangeRows).get (by decide +kernel),
    ((Storage.Engine.new 6 48 20).run (smallEnv 4) (strangeRows ++ [.flush])).get (by decide +kernel),
    ((Storage.Engine.new 6 48 20).run (smallEnv 4) (strangeRows ++ [.flush] ++ flushing.2)).get (by decide +kernel))

/-- COUNT is three. -/
example : ∃ stored ingested, storedSegments exactLog2 quarterMetadata (fun v _ => v) 2 strangeFlushed.2.2.c.saved = some stored ∧
    (rowsOfTable "t" strangeFlushed.1.received).Subperm ingested ∧ ingested.Subperm (rowsOfTable "t" strangeFlushed.2.2.received) ∧
    (∀ partitions, partitions.flatten.Perm (stored.map Prod.snd) → execute .count partitions = some (.int ingested.length)) ∧
    (rowsOfTable "t" strangeFlushed.1.received).length = 3 := by
  obtain ⟨stored, ingested, g1, g2, g3, g4⟩ := C86_count (md := quarterMetadata) (smallEnv_sorts 4) (by decide) (by decide)
    (i := 6) (u := 48) (c := 20) (request := .flush) (by decide) (before := strangeRows) (after := flushing.2) (by simp [strangeRows, flushing, Op.ioOk])
    (show _ = some strangeFlushed.1 by decide +kernel) (show _ = some strangeFlushed.2.1 by decide +kernel)
    (show _ = some strangeFlushed.2.2 by decide +kernel) (by decide +kernel) (by decide +kernel) (fun v _ => v) (field := 2) (by decide)
    (eb := .absolute (.fin false (1 / 4))) (by decide +kernel) (by unfold IsI64; decide +kernel) exactLog2 (by decide +kernel)
  exact ⟨stored, ingested, g1, g2, g3, g4, by decide +kernel⟩

/-- The server of C79 that is stopped twice: COUNT is the number of rows in the table, and MIN and MAX are those of their values. -/
example : ∃ (crashed requested s : Server Nat) (stored : List StoredSegment) (ingested : List (Model.Storage.Row Nat)),
    Recovered (smallEnv 4) crashed requested s ∧ storedSegments exactLog2 dayMetadata (fun v _ => v) 2 s.allSaved = some stored ∧
    ingested.Subperm (rowsOfTable "t" (rowsIn s.log)) ∧ execute .count [stored.map Prod.snd] = some (.int ingested.length) ∧
    (ingested ≠ [] → ∀ f, (f = .min ∨ f = .max) → ∃ r, execute f [stored.map Prod.snd] = some r ∧
      AggregateDeviates .lossless (rowsError 2 3 1) 0 f (valuesOfRows (fun v _ => v) 2 ingested) r) := by
  obtain ⟨crashed, requested, s, hrun, _, _, h3, hr⟩ := recovered_example
  have hs : s = recoveredServer.get (by decide +kernel) := by
    apply Option.some.inj
    rw [← h3, Option.some_get]
  have hg : Good (smallEnv 4) (rowsIn s.log) := by rw [hs]; decide +kernel
  have hrows : ∀ r ∈ rowsOfTable "t" (rowsIn s.log), WellFormed dayMetadata.tagIndices.length (fun v _ => v) 2 r := by
    have : ∀ r ∈ rowsOfTable "t" (rowsIn s.log), (r.tags.length = 1 ∧ (-2 ^ 63 ≤ r.ts ∧ r.ts < 2 ^ 63)) ∧
        r.val < 2 ^ 32 ∧ (FVal.ofBits32 r.val).isNan = false := by rw [hs]; decide +kernel
    exact fun r hr => ⟨(this r hr).1.1, (this r hr).1.2, (this r hr).2.1, (this r hr).2.2⟩
  obtain ⟨stored, ingested, g1, g2, _, g4⟩ := C86_restarts_partial (md := dayMetadata) (smallEnv_sorts 4) (by decide) (by decide) (actions := crashing)
    (by simp [crashing, Action.ok, Op.ioOk, rowA, rowB]) hrun hr hg (value := fun v _ => v) (field := 2) (by decide) (eb := .lossless)
    (by decide +kernel) (fun r hr => (hrows r hr).time) exactLog2 (by rw [hs]; decide +kernel)
  obtain ⟨k1, k2⟩ := g4 [stored.map Prod.snd] (by simp)
  refine ⟨crashed, requested, s, stored, ingested, hr, g1, g2, k1, fun hne => k2 hne ⟨.inl rfl, by simp⟩ exactLog2_accurate hrows ?_ 1 2 3 3 1 ?_⟩
  · intro r _
    simp [XorGuard]
  · rw [hs]
    exact recoveredRows_scale

end ModelarDB.Props
