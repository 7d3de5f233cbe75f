import Verif.Lemmas.FileOrder
import Verif.Props.C74
/-
C80: the values of a row that is returned are those of one row that was ingested, whatever files the fields are stored in.
-/
namespace ModelarDB.Props
open Model Model.Query Model.TableDefinition Model.StoredTable Model.FileOrder Spec Spec.Storage Lemmas

variable {α ε : Type}

/-- Each batch of segments that was saved has at least one segment of each field. -/
theorem saved_segments {store : Model.Storage.Env α} (hs : Sorts store) (hcap : 2 ≤ store.capacity) (hmax : store.capacity < 2 ^ 63)
    {i u c : Nat} {ops : List (Model.Storage.Op α)} (hio : ∀ op ∈ ops, Op.ioOk op) {e : Model.Storage.Engine α}
    (hrun : (Storage.Engine.new i u c).run store ops = some e) (hg : Good store e.received) {m : Metadata ε}
    {value : α → Nat → Nat} {field : Nat} {bound : ErrorBound} (hbound : m.errorBounds[field]? = some bound)
    (hrows : ∀ r ∈ rowsOfTable m.name e.received, WellFormed m.tagIndices.length value field r)
    (hvalues : Compressible bound ((rowsOfTable m.name e.received).map fun r => value r.val field)) (log2 : Log2) (hlog : Log2Accurate log2)
    (hlinear : ∀ x ∈ e.c.saved, x.table = m.name →
      LinearFaithful (ReadBack bound) bound (x.points.map Prod.fst) (x.points.map fun p => value p.2 field)) :
    ∀ x ∈ e.c.saved, x.table = m.name → ∃ l, compressField log2 m value field x = some l ∧ l ≠ [] := by
  obtain ⟨hsub, hchunks⟩ := EndToEnd.saved_spec hs hcap hio hrun hg
  intro x hx ht
  obtain ⟨l, h1, h2⟩ := EndToEnd.chunks_stored hmax hsub hchunks hbound hrows log2 (ReadBack bound)
    (fun ts vs hlen hne hr hinc hsize h32 hnan hv hl => readBack hlog hvalues ts vs hlen hne hr hinc hsize h32 hnan
      (fun v hvs => by obtain ⟨r, hr, rfl⟩ := hv v hvs; exact List.mem_map.mpr ⟨r, hr, rfl⟩) hl) hlinear x hx ht
  refine ⟨l, h1, ?_⟩
  rintro rfl
  have hlen := h2.points.length_eq
  simp only [chunkRows, rowsOf, List.length_map, List.flatMap_nil, List.length_nil, List.length_eq_zero_iff] at hlen
  exact (hchunks x hx).1 hlen

/-- **C80** in the parts that hold: anything happens (`before`), a flush or stop is requested, anything happens (`after`) and at the end the
request has been answered. The saves of segments wrote them to files, a file ends when it has reached a size. If no file reached the size, or the
segments of the table were saved at least twice, each query for stored columns that reads the segments as they are in the file of a field with
one file, and sorted from the files of a field with several files, returns rows of which the timestamp, the tags and the values of all fields are
those of one row that was received, and all rows that satisfy its filters. The rows of each series must be received in the order of their
timestamps. The property is false of the code if the segments were saved once and a file reached the size for one field but not for
another, see `C80_rows_mixed`. Missing: what is missing in C74. -/
theorem C80_rows_partial {store : Model.Storage.Env α} (hs : Sorts store) (hcap : 2 ≤ store.capacity) (hmax : store.capacity < 2 ^ 63)
    {i u c : Nat} {before after : List (Model.Storage.Op α)} {request : Model.Storage.Op α} (hreq : Op.isRequest request)
    (hio : ∀ op ∈ before ++ after, Op.ioOk op) {e₁ e₂ e : Model.Storage.Engine α} (h1 : (Storage.Engine.new i u c).run store before = some e₁)
    (h2 : e₁.step store request = some e₂) (h3 : e₂.run store after = some e)
    (hanswered : before.countP Op.isRequest < e.results.length) (hg : Good store e.received)
    {name : String} (hin : InOrder name e.received) {qs : List Column} {bs : List ErrorBound} {gs : List (Option (Generated ε))}
    {m : Metadata ε} (hm : tryNew name qs bs gs = .ok m) (hunique : (qs.map (·.name)).Nodup) (hfree : ∀ tag ∈ tagNamesOf m, FreeName tag)
    {value : α → Nat → Nat} {bound : Nat → ErrorBound} (hbound : ∀ field ∈ m.fieldIndices, m.errorBounds[field]? = some (bound field))
    (hrows : ∀ field ∈ m.fieldIndices, ∀ r ∈ rowsOfTable name e.received, WellFormed m.tagIndices.length value field r)
    (hvalues : ∀ field ∈ m.fieldIndices, Compressible (bound field) ((rowsOfTable name e.received).map fun r => value r.val field))
    (log2 : Log2) (hlog : Log2Accurate log2)
    (hlinear : ∀ field ∈ m.fieldIndices, ∀ x ∈ e.c.saved, x.table = name →
      LinearFaithful (ReadBack (bound field)) (bound field) (x.points.map Prod.fst) (x.points.map fun p => value p.2 field))
    {saves : List (List (Model.Storage.Chunk α))} (hsaves : saves.flatten = e.c.saved) (full : List StoredSegment → Bool)
    (hfiles : (∀ l, full l = false) ∨ 2 ≤ (savesOf name saves).length) :
    ∃ (files : Nat → List (List StoredSegment)) (ingested : List (Model.Storage.Row α)),
      (∀ field ∈ m.fieldIndices, fieldFiles log2 m value full field saves = some (files field)) ∧
      (rowsOfTable name e₁.received).Subperm ingested ∧ ingested.Subperm (rowsOfTable name e.received) ∧
      ∀ (env : Env ε) (w : World ε StoredSegment) (lt : List String → List String → Prop), StrictOrder lt →
        ReadsFiles w lt m.fieldIndices files → ∀ (projection : List Nat) (filters : List Expr),
        FieldsQuery env w m projection filters → ∀ rows : TableRow → String → Value,
        (∀ row, row.tags.length = m.tagIndices.length → ∀ field, RowOf m (row.point field) (rows row)) →
        ReturnsTableRows env w m projection filters value (fun field => ReadBack (bound field)) rows ingested := by
  have hname : name = m.name := by obtain ⟨_, _, _, _, _, _, _, h8⟩ := tryNew_ok.mp hm; rw [h8]
  obtain ⟨hrun, hio'⟩ := EndToEnd.run_request hreq hio h1 h2 h3
  obtain ⟨stored, ingested, back, g1, g2, g3, hvalid, hdisjoint, hread, hback, hkeys, htags⟩ := saved_rows hs hcap hmax hreq hio h1 h2 h3 hanswered
    hg hin hm hbound hrows hvalues log2 hlog hlinear
  subst hname
  have hex : ∀ field, ∃ files : List (List StoredSegment), field ∈ m.fieldIndices →
      fieldFiles log2 m value full field saves = some files ∧ files.flatten = stored field := by
    intro field
    by_cases hf : field ∈ m.fieldIndices
    · obtain ⟨files, h⟩ := FileOrder.fieldFiles_flatten (full := full) (hsaves ▸ g1 field hf)
      exact ⟨files, fun _ => h⟩
    · exact ⟨[], fun h => absurd h hf⟩
  choose files hfs using hex
  refine ⟨files, ingested, fun f hf => (hfs f hf).1, g2, g3, ?_⟩
  have hlen : ∀ f ∈ m.fieldIndices, (savesOf m.name saves).length ≤ (files f).length ∧
      ((∀ l, full l = false) → (files f).length = (savesOf m.name saves).length) := fun f hf =>
    FileOrder.fieldFiles_length hf (hsaves ▸ saved_segments hs hcap hmax hio' hrun hg (hbound f hf) (hrows f hf) (hvalues f hf) log2 hlog
      (hlinear f hf)) (hfs f hf).1
  intro env w lt hlt hreads projection filters hq rows hrowOf
  obtain ⟨plan, hplan, hpf⟩ := hq.plan
  obtain ⟨parquet, grid, hfilters, hfull⟩ := hq.rewritten
  have hback' : ∀ f ∈ m.fieldIndices, back.map (TableRow.point f) = (files f).flatten.flatMap pointsOf := fun f hf => by
    rw [(hfs f hf).2]; exact hback f hf
  have hvalid' : ∀ f ∈ m.fieldIndices, ∀ s ∈ (files f).flatten, segmentOf.Valid s := fun f hf => by
    rw [(hfs f hf).2]; exact hvalid f hf
  have hdisjoint' : ∀ f ∈ m.fieldIndices, segmentOf.Disjoint (files f).flatten := fun f hf => by
    rw [(hfs f hf).2]; exact hdisjoint f hf
  obtain ⟨sorted, hperm, hline⟩ : ∃ sorted : List TableRow, sorted.Perm back ∧ EndToEnd.InLine w m.fieldIndices sorted := by
    by_cases htwo : 2 ≤ (savesOf m.name saves).length
    · obtain ⟨sorted, h4, h5⟩ := EndToEnd.exists_sorted hlt back hkeys
      exact ⟨sorted, h4, EndToEnd.inLine_of_sorted hlt
        (FileOrder.sorted_of_files hreads fun f hf => htwo.trans (hlen f hf).1) hvalid' hdisjoint' h5⟩
    · have hnever := hfiles.resolve_right htwo
      refine ⟨back, .refl _, FileOrder.inLine_of_files hreads (fun f hf => ?_) hback'⟩
      rw [(hlen f hf).2 hnever]
      omega
  obtain ⟨batches, returned, n₀, a1, a2, a3, a4⟩ := EndToEnd.answer_of_order hq.order hq.batch hm hunique hfree hq.asked hq.stored hplan hpf
    hfilters hq.forward hfull (FileOrder.reads_of_files hreads) hvalid' hperm hline hback' htags rows
    fun row hrow f => hrowOf row (htags row hrow) f
  obtain ⟨_, _, hres, _⟩ := planScan_ok hplan
  exact ⟨n₀, plan.result, batches, back, returned, mapM_option_eq_some.mp hres, a1, a2, hread, a3, a4⟩

/-- **C80** for tables whose segments are in at most one file for each field, also if the rows were not received in the order of their
timestamps: they are read in the order in which they were saved for all fields. Missing: what is missing in C74. -/
theorem C80_one_file_partial {store : Model.Storage.Env α} (hs : Sorts store) (hcap : 2 ≤ store.capacity) (hmax : store.capacity < 2 ^ 63)
    {i u c : Nat} {before after : List (Model.Storage.Op α)} {request : Model.Storage.Op α} (hreq : Op.isRequest request)
    (hio : ∀ op ∈ before ++ after, Op.ioOk op) {e₁ e₂ e : Model.Storage.Engine α} (h1 : (Storage.Engine.new i u c).run store before = some e₁)
    (h2 : e₁.step store request = some e₂) (h3 : e₂.run store after = some e)
    (hanswered : before.countP Op.isRequest < e.results.length) (hg : Good store e.received)
    {name : String} {qs : List Column} {bs : List ErrorBound} {gs : List (Option (Generated ε))}
    {m : Metadata ε} (hm : tryNew name qs bs gs = .ok m) (hunique : (qs.map (·.name)).Nodup) (hfree : ∀ tag ∈ tagNamesOf m, FreeName tag)
    {value : α → Nat → Nat} {bound : Nat → ErrorBound} (hbound : ∀ field ∈ m.fieldIndices, m.errorBounds[field]? = some (bound field))
    (hrows : ∀ field ∈ m.fieldIndices, ∀ r ∈ rowsOfTable name e.received, WellFormed m.tagIndices.length value field r)
    (hvalues : ∀ field ∈ m.fieldIndices, Compressible (bound field) ((rowsOfTable name e.received).map fun r => value r.val field))
    (log2 : Log2) (hlog : Log2Accurate log2)
    (hlinear : ∀ field ∈ m.fieldIndices, ∀ x ∈ e.c.saved, x.table = name →
      LinearFaithful (ReadBack (bound field)) (bound field) (x.points.map Prod.fst) (x.points.map fun p => value p.2 field))
    {saves : List (List (Model.Storage.Chunk α))} (hsaves : saves.flatten = e.c.saved) (full : List StoredSegment → Bool) :
    ∃ (files : Nat → List (List StoredSegment)) (ingested : List (Model.Storage.Row α)),
      (∀ field ∈ m.fieldIndices, fieldFiles log2 m value full field saves = some (files field)) ∧
      (rowsOfTable name e₁.received).Subperm ingested ∧ ingested.Subperm (rowsOfTable name e.received) ∧
      ∀ (env : Env ε) (w : World ε StoredSegment) (lt : List String → List String → Prop),
        ReadsFiles w lt m.fieldIndices files → (∀ field ∈ m.fieldIndices, (files field).length ≤ 1) →
        ∀ (projection : List Nat) (filters : List Expr), FieldsQuery env w m projection filters → ∀ rows : TableRow → String → Value,
        (∀ row, row.tags.length = m.tagIndices.length → ∀ field, RowOf m (row.point field) (rows row)) →
        ReturnsTableRows env w m projection filters value (fun field => ReadBack (bound field)) rows ingested := by
  obtain ⟨stored, ingested, back, g1, g2, g3, hvalid, _, hread, hback, _, htags⟩ := saved_rows_any hs hcap hmax hreq hio h1 h2 h3 hanswered
    hg hm hbound hrows hvalues log2 hlog hlinear
  have hex : ∀ field, ∃ files : List (List StoredSegment), field ∈ m.fieldIndices →
      fieldFiles log2 m value full field saves = some files ∧ files.flatten = stored field := by
    intro field
    by_cases hf : field ∈ m.fieldIndices
    · obtain ⟨files, h⟩ := FileOrder.fieldFiles_flatten (full := full) (hsaves ▸ g1 field hf)
      exact ⟨files, fun _ => h⟩
    · exact ⟨[], fun h => absurd h hf⟩
  choose files hfs using hex
  refine ⟨files, ingested, fun f hf => (hfs f hf).1, g2, g3, ?_⟩
  intro env w lt hreads hone projection filters hq rows hrowOf
  obtain ⟨plan, hplan, hpf⟩ := hq.plan
  obtain ⟨parquet, grid, hfilters, hfull⟩ := hq.rewritten
  have hback' : ∀ f ∈ m.fieldIndices, back.map (TableRow.point f) = (files f).flatten.flatMap pointsOf := fun f hf => by
    rw [(hfs f hf).2]; exact hback f hf
  have hvalid' : ∀ f ∈ m.fieldIndices, ∀ s ∈ (files f).flatten, segmentOf.Valid s := fun f hf => by
    rw [(hfs f hf).2]; exact hvalid f hf
  obtain ⟨batches, returned, n₀, a1, a2, a3, a4⟩ := EndToEnd.answer_of_order hq.order hq.batch hm hunique hfree hq.asked hq.stored hplan hpf
    hfilters hq.forward hfull (FileOrder.reads_of_files hreads) hvalid' (.refl _) (FileOrder.inLine_of_files hreads hone hback') hback' htags rows
    fun row hrow f => hrowOf row (htags row hrow) f
  obtain ⟨_, _, hres, _⟩ := planScan_ok hplan
  exact ⟨n₀, plan.result, batches, back, returned, mapM_option_eq_some.mp hres, a1, a2, hread, a3, a4⟩

/-! ### A table with two fields -/

/-- The segments of each field that are to be kept are read in one batch from its files. -/
def filesWorld (files : Nat → List (List StoredSegment)) : World (List String) StoredSegment :=
  { pairWorld (fun _ => []) with read := fun keep i => [.item (readFiles (List.insertionSort segmentLe) keep (files i))] }

theorem filesWorld_query (files : Nat → List (List StoredSegment)) :
    FieldsQuery listEnv (filesWorld files) pairMetadata [0, 1, 2, 3] [] := by
  refine ⟨by simp, by decide, ⟨_, rfl, fun i hi => ?_⟩, ⟨_, _, rfl, fun i _ => ?_⟩, by simp, fun _ _ => Iff.rfl, show 1 ≤ 8192 by decide⟩
  · have hi : i ∈ [2, 3] := hi
    simpa [pairMetadata] using hi
  · simp [FullBatches, filesWorld, itemsOf]

theorem filesWorld_reads (files : Nat → List (List StoredSegment)) (fields : List Nat) : ReadsFiles (filesWorld files) tagsLt fields files where
  segment := rfl
  neverFails i _ keep := by simp [NeverFails, filesWorld]
  contents i _ keep := by
    have hread : (itemsOf ((filesWorld files).read keep i)).flatten = readFiles (List.insertionSort segmentLe) keep (files i) := by
      simp [filesWorld, itemsOf]
    rw [hread]
    refine ⟨(files i).flatten.filter keep, ?_, List.filter_sublist, List.Sublist.refl _, fun h => ?_, fun h => ?_⟩
    · unfold readFiles
      split
      · exact .refl _
      · exact List.perm_insertionSort segmentLe _
    · simp [readFiles, declaresOrder, h]
    · have hsorted := (pairWorld_reads (fun i => (files i).flatten) [i]).sorted i (by simp) keep
      have h' : ¬ (files i).length ≤ 1 := by omega
      have : (itemsOf ((pairWorld fun i => (files i).flatten).read keep i)).flatten =
          readFiles (List.insertionSort segmentLe) keep (files i) := by
        simp [pairWorld, itemsOf, readFiles, declaresOrder, h']
      rwa [this] at hsorted

/-- Rows of two series, of which that with the larger tag is first. -/
def unevenIngested : List (Model.Storage.Row (Nat × Nat)) :=
  [pairRow "b" 10 0x3f800000 0x3f800000, pairRow "b" 20 0xbf800000 0x3f800000, pairRow "b" 35 0x40000000 0x3f800000,
    pairRow "a" 10 0x40400000 0x40000000, pairRow "a" 20 0xc0400000 0x40000000, pairRow "a" 35 0x40800000 0x40000000]

/-- The rows are received and a flush is requested, which is done. -/
def unevenOps : List (Model.Storage.Op (Nat × Nat)) × List (Model.Storage.Op (Nat × Nat)) :=
  ([.insert "t" unevenIngested (some 0) 6, .ingestionTake] ++ List.replicate 6 (.ingestionRow true) ++ [.ingestionDone],
    [.ingestionTake, .compressionTake, .compressionDone, .compressionTake, .compressionDone, .compressionTake, .write, .write, .write])

/-- The storage engine at the end. -/
def unevenEnd : Option (Model.Storage.Engine (Nat × Nat)) := (Storage.Engine.new 100 1000 100).run pairEnv (unevenOps.1 ++ [.flush] ++ unevenOps.2)

/-- A file ends when its models have nine bytes. -/
def nineBytes (segments : List StoredSegment) : Bool := decide (9 ≤ (segments.map fun s => s.2.values.length).sum)

/-- The files of a field. -/
def unevenFiles (full : List StoredSegment → Bool) (saves : List (List (Model.Storage.Chunk (Nat × Nat)))) (field : Nat) : List (List StoredSegment) :=
  (fieldFiles exactLog2 pairMetadata pairValue full field saves).getD []

/-- The rows of a query for all columns. -/
def unevenRows (full : List StoredSegment → Bool) (saves : List (List (Model.Storage.Chunk (Nat × Nat)))) :
    Option (List (List Cell) × Ending) :=
  (answer listEnv (filesWorld (unevenFiles full saves)) pairMetadata [0, 1, 2, 3] [] 9).toOption.map fun a =>
    (a.batches.flatMap fun batch => match batch with
      | .ok columns => rowsOfColumns columns
      | .error _ => [], a.ending)

/-- The rows of the table as they are returned. -/
def unevenRow (r : Model.Storage.Row (Nat × Nat)) : List Cell := [.time r.ts, .tag (r.tags.headD ""), .value r.val.1, .value r.val.2]

/-- A query returns the rows in the order in which they were received if the segments are in one file for each field, and the rows sorted by tag
and time if they were saved twice. -/
example : ∃ (e₁ e₂ e : Model.Storage.Engine (Nat × Nat)),
    (Storage.Engine.new 100 1000 100).run pairEnv unevenOps.1 = some e₁ ∧ e₁.step pairEnv .flush = some e₂ ∧ e₂.run pairEnv unevenOps.2 = some e ∧
    e₁.received = unevenIngested ∧ ∀ full saves, (full = (fun _ => false) ∧ saves = [e.c.saved]) ∨ (full = nineBytes ∧ saves = e.c.saved.map ([·])) →
      (∃ ingested, (rowsOfTable "t" e₁.received).Subperm ingested ∧ ingested.Subperm (rowsOfTable "t" e.received) ∧
        ReturnsTableRows listEnv (filesWorld (unevenFiles full saves)) pairMetadata [0, 1, 2, 3] [] pairValue
          (fun field => ReadBack (pairBound field)) pairColumns ingested) ∧
      (unevenRows full saves = some (unevenIngested.map unevenRow, .finished) ∨
        unevenRows full saves = some ((unevenIngested.drop 3 ++ unevenIngested.take 3).map unevenRow, .finished)) := by
  let e₁ := ((Storage.Engine.new 100 1000 100).run pairEnv unevenOps.1).get (by decide +kernel)
  let e₂ := ((Storage.Engine.new 100 1000 100).run pairEnv (unevenOps.1 ++ [.flush])).get (by decide +kernel)
  let e := unevenEnd.get (by decide +kernel)
  have h1 : (Storage.Engine.new 100 1000 100).run pairEnv unevenOps.1 = some e₁ := by decide +kernel
  have h2 : e₁.step pairEnv .flush = some e₂ := by decide +kernel
  have h3 : e₂.run pairEnv unevenOps.2 = some e := by decide +kernel
  have hm : tryNew "t" pairMetadata.querySchema [.lossless, .lossless, .lossless, .absolute (.fin false (1 / 4))] [none, none, none, none] =
    .ok pairMetadata := by decide +kernel
  have hfields : ∀ {p : Nat → Prop}, p 2 → p 3 → ∀ field ∈ pairMetadata.fieldIndices, p field := by
    intro p hp hp' field hf
    simp only [pairMetadata, List.mem_cons, List.not_mem_nil, or_false] at hf
    rcases hf with rfl | rfl
    · exact hp
    · exact hp'
  have hrow : ∀ field ∈ pairMetadata.fieldIndices, ∀ r ∈ rowsOfTable "t" e.received, (r.tags.length = 1 ∧ (-2 ^ 63 ≤ r.ts ∧ r.ts < 2 ^ 63)) ∧
      pairValue r.val field < 2 ^ 32 ∧ (FVal.ofBits32 (pairValue r.val field)).isNan = false := by decide +kernel
  have hnone : ∀ field ∈ pairMetadata.fieldIndices, ∀ x ∈ e.c.saved, ∀ i < (x.points.map Prod.fst).length,
      (fitNextModel i (pairBound field) (x.points.map Prod.fst) (x.points.map fun p => pairValue p.2 field)).bytesPerValue.le (.fin false 4) =
        true → (fitNextModel i (pairBound field) (x.points.map Prod.fst) (x.points.map fun p => pairValue p.2 field)).modelType ≠ .swing := by
    decide +kernel
  have hvalues : ∀ v ∈ (rowsOfTable "t" e.received).map fun r => pairValue r.val 3,
      FVal.ofBits32 v = .fin false 1 ∨ FVal.ofBits32 v = .fin false 2 := by
    decide +kernel
  refine ⟨e₁, e₂, e, h1, h2, h3, by decide +kernel, fun full saves hcase => ⟨?_, ?_⟩⟩
  · have hsaves : saves.flatten = e.c.saved := by
      rcases hcase with ⟨_, rfl⟩ | ⟨_, rfl⟩
      · simp
      · decide +kernel
    have hfull : (∀ l, full l = false) ∨ 2 ≤ (savesOf "t" saves).length := by
      rcases hcase with ⟨rfl, _⟩ | ⟨_, rfl⟩
      · exact Or.inl fun _ => rfl
      · exact Or.inr (by decide +kernel)
    obtain ⟨files, ingested, g1, g2, g3, g4⟩ := C80_rows_partial pairEnv_sorts (by decide) (by decide) (request := .flush) (by decide)
      (by simp [unevenOps, Op.ioOk]) h1 h2 h3 (by decide +kernel) (by decide +kernel) (by decide +kernel) hm (by decide) (by decide)
      (value := pairValue) (bound := pairBound) (by decide +kernel)
      (fun field hf r hr => ⟨(hrow field hf r hr).1.1, (hrow field hf r hr).1.2, (hrow field hf r hr).2.1, (hrow field hf r hr).2.2⟩)
      (hfields ⟨Or.inl rfl, by simp [pairBound], by simp [pairBound]⟩
        ⟨Or.inr ⟨0x3e800000, by decide, Or.inl (by decide +kernel)⟩, by simp [pairBound], fun _ v hv => by
          rcases hvalues v hv with h | h <;> rw [h] <;> simp only [pairBound, XorGuard] <;> norm_num⟩)
      exactLog2 exactLog2_accurate (fun field hf x hx _ => linearFaithful_of_none (hnone field hf x hx)) hsaves full hfull
    have hstored : ∀ field ∈ pairMetadata.fieldIndices, files field = unevenFiles full saves field := by
      intro field hf
      rw [unevenFiles, g1 field hf]
      rfl
    refine ⟨ingested, g2, g3, g4 listEnv _ tagsLt tagsLt_order ?_ _ _ ?_ pairColumns fun row hr field => pairColumns_rowOf row hr field⟩
    · have := filesWorld_reads (unevenFiles full saves) pairMetadata.fieldIndices
      exact ⟨this.segment, this.neverFails, fun i hi => by rw [hstored i hi]; exact this.contents i hi⟩
    · exact filesWorld_query _
  · rcases hcase with ⟨rfl, rfl⟩ | ⟨rfl, rfl⟩
    · exact Or.inl (by decide +kernel)
    · exact Or.inr (by decide +kernel)

/-- A query for the rows of `C74_rows_mixed`, which were not received in order, returns them if they are in one file for each field. -/
example : ∃ (e₁ e₂ e : Model.Storage.Engine (Nat × Nat)),
    (Storage.Engine.new 100 1000 100).run pairEnv (lateOps.take 21) = some e₁ ∧ e₁.step pairEnv .flush = some e₂ ∧
    e₂.run pairEnv (lateOps.drop 22) = some e ∧ e₁.received = lateIngested ∧ ¬ InOrder "t" e.received ∧
    (∃ ingested, (rowsOfTable "t" e₁.received).Subperm ingested ∧ ingested.Subperm (rowsOfTable "t" e.received) ∧
      ReturnsTableRows listEnv (filesWorld (unevenFiles (fun _ => false) [e.c.saved])) pairMetadata [0, 1, 2, 3] [] pairValue
        (fun field => ReadBack (pairBound field)) pairColumns ingested) ∧
    unevenRows (fun _ => false) [e.c.saved] = some (lateIngested.map unevenRow, .finished) := by
  let e₁ := ((Storage.Engine.new 100 1000 100).run pairEnv (lateOps.take 21)).get (by decide +kernel)
  let e₂ := ((Storage.Engine.new 100 1000 100).run pairEnv (lateOps.take 22)).get (by decide +kernel)
  let e := ((Storage.Engine.new 100 1000 100).run pairEnv lateOps).get (by decide +kernel)
  have h1 : (Storage.Engine.new 100 1000 100).run pairEnv (lateOps.take 21) = some e₁ := by decide +kernel
  have h2 : e₁.step pairEnv .flush = some e₂ := by decide +kernel
  have h3 : e₂.run pairEnv (lateOps.drop 22) = some e := by decide +kernel
  have hm : tryNew "t" pairMetadata.querySchema [.lossless, .lossless, .lossless, .absolute (.fin false (1 / 4))] [none, none, none, none] =
    .ok pairMetadata := by decide +kernel
  have hfields : ∀ {p : Nat → Prop}, p 2 → p 3 → ∀ field ∈ pairMetadata.fieldIndices, p field := by
    intro p hp hp' field hf
    simp only [pairMetadata, List.mem_cons, List.not_mem_nil, or_false] at hf
    rcases hf with rfl | rfl
    · exact hp
    · exact hp'
  have hrow : ∀ field ∈ pairMetadata.fieldIndices, ∀ r ∈ rowsOfTable "t" e.received, (r.tags.length = 1 ∧ (-2 ^ 63 ≤ r.ts ∧ r.ts < 2 ^ 63)) ∧
      pairValue r.val field < 2 ^ 32 ∧ (FVal.ofBits32 (pairValue r.val field)).isNan = false := by decide +kernel
  have hnone : ∀ field ∈ pairMetadata.fieldIndices, ∀ x ∈ e.c.saved, ∀ i < (x.points.map Prod.fst).length,
      (fitNextModel i (pairBound field) (x.points.map Prod.fst) (x.points.map fun p => pairValue p.2 field)).bytesPerValue.le (.fin false 4) =
        true → (fitNextModel i (pairBound field) (x.points.map Prod.fst) (x.points.map fun p => pairValue p.2 field)).modelType ≠ .swing := by
    decide +kernel
  have hvalues : ∀ v ∈ (rowsOfTable "t" e.received).map fun r => pairValue r.val 3,
      FVal.ofBits32 v = .fin false 1 ∨ FVal.ofBits32 v = .fin false 2 ∨ FVal.ofBits32 v = .fin false 3 := by
    decide +kernel
  obtain ⟨files, ingested, g1, g2, g3, g4⟩ := C80_one_file_partial pairEnv_sorts (by decide) (by decide) (request := .flush) (by decide)
    (by simp [lateOps, Op.ioOk]) h1 h2 h3 (by decide +kernel) (by decide +kernel) hm (by decide) (by decide)
    (value := pairValue) (bound := pairBound) (by decide +kernel)
    (fun field hf r hr => ⟨(hrow field hf r hr).1.1, (hrow field hf r hr).1.2, (hrow field hf r hr).2.1, (hrow field hf r hr).2.2⟩)
    (hfields ⟨Or.inl rfl, by simp [pairBound], by simp [pairBound]⟩
      ⟨Or.inr ⟨0x3e800000, by decide, Or.inl (by decide +kernel)⟩, by simp [pairBound], fun _ v hv => by
        rcases hvalues v hv with h | h | h <;> rw [h] <;> simp only [pairBound, XorGuard] <;> norm_num⟩)
    exactLog2 exactLog2_accurate (fun field hf x hx _ => linearFaithful_of_none (hnone field hf x hx)) (saves := [e.c.saved]) (by simp)
    (fun _ => false)
  have hstored : ∀ field ∈ pairMetadata.fieldIndices, files field = unevenFiles (fun _ => false) [e.c.saved] field := by
    intro field hf
    rw [unevenFiles, g1 field hf]
    rfl
  have hone : ∀ field ∈ pairMetadata.fieldIndices, (unevenFiles (fun _ => false) [e.c.saved] field).length ≤ 1 := by decide +kernel
  refine ⟨e₁, e₂, e, h1, h2, h3, by decide +kernel, by decide +kernel,
    ⟨ingested, g2, g3, g4 listEnv _ tagsLt ?_ (fun f hf => by rw [hstored f hf]; exact hone f hf) _ _ (filesWorld_query _) pairColumns
      fun row hr field => pairColumns_rowOf row hr field⟩, by decide +kernel⟩
  have := filesWorld_reads (unevenFiles (fun _ => false) [e.c.saved]) pairMetadata.fieldIndices
  exact ⟨this.segment, this.neverFails, fun i hi => by rw [hstored i hi]; exact this.contents i hi⟩

/-- **C80** is false of the code if the segments were saved once and one field has more files than another: the rows of each series are received
in the order of their timestamps and are saved, each field is read from its files, and a query returns the value of `y` of a row with the tag `b`
for a row with the tag `a`. -/
theorem C80_rows_mixed : ∃ e : Model.Storage.Engine (Nat × Nat), unevenEnd = some e ∧
    Good pairEnv e.received ∧ InOrder "t" e.received ∧ e.received = unevenIngested ∧ (savedRows e).Perm e.received ∧
    ((unevenFiles nineBytes [e.c.saved] 2).length = 2 ∧ (unevenFiles nineBytes [e.c.saved] 3).length = 1) ∧
    (∀ field ∈ pairMetadata.fieldIndices,
      fieldFiles exactLog2 pairMetadata pairValue nineBytes field [e.c.saved] = some (unevenFiles nineBytes [e.c.saved] field)) ∧
    ReadsFiles (filesWorld (unevenFiles nineBytes [e.c.saved])) tagsLt pairMetadata.fieldIndices (unevenFiles nineBytes [e.c.saved]) ∧
    FieldsQuery listEnv (filesWorld (unevenFiles nineBytes [e.c.saved])) pairMetadata [0, 1, 2, 3] [] ∧
    ∃ rows, unevenRows nineBytes [e.c.saved] = some (rows, .finished) ∧
      [.time 10, .tag "a", .value 0x40400000, .value 0x3f800000] ∈ rows ∧
      ∀ r ∈ e.received, r.ts = 10 → r.tags = ["a"] → ¬ ReadBack (pairBound 3) (pairValue r.val 3) 0x3f800000 := by
  refine ⟨unevenEnd.get (by decide +kernel), by decide +kernel, by decide +kernel, by decide +kernel, by decide +kernel, by decide +kernel,
    by decide +kernel, by decide +kernel, filesWorld_reads _ _, filesWorld_query _, [[.time 10, .tag "a", .value 0x40400000, .value 0x3f800000], [.time 20, .tag "a", .value 0xc0400000, .value 0x3f800000],
      [.time 35, .tag "a", .value 0x40800000, .value 0x3f800000], [.time 10, .tag "b", .value 0x3f800000, .value 0x40000000],
      [.time 20, .tag "b", .value 0xbf800000, .value 0x40000000], [.time 35, .tag "b", .value 0x40000000, .value 0x40000000]],
    ?_, ?_, ?_⟩
  · decide +kernel
  · decide +kernel
  · have hval : ∀ r ∈ (unevenEnd.get (by decide +kernel)).received, r.ts = 10 → r.tags = ["a"] →
        FVal.ofBits32 (pairValue r.val 3) = .fin false 2 := by decide +kernel
    intro r hr ht htag h
    have h3 : FVal.ofBits32 0x3f800000 = .fin false 1 := by decide +kernel
    simp only [ReadBack, pairBound, show ¬ (3 = 2) by decide, if_false, ReadWithin, hval r hr ht htag, h3, WithinExact, ratOf] at h
    norm_num at h

/-! ### What the files state -/

/-- The files of a table state to be sorted by the tags and the first time if the table has no tags. -/
theorem C80_stated_order_partial {name : String} {qs : List Column} {bs : List ErrorBound} {gs : List (Option (Generated ε))} {m : Metadata ε}
    (hm : tryNew name qs bs gs = .ok m) (htags : m.tagIndices = []) :
    (sortingColumns m).map (fun i => (fileColumns m)[i]?.map (·.name)) = (tagNamesOf m ++ ["start_time"]).map some := by
  have hschema : m.compressedSchema = compressedSchemaBase := by
    obtain ⟨_, _, _, _, _, _, _, h8⟩ := tryNew_ok.mp hm
    rw [h8] at htags ⊢
    simp only at htags
    simp [htags]
  rw [tagNamesOf, htags, sortingColumns, fileColumns, hschema]
  simp only [List.filterMap_nil, List.map_nil, List.nil_append]
  decide +kernel

/-- The table without tags of the test data. -/
example : ∃ m : Metadata (List String), createFromSql listEnv "t" [.timestamp "ts", .field "x"] = .ok m ∧
    (sortingColumns m).map (fun i => (fileColumns m)[i]?.map (·.name)) = (tagNamesOf m ++ ["start_time"]).map some := by
  have hm : createFromSql listEnv "t" [.timestamp "ts", .field "x"] =
      tryNew "t" [⟨"ts", .timestamp, false⟩, ⟨"x", .value, false⟩] [.lossless, .lossless] [none, none] := by decide +kernel
  have hs : (createFromSql listEnv "t" [.timestamp "ts", .field "x"]).toOption.map (·.tagIndices) = some [] := by decide +kernel
  cases h : createFromSql listEnv "t" [.timestamp "ts", .field "x"] with
  | error f => rw [h] at hs; cases hs
  | ok m =>
    rw [h] at hs hm
    exact ⟨m, rfl, C80_stated_order_partial hm.symm (by simpa [Except.toOption] using hs)⟩

/-- What the files of a table with tags state is never the order the segments should have: the index of each tag is that of the column after it,
as the column the table is partitioned by is not in the files. The first tag is left out, and the last index is not that of a column. -/
theorem C80_stated_order_wrong {name : String} {qs : List Column} {bs : List ErrorBound} {gs : List (Option (Generated ε))} {m : Metadata ε}
    (hm : tryNew name qs bs gs = .ok m) (htags : tagNamesOf m ≠ []) (hname : "field_column" ∉ tagNamesOf m) :
    (sortingColumns m).map (fun i => (fileColumns m)[i]?.map (·.name)) = (tagNamesOf m).tail.map some ++ [none, some "start_time"] := by
  have hschema : m.compressedSchema = compressedSchemaBase ++ m.tagIndices.filterMap fun i => m.schema[i]? := by
    obtain ⟨_, _, _, _, _, _, _, h8⟩ := tryNew_ok.mp hm
    rw [h8]
  rw [tagNamesOf] at htags hname ⊢
  rw [sortingColumns, fileColumns, hschema]
  generalize (m.tagIndices.filterMap fun i => m.schema[i]?) = tags at htags hname
  have hkeep : tags.filter (fun c => c.name ≠ "field_column") = tags := by
    refine List.filter_eq_self.mpr fun c hc => ?_
    simp only [decide_eq_true_eq]
    exact fun h => hname (h ▸ List.mem_map_of_mem hc)
  rw [List.filter_append, hkeep, List.length_append, Nat.add_sub_cancel_left]
  cases tags with
  | nil => exact absurd rfl htags
  | cons tag tags =>
    have hat : ∀ k, (compressedSchemaBase.filter (fun c => c.name ≠ "field_column") ++ tag :: tags)[compressedSchemaBase.length + k]? = tags[k]? := by
      intro k
      rw [List.getElem?_append_right (by
        rw [show (compressedSchemaBase.filter fun c => c.name ≠ "field_column").length = 9 by decide +kernel,
          show compressedSchemaBase.length = 10 by decide +kernel]
        omega)]
      rw [show (compressedSchemaBase.filter fun c => c.name ≠ "field_column").length = 9 by decide +kernel,
        show compressedSchemaBase.length = 10 by decide +kernel, show 10 + k - 9 = k + 1 by omega, List.getElem?_cons_succ]
    rw [List.range'_eq_map_range, List.map_append, List.map_map, List.length_cons, List.range_succ, List.map_append]
    have hfst : (List.range tags.length).map ((fun i => ((compressedSchemaBase.filter (fun c => c.name ≠ "field_column") ++ tag :: tags)[i]?).map
        (·.name)) ∘ fun x => compressedSchemaBase.length + x) = (tags.map (·.name)).map some := by
      refine List.ext_getElem (by simp) fun i h1 h2 => ?_
      simp only [List.length_map, List.length_range] at h1
      simp only [List.getElem_map, List.getElem_range, Function.comp, hat, List.getElem?_eq_getElem h1, Option.map_some]
    rw [hfst]
    simp only [List.map_cons, List.map_nil, Function.comp, hat, List.getElem?_eq_none (Nat.le_refl _), Option.map_none, List.tail_cons,
      List.append_assoc, List.cons_append, List.nil_append]
    congr 1

/-- The table with a tag of the test data, whose files state to be sorted by a column they do not have. -/
example : (sortingColumns pairMetadata).map (fun i => (fileColumns pairMetadata)[i]?.map (·.name)) = [none, some "start_time"] ∧
    tagNamesOf pairMetadata = ["tag"] := by decide +kernel

/-- A table with two tags, whose files state to be sorted by the second tag. -/
example : ∃ m : Metadata (List String), tryNew "t" [⟨"ts", .timestamp, false⟩, ⟨"x", .value, false⟩, ⟨"park", .string, false⟩, ⟨"unit", .string, false⟩]
    [.lossless, .lossless, .lossless, .lossless] [none, none, none, none] = .ok m ∧
    (sortingColumns m).map (fun i => (fileColumns m)[i]?.map (·.name)) = [some "unit", none, some "start_time"] := by
  cases h : tryNew (ε := List String) "t" [⟨"ts", .timestamp, false⟩, ⟨"x", .value, false⟩, ⟨"park", .string, false⟩, ⟨"unit", .string, false⟩]
      [.lossless, .lossless, .lossless, .lossless] [none, none, none, none] with
  | error f =>
    have hs := congrArg (fun r => r.toOption.isSome) h
    exact absurd (hs.symm.trans (by decide +kernel : _ = true)) (by simp [Except.toOption])
  | ok m =>
    have ht : tagNamesOf m = ["park", "unit"] := by
      have := congrArg (fun r => r.toOption.map tagNamesOf) h
      simp only [Except.toOption, Option.map_some] at this
      exact Option.some.inj (this.symm.trans (by decide +kernel))
    exact ⟨m, rfl, by rw [C80_stated_order_wrong h (by rw [ht]; decide) (by rw [ht]; decide), ht]; rfl⟩

end ModelarDB.Props
