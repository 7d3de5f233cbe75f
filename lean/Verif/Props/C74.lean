import Verif.Lemmas.EndToEndRows
import Verif.Lemmas.StorageOrder
import Verif.Props.C73
/-
C74: a query for several fields returns the rows that were ingested.
-/
namespace ModelarDB.Props
open Model Model.Query Model.TableDefinition Model.StoredTable Spec Spec.Storage Lemmas

variable {α ε : Type}

/-- What is read of a value of a field: the same number if its error bound is lossless and a number within the error bound otherwise. -/
def ReadBack : ErrorBound → Nat → Nat → Prop
  | .lossless => SameFloat
  | errorBound => ReadWithin errorBound

/-- The conditions of C10 and C11 for the values of a field. -/
structure Compressible (eb : ErrorBound) (values : List Nat) : Prop where
  valid : ValidErrorBound eb
  relative : ∀ s r, eb = .relative (.fin s r) → (2 : ℚ) ^ (-100 : ℤ) ≤ r ∧ r ≤ 99.9999
  guard : eb ≠ .lossless → ∀ v ∈ values, XorGuard eb (FVal.ofBits32 v)

theorem readBack {log2 : Log2} (hlog : Log2Accurate log2) {eb : ErrorBound} {values : List Nat} (h : Compressible eb values)
    (ts : List Int) (vs : List Nat) (hlen : ts.length = vs.length) (hne : ts ≠ []) (hrange : ∀ t ∈ ts, IsI64 t) (hinc : StrictlyIncreasing ts)
    (hsize : ts.length < 2 ^ 63) (h32 : ∀ v ∈ vs, v < 2 ^ 32) (hnan : ∀ v ∈ vs, (FVal.ofBits32 v).isNan = false)
    (hvalues : ∀ v ∈ vs, v ∈ values) (hlinear : LinearFaithful (ReadBack eb) eb ts vs) :
    ∃ segments ws, tryCompressUnivariate log2 eb ts vs = .segments segments ∧ gridAll segments = some (ts, ws) ∧
      List.Forall₂ (ReadBack eb) vs ws := by
  cases eb with
  | lossless => exact C10_lossless_readback_partial log2 ts vs hlen hne hrange hinc hsize h32 hnan hlinear
  | absolute b =>
    exact C11_lossy_readback_partial log2 hlog _ h.valid h.relative ts vs hlen hne hrange hinc hsize h32 hnan
      (fun v hv => h.guard (by simp) v (hvalues v hv)) hlinear
  | relative b =>
    exact C11_lossy_readback_partial log2 hlog _ h.valid h.relative ts vs hlen hne hrange hinc hsize h32 hnan
      (fun v hv => h.guard (by simp) v (hvalues v hv)) hlinear

theorem fields_exist {name : String} {qs : List Column} {bs : List ErrorBound} {gs : List (Option (Generated ε))} {m : Metadata ε}
    (hm : tryNew name qs bs gs = .ok m) : ∃ f, f ∈ m.fieldIndices :=
  List.exists_mem_of_ne_nil _ (consistent_of_tryNew hm).aField

/-- The segments of the fields in what is saved and the rows that can be read from them. -/
theorem rows_of_chunks {store : Model.Storage.Env α} (hmax : store.capacity < 2 ^ 63) {saved : List (Model.Storage.Chunk α)}
    {received : List (Model.Storage.Row α)} (hn : (received.map key).Nodup) (hsub : (saved.flatMap chunkRows).Subperm received)
    (hchunks : ∀ x ∈ saved, x.points ≠ [] ∧ x.points.length ≤ store.capacity ∧ StrictlyIncreasing (x.points.map Prod.fst))
    {name : String} {qs : List Column} {bs : List ErrorBound} {gs : List (Option (Generated ε))}
    {m : Metadata ε} (hm : tryNew name qs bs gs = .ok m)
    {value : α → Nat → Nat} {bound : Nat → ErrorBound} (hbound : ∀ field ∈ m.fieldIndices, m.errorBounds[field]? = some (bound field))
    (hrows : ∀ field ∈ m.fieldIndices, ∀ r ∈ rowsOfTable name received, WellFormed m.tagIndices.length value field r)
    (hvalues : ∀ field ∈ m.fieldIndices, Compressible (bound field) ((rowsOfTable name received).map fun r => value r.val field))
    (log2 : Log2) (hlog : Log2Accurate log2)
    (hlinear : ∀ field ∈ m.fieldIndices, ∀ x ∈ saved, x.table = name →
      LinearFaithful (ReadBack (bound field)) (bound field) (x.points.map Prod.fst) (x.points.map fun p => value p.2 field)) :
    ∃ (stored : Nat → List StoredSegment) (back : List TableRow),
      (∀ field ∈ m.fieldIndices, storedSegments log2 m value field saved = some (stored field)) ∧
      (∀ field ∈ m.fieldIndices, ∀ s ∈ stored field, segmentOf.Valid s) ∧
      (Separated name saved → ∀ field ∈ m.fieldIndices, segmentOf.Disjoint (stored field)) ∧
      List.Forall₂ (ReadRowFor value m.fieldIndices fun field => ReadBack (bound field)) (rowsOfTable name (saved.flatMap chunkRows)) back ∧
      (∀ field ∈ m.fieldIndices, back.map (TableRow.point field) = (stored field).flatMap pointsOf) ∧
      (back.map fun row => (row.tags, row.time)).Nodup ∧ ∀ row ∈ back, row.tags.length = m.tagIndices.length := by
  have hname : name = m.name := by obtain ⟨_, _, _, _, _, _, _, h8⟩ := tryNew_ok.mp hm; rw [h8]
  subst hname
  have hstored : ∀ field, ∃ stored, field ∈ m.fieldIndices → storedSegments log2 m value field saved = some stored ∧
      (∀ s ∈ stored, segmentOf.Valid s) ∧ (Separated m.name saved → segmentOf.Disjoint stored) ∧
      List.Forall₂ (ReadFor value field (ReadBack (bound field))) (rowsOfTable m.name (saved.flatMap chunkRows)) (stored.flatMap pointsOf) := by
    intro field
    by_cases hfield : field ∈ m.fieldIndices
    · have hc := EndToEnd.saved_stored hmax (fun _ h => hsub.subset h) hchunks (hbound field hfield) (hrows field hfield) log2 (ReadBack (bound field))
        (fun ts vs hlen hne hr hinc hsize h32 hnan hv hl => readBack hlog (hvalues field hfield) ts vs hlen hne hr hinc hsize h32 hnan
          (fun v hvs => by obtain ⟨r, hr, rfl⟩ := hv v hvs; exact List.mem_map.mpr ⟨r, hr, rfl⟩) hl) (hlinear field hfield)
      obtain ⟨stored, g1, g2, g3⟩ := EndToEnd.storedSegments_spec hfield hc
      refine ⟨stored, fun _ => ⟨g1, g2, fun hin => ?_, g3⟩⟩
      obtain ⟨stored', g4, g5, _⟩ := EndToEnd.storedSegments_disjoint hfield hc hin
      rw [g1] at g4
      cases g4
      exact g5
    · exact ⟨[], fun h => absurd h hfield⟩
  choose stored hst using hstored
  have hne := fields_exist hm
  refine ⟨stored, EndToEnd.backRows (rowsOfTable m.name (saved.flatMap chunkRows)) (fun f => (stored f).flatMap pointsOf),
    fun f hf => (hst f hf).1, fun f hf => (hst f hf).2.1, fun hin f hf => (hst f hf).2.2.1 hin, ?_⟩
  have hpoints : ∀ f ∈ m.fieldIndices, List.Forall₂ (ReadFor value f (ReadBack (bound f))) (rowsOfTable m.name (saved.flatMap chunkRows))
      ((fun f => (stored f).flatMap pointsOf) f) := fun f hf => (hst f hf).2.2.2
  have hread := EndToEnd.backRows_read hpoints
  have hback := fun f hf => EndToEnd.backRows_points hpoints (i := f) hf
  generalize EndToEnd.backRows (rowsOfTable m.name (saved.flatMap chunkRows)) (fun f => (stored f).flatMap pointsOf) = back at hread hback
  have hkeysEq : back.map (fun row => (row.tags, row.time)) = (rowsOfTable m.name (saved.flatMap chunkRows)).map fun r => (r.tags, r.ts) := by
    clear hback
    generalize rowsOfTable m.name (saved.flatMap chunkRows) = l at hread
    induction hread with
    | nil => rfl
    | cons h _ ih => rw [List.map_cons, List.map_cons, ih, h.time, h.tags]
  have hkeys : (back.map fun row => (row.tags, row.time)).Nodup := by
    rw [hkeysEq]
    have hn' : ((rowsOfTable m.name (saved.flatMap chunkRows)).map key).Nodup := by
      obtain ⟨l, hl, hls⟩ := hsub
      exact (((hl.map key).nodup_iff.mp (hn.sublist (hls.map _))).sublist (List.filter_sublist.map _))
    have : (rowsOfTable m.name (saved.flatMap chunkRows)).map key = ((rowsOfTable m.name (saved.flatMap chunkRows)).map fun r => (r.tags, r.ts)).map (Prod.mk m.name) := by
      rw [List.map_map]
      refine List.map_congr_left fun r hr => ?_
      have ht : r.table = m.name := of_decide_eq_true (List.mem_filter.mp hr).2
      simp [key, ht]
    rw [this] at hn'
    exact List.Nodup.of_map _ hn'
  obtain ⟨f₀, hf₀⟩ := hne
  have htags : ∀ row ∈ back, row.tags.length = m.tagIndices.length := by
    intro row hrow
    have : (row.tags, row.time) ∈ (rowsOfTable m.name (saved.flatMap chunkRows)).map fun r => (r.tags, r.ts) := by
      rw [← hkeysEq]; exact List.mem_map_of_mem hrow
    obtain ⟨r, hr, he⟩ := List.mem_map.mp this
    rw [← (Prod.mk.inj he).1]
    exact (hrows f₀ hf₀ r ((hsub.filter _).subset hr)).tags
  exact ⟨hread, hback, hkeys, htags⟩

/-- The segments of the fields that are stored and the rows that can be read from them. The segments do not overlap if the
rows were received in order. -/
theorem saved_rows_any {store : Model.Storage.Env α} (hs : Sorts store) (hcap : 2 ≤ store.capacity) (hmax : store.capacity < 2 ^ 63)
    {i u c : Nat} {before after : List (Model.Storage.Op α)} {request : Model.Storage.Op α} (hreq : Op.isRequest request)
    (hio : ∀ op ∈ before ++ after, Op.ioOk op) {e₁ e₂ e : Model.Storage.Engine α} (h1 : (Storage.Engine.new i u c).run store before = some e₁)
    (h2 : e₁.step store request = some e₂) (h3 : e₂.run store after = some e)
    (hanswered : before.countP Op.isRequest < e.results.length) (hg : Good store e.received)
    {name : String} {qs : List Column} {bs : List ErrorBound} {gs : List (Option (Generated ε))}
    {m : Metadata ε} (hm : tryNew name qs bs gs = .ok m)
    {value : α → Nat → Nat} {bound : Nat → ErrorBound} (hbound : ∀ field ∈ m.fieldIndices, m.errorBounds[field]? = some (bound field))
    (hrows : ∀ field ∈ m.fieldIndices, ∀ r ∈ rowsOfTable name e.received, WellFormed m.tagIndices.length value field r)
    (hvalues : ∀ field ∈ m.fieldIndices, Compressible (bound field) ((rowsOfTable name e.received).map fun r => value r.val field))
    (log2 : Log2) (hlog : Log2Accurate log2)
    (hlinear : ∀ field ∈ m.fieldIndices, ∀ x ∈ e.c.saved, x.table = name →
      LinearFaithful (ReadBack (bound field)) (bound field) (x.points.map Prod.fst) (x.points.map fun p => value p.2 field)) :
    ∃ (stored : Nat → List StoredSegment) (ingested : List (Model.Storage.Row α)) (back : List TableRow),
      (∀ field ∈ m.fieldIndices, storedSegments log2 m value field e.c.saved = some (stored field)) ∧
      (rowsOfTable name e₁.received).Subperm ingested ∧ ingested.Subperm (rowsOfTable name e.received) ∧
      (∀ field ∈ m.fieldIndices, ∀ s ∈ stored field, segmentOf.Valid s) ∧
      (InOrder name e.received → ∀ field ∈ m.fieldIndices, segmentOf.Disjoint (stored field)) ∧
      List.Forall₂ (ReadRowFor value m.fieldIndices fun field => ReadBack (bound field)) ingested back ∧
      (∀ field ∈ m.fieldIndices, back.map (TableRow.point field) = (stored field).flatMap pointsOf) ∧
      (back.map fun row => (row.tags, row.time)).Nodup ∧ ∀ row ∈ back, row.tags.length = m.tagIndices.length := by
  obtain ⟨hrun, hio'⟩ := EndToEnd.run_request hreq hio h1 h2 h3
  obtain ⟨hsub, hchunks⟩ := EndToEnd.saved_spec hs hcap hio' hrun hg
  have hall := C23_flush_saves_everything_partial hs hcap hreq hio h1 h2 h3 hanswered hg
  have hsep := fun hin : InOrder name e.received => StorageOrder.separated_of_ordered (StorageOrder.ordered_run hs hcap _ hio'
    (Lemmas.Storage.inv_new i u c) (StorageOrder.own_new i u c) (StorageOrder.ordered_new i u c) hrun hg hin).2.2
  obtain ⟨stored, back, g1, g2, g3, g4⟩ := rows_of_chunks hmax hg.keys hsub hchunks hm hbound hrows hvalues log2 hlog hlinear
  exact ⟨stored, _, back, g1, hall.filter _, hsub.filter _, g2, fun hin => g3 (hsep hin), g4⟩

/-- The segments of the fields that are stored and the rows that can be read from them. -/
theorem saved_rows {store : Model.Storage.Env α} (hs : Sorts store) (hcap : 2 ≤ store.capacity) (hmax : store.capacity < 2 ^ 63)
    {i u c : Nat} {before after : List (Model.Storage.Op α)} {request : Model.Storage.Op α} (hreq : Op.isRequest request)
    (hio : ∀ op ∈ before ++ after, Op.ioOk op) {e₁ e₂ e : Model.Storage.Engine α} (h1 : (Storage.Engine.new i u c).run store before = some e₁)
    (h2 : e₁.step store request = some e₂) (h3 : e₂.run store after = some e)
    (hanswered : before.countP Op.isRequest < e.results.length) (hg : Good store e.received)
    {name : String} (hin : InOrder name e.received) {qs : List Column} {bs : List ErrorBound} {gs : List (Option (Generated ε))}
    {m : Metadata ε} (hm : tryNew name qs bs gs = .ok m)
    {value : α → Nat → Nat} {bound : Nat → ErrorBound} (hbound : ∀ field ∈ m.fieldIndices, m.errorBounds[field]? = some (bound field))
    (hrows : ∀ field ∈ m.fieldIndices, ∀ r ∈ rowsOfTable name e.received, WellFormed m.tagIndices.length value field r)
    (hvalues : ∀ field ∈ m.fieldIndices, Compressible (bound field) ((rowsOfTable name e.received).map fun r => value r.val field))
    (log2 : Log2) (hlog : Log2Accurate log2)
    (hlinear : ∀ field ∈ m.fieldIndices, ∀ x ∈ e.c.saved, x.table = name →
      LinearFaithful (ReadBack (bound field)) (bound field) (x.points.map Prod.fst) (x.points.map fun p => value p.2 field)) :
    ∃ (stored : Nat → List StoredSegment) (ingested : List (Model.Storage.Row α)) (back : List TableRow),
      (∀ field ∈ m.fieldIndices, storedSegments log2 m value field e.c.saved = some (stored field)) ∧
      (rowsOfTable name e₁.received).Subperm ingested ∧ ingested.Subperm (rowsOfTable name e.received) ∧
      (∀ field ∈ m.fieldIndices, ∀ s ∈ stored field, segmentOf.Valid s) ∧ (∀ field ∈ m.fieldIndices, segmentOf.Disjoint (stored field)) ∧
      List.Forall₂ (ReadRowFor value m.fieldIndices fun field => ReadBack (bound field)) ingested back ∧
      (∀ field ∈ m.fieldIndices, back.map (TableRow.point field) = (stored field).flatMap pointsOf) ∧
      (back.map fun row => (row.tags, row.time)).Nodup ∧ ∀ row ∈ back, row.tags.length = m.tagIndices.length := by
  obtain ⟨stored, ingested, back, g1, g2, g3, g4, g5, g6⟩ := saved_rows_any hs hcap hmax hreq hio h1 h2 h3 hanswered hg hm hbound hrows hvalues log2
    hlog hlinear
  exact ⟨stored, ingested, back, g1, g2, g3, g4, g5 hin, g6⟩

/-- **C74** in the parts that hold: anything happens (`before`), a flush or stop is requested, anything happens (`after`) and at the end the
request has been answered. The rows of each series of the table were received in the order of their timestamps. Then there is a selection of the
rows of the table that were received at the end that has all rows that were received before the request, and every query for any number of
stored columns returns the rows of the selection that satisfy its filters, each as often as it was received. In each row that is returned the
timestamp, the tags and the values of all fields are those of one row that was received, where each value is the same number if the field is
lossless and a number within the error bound of the field otherwise. What is returned besides these rows are rows of the selection that do not
satisfy the filters. The property is false of the code if the rows are not received in order, see `C74_rows_mixed`. Missing: batches of segments
that are read and are not full (C36), generated columns (see C77), and what is missing in C73. -/
theorem C74_rows_partial {store : Model.Storage.Env α} (hs : Sorts store) (hcap : 2 ≤ store.capacity) (hmax : store.capacity < 2 ^ 63)
    {i u c : Nat} {before after : List (Model.Storage.Op α)} {request : Model.Storage.Op α} (hreq : Op.isRequest request)
    (hio : ∀ op ∈ before ++ after, Op.ioOk op) {e₁ e₂ e : Model.Storage.Engine α} (h1 : (Storage.Engine.new i u c).run store before = some e₁)
    (h2 : e₁.step store request = some e₂) (h3 : e₂.run store after = some e)
    (hanswered : before.countP Op.isRequest < e.results.length) (hg : Good store e.received)
    {name : String} (hin : InOrder name e.received) {qs : List Column} {bs : List ErrorBound} {gs : List (Option (Generated ε))}
    {m : Metadata ε} (hm : tryNew name qs bs gs = .ok m) (hunique : (qs.map (·.name)).Nodup) (hfree : ∀ tag ∈ tagNamesOf m, FreeName tag)
    {value : α → Nat → Nat} {bound : Nat → ErrorBound} (hbound : ∀ field ∈ m.fieldIndices, m.errorBounds[field]? = some (bound field))
    (hrows : ∀ field ∈ m.fieldIndices, ∀ r ∈ rowsOfTable name e.received, WellFormed m.tagIndices.length value field r)
    (hvalues : ∀ field ∈ m.fieldIndices, Compressible (bound field) ((rowsOfTable name e.received).map fun r => value r.val field))
    (log2 : Log2) (hlog : Log2Accurate log2)
    (hlinear : ∀ field ∈ m.fieldIndices, ∀ x ∈ e.c.saved, x.table = name →
      LinearFaithful (ReadBack (bound field)) (bound field) (x.points.map Prod.fst) (x.points.map fun p => value p.2 field)) :
    ∃ (stored : Nat → List StoredSegment) (ingested : List (Model.Storage.Row α)),
      (∀ field ∈ m.fieldIndices, storedSegments log2 m value field e.c.saved = some (stored field)) ∧
      (rowsOfTable name e₁.received).Subperm ingested ∧ ingested.Subperm (rowsOfTable name e.received) ∧
      ∀ (env : Env ε) (w : World ε StoredSegment) (lt : List String → List String → Prop), StrictOrder lt →
        ReadsSortedSegments w lt m.fieldIndices stored → ∀ (projection : List Nat) (filters : List Expr),
        FieldsQuery env w m projection filters → ∀ rows : TableRow → String → Value,
        (∀ row, row.tags.length = m.tagIndices.length → ∀ field, RowOf m (row.point field) (rows row)) →
        ReturnsTableRows env w m projection filters value (fun field => ReadBack (bound field)) rows ingested := by
  obtain ⟨stored, ingested, back, g1, g2, g3, hvalid, hdisjoint, hread, hback, hkeys, htags⟩ := saved_rows hs hcap hmax hreq hio h1 h2 h3 hanswered
    hg hin hm hbound hrows hvalues log2 hlog hlinear
  refine ⟨stored, ingested, g1, g2, g3, ?_⟩
  intro env w lt hlt hreads projection filters hq rows hrowOf
  obtain ⟨plan, hplan, hpf⟩ := hq.plan
  obtain ⟨parquet, grid, hfilters, hfull⟩ := hq.rewritten
  obtain ⟨batches, returned, n₀, a1, a2, a3, a4⟩ := EndToEnd.answer_of_rows hq.order hq.batch hm hunique hfree hq.asked hq.stored hplan hpf
    hfilters hq.forward hfull hlt hreads hvalid hdisjoint hback hkeys htags rows
    fun row hrow f => hrowOf row (htags row hrow) f
  obtain ⟨_, _, hres, _⟩ := planScan_ok hplan
  exact ⟨n₀, plan.result, batches, back, returned, mapM_option_eq_some.mp hres, a1, a2, hread, a3, a4⟩

/-! ### A table with two fields -/

/-- Buffers with up to 16 rows with two values, a hash without collisions and insertion sort. -/
def pairEnv : Model.Storage.Env (Nat × Nat) where
  capacity := 16
  hasher := fun bytes => bytes.foldl (fun h b => h * 256 + b.toNat) 1
  numFields := fun _ => 2
  sort := List.insertionSort (fun a b => a.1 ≤ b.1)
  segmentSizes := fun _ points => [points.length, points.length]

theorem pairEnv_sorts : Sorts pairEnv := by
  intro l
  have : Std.Total (fun a b : Int × (Nat × Nat) => a.1 ≤ b.1) := ⟨fun a b => Int.le_total a.1 b.1⟩
  have : IsTrans (Int × (Nat × Nat)) (fun a b => a.1 ≤ b.1) := ⟨fun a b c h1 h2 => Int.le_trans h1 h2⟩
  exact ⟨List.perm_insertionSort _ l, List.pairwise_insertionSort _ l⟩

instance (env : Model.Storage.Env (Nat × Nat)) (received : List (Model.Storage.Row (Nat × Nat))) : Decidable (Good env received) :=
  decidable_of_iff ((∀ r ∈ received, ∀ r' ∈ received,
    Model.Storage.calculateTagHash env r.table r.tags = Model.Storage.calculateTagHash env r'.table r'.tags →
    r.table = r'.table ∧ r.tags = r'.tags) ∧ (received.map key).Nodup) ⟨fun h => ⟨h.1, h.2⟩, fun h => ⟨h.hash, h.keys⟩⟩

instance (table : String) (received : List (Model.Storage.Row (Nat × Nat))) : Decidable (InOrder table received) := by
  unfold InOrder; infer_instance

/-- `ts TIMESTAMP, tag TAG, x FIELD, y FIELD(0.25)`. -/
def pairTable : Except Failure (Metadata (List String)) :=
  createFromSql listEnv "t" [.timestamp "ts", .tag "tag", .field "x", .fieldBound "y" (.fin false (1 / 4)) false]

/-- The definition of the table. -/
def pairMetadata : Metadata (List String) :=
  { name := "t", timestampIndex := 0, fieldIndices := [2, 3], tagIndices := [1]
    errorBounds := [.lossless, .lossless, .lossless, .absolute (.fin false (1 / 4))]
    generated := [none, none, none, none]
    schema := [⟨"ts", .timestamp, false⟩, ⟨"tag", .string, false⟩, ⟨"x", .value, false⟩, ⟨"y", .value, false⟩]
    querySchema := [⟨"ts", .timestamp, false⟩, ⟨"tag", .string, false⟩, ⟨"x", .value, false⟩, ⟨"y", .value, false⟩]
    querySchemaToSchema := [0, 1, 2, 3]
    compressedSchema := compressedSchemaBase ++ [⟨"tag", .string, false⟩] }

theorem pairTable_eq : pairTable = .ok pairMetadata := by decide +kernel

/-- The values of the fields of a row. -/
def pairValue (v : Nat × Nat) (field : Nat) : Nat := if field = 2 then v.1 else v.2

def pairRow (tag : String) (ts : Int) (x y : Nat) : Model.Storage.Row (Nat × Nat) := ⟨"t", [tag], ts, (x, y)⟩

/-- The columns of a row. -/
def pairColumns (row : TableRow) (name : String) : Value :=
  if name = "ts" then .time row.time
  else if name = "tag" then match row.tags with
    | [t] => .text t
    | _ => .null
  else if name = "x" then .number (row.values 2)
  else if name = "y" then .number (row.values 3)
  else .null

theorem pairColumns_rowOf (row : TableRow) (h : row.tags.length = 1) (field : Nat) :
    RowOf pairMetadata (row.point field) (pairColumns row) := by
  obtain ⟨t, tags, values⟩ := row
  match tags, h with
  | [tag], _ =>
    refine ⟨?_, ?_, rfl⟩
    · rintro c hc
      cases hc
      rfl
    · intro k j c tag' hk hj ht
      match k, hk with
      | 0, hk =>
        cases hk
        cases hj
        cases ht
        rfl
      | k + 1, hk => simp [pairMetadata] at hk

/-- The order in which segments are read. -/
def segmentLe (a b : StoredSegment) : Prop := tagsLt a.1 b.1 ∨ a.1 = b.1 ∧ a.2.startTime ≤ b.2.startTime

instance (a b : StoredSegment) : Decidable (segmentLe a b) := by unfold segmentLe; infer_instance

theorem tagsLt_order : StrictOrder tagsLt where
  irrefl a h := List.lt_irrefl a h
  trans a b c h g := List.lt_trans h g
  total a b h := by
    by_contra hn
    rw [not_or] at hn
    exact h (List.le_antisymm (List.not_lt.mp hn.2) (List.not_lt.mp hn.1))

/-- The segments of each field that are to be kept are read in one batch and sorted. -/
def pairWorld (stored : Nat → List StoredSegment) : World (List String) StoredSegment where
  interpretation := plainly
  segment := segmentOf
  rest _ _ := .null
  read keep i := [.item (((stored i).filter keep).insertionSort segmentLe)]
  meaning _ _ columns := columns.head?
  hashOrder := id
  batchSize := 8192

theorem pairWorld_reads (stored : Nat → List StoredSegment) (fields : List Nat) : ReadsSortedSegments (pairWorld stored) tagsLt fields stored where
  stored i _ := ⟨rfl, fun keep => by simp [NeverFails, pairWorld], fun keep => ⟨(stored i).filter keep,
    by simpa [pairWorld, itemsOf] using List.perm_insertionSort segmentLe _, List.filter_sublist, List.Sublist.refl _⟩⟩
  sorted i _ keep := by
    have htotal : Std.Total segmentLe := ⟨fun a b => by
      unfold segmentLe
      by_cases h : a.1 = b.1
      · rcases Int.le_total a.2.startTime b.2.startTime with h' | h'
        · exact Or.inl (Or.inr ⟨h, h'⟩)
        · exact Or.inr (Or.inr ⟨h.symm, h'⟩)
      · rcases tagsLt_order.total _ _ h with h' | h'
        · exact Or.inl (Or.inl h')
        · exact Or.inr (Or.inl h')⟩
    have htrans : IsTrans StoredSegment segmentLe := ⟨fun a b c h g => by
      rcases h with h | ⟨h, h'⟩ <;> rcases g with g | ⟨g, g'⟩
      · exact Or.inl (tagsLt_order.trans _ _ _ h g)
      · exact Or.inl (g ▸ h)
      · exact Or.inl (h ▸ g)
      · exact Or.inr ⟨h.trans g, Int.le_trans h' g'⟩⟩
    have := List.pairwise_insertionSort segmentLe ((stored i).filter keep)
    have hread : (itemsOf ((pairWorld stored).read keep i)).flatten = ((stored i).filter keep).insertionSort segmentLe := by
      simp [pairWorld, itemsOf]
    rw [hread]
    exact this

/-- Rows of two series are received and a flush is requested, which is done. -/
def pairOps : List (Model.Storage.Op (Nat × Nat)) × List (Model.Storage.Op (Nat × Nat)) :=
  ([.insert "t" [pairRow "b" 10 0x40000000 0x3f800000, pairRow "a" 10 0x3f800000 0x3f800000] (some 0) 2, .ingestionTake, .ingestionRow true,
      .ingestionRow true, .ingestionDone,
      .insert "t" [pairRow "a" 20 0xbf800000 0x3f8ccccd, pairRow "a" 35 0x40000000 0x3f666666] (some 1) 2],
    [.ingestionTake, .ingestionRow true, .ingestionRow true, .ingestionDone, .ingestionTake, .compressionTake, .compressionDone, .compressionTake,
      .compressionDone, .compressionTake, .write, .write, .write])

/-- The error bounds of the fields. -/
def pairBound (field : Nat) : ErrorBound := if field = 2 then .lossless else .absolute (.fin false (1 / 4))

/-- The segments that are stored for a field. -/
def pairStored (e : Model.Storage.Engine (Nat × Nat)) (field : Nat) : List StoredSegment :=
  (storedSegments exactLog2 pairMetadata pairValue field e.c.saved).getD []

/-- `SELECT ts, tag, x, y FROM t WHERE ts >= 20` returns the two of the four rows of the table that satisfy the filter. -/
example : ∃ (e₁ e₂ e : Model.Storage.Engine (Nat × Nat)),
    (Storage.Engine.new 100 1000 100).run pairEnv pairOps.1 = some e₁ ∧ e₁.step pairEnv .flush = some e₂ ∧ e₂.run pairEnv pairOps.2 = some e ∧
    (∃ ingested, (rowsOfTable "t" e₁.received).Subperm ingested ∧ ingested.Subperm (rowsOfTable "t" e.received) ∧
      ReturnsTableRows listEnv (pairWorld (pairStored e)) pairMetadata [0, 1, 2, 3] [.binary (.column "ts") .ge (.constant (.time 20))] pairValue
        (fun field => ReadBack (pairBound field)) pairColumns ingested) ∧
    (rowsOfTable "t" e₁.received).length = 4 ∧
    ∃ a, answer listEnv (pairWorld (pairStored e)) pairMetadata [0, 1, 2, 3] [.binary (.column "ts") .ge (.constant (.time 20))] 9 = .ok a ∧
      a.batches = [.ok [[.time 20, .time 35], [.tag "a", .tag "a"], [.value 0xbf800000, .value 0x40000000],
        [.value 0x3f800000, .value 0x3f800000]]] ∧ a.ending = .finished := by
  let e₁ := ((Storage.Engine.new 100 1000 100).run pairEnv pairOps.1).get (by decide +kernel)
  let e₂ := ((Storage.Engine.new 100 1000 100).run pairEnv (pairOps.1 ++ [.flush])).get (by decide +kernel)
  let e := ((Storage.Engine.new 100 1000 100).run pairEnv (pairOps.1 ++ [.flush] ++ pairOps.2)).get (by decide +kernel)
  have h1 : (Storage.Engine.new 100 1000 100).run pairEnv pairOps.1 = some e₁ := by decide +kernel
  have h2 : e₁.step pairEnv .flush = some e₂ := by decide +kernel
  have h3 : e₂.run pairEnv pairOps.2 = some e := by decide +kernel
  have hm : tryNew "t" pairMetadata.querySchema [.lossless, .lossless, .lossless, .absolute (.fin false (1 / 4))] [none, none, none, none] =
    .ok pairMetadata := by decide +kernel
  have hfields : ∀ {p : Nat → Prop}, p 2 → p 3 → ∀ field ∈ pairMetadata.fieldIndices, p field := by
    intro p hp hp' field hf
    simp only [pairMetadata, List.mem_cons, List.not_mem_nil, or_false] at hf
    rcases hf with rfl | rfl
    · exact hp
    · exact hp'
  have hrow : ∀ field ∈ pairMetadata.fieldIndices, ∀ r ∈ rowsOfTable "t" e.received, (r.tags.length = 1 ∧ (-2 ^ 63 ≤ r.ts ∧ r.ts < 2 ^ 63)) ∧
      pairValue r.val field < 2 ^ 32 ∧ (FVal.ofBits32 (pairValue r.val field)).isNan = false := by decide +kernel
  have hnone : ∀ field ∈ pairMetadata.fieldIndices, ∀ x ∈ e.c.saved, ∀ i < (x.points.map Prod.fst).length,
      (fitNextModel i (pairBound field) (x.points.map Prod.fst) (x.points.map fun p => pairValue p.2 field)).bytesPerValue.le (.fin false 4) =
        true → (fitNextModel i (pairBound field) (x.points.map Prod.fst) (x.points.map fun p => pairValue p.2 field)).modelType ≠ .swing := by
    decide +kernel
  have hvalues : ∀ v ∈ (rowsOfTable "t" e.received).map fun r => pairValue r.val 3,
      FVal.ofBits32 v = .fin false 1 ∨ FVal.ofBits32 v = .fin false (9227469 / 8388608) ∨ FVal.ofBits32 v = .fin false (7549747 / 8388608) := by
    decide +kernel
  obtain ⟨stored, ingested, g1, g2, g3, g4⟩ := C74_rows_partial pairEnv_sorts (by decide) (by decide) (request := .flush) (by decide)
    (by simp [pairOps, Op.ioOk]) h1 h2 h3 (by decide +kernel) (by decide +kernel) (by decide +kernel) hm (by decide) (by decide)
    (value := pairValue) (bound := pairBound) (by decide +kernel)
    (fun field hf r hr => ⟨(hrow field hf r hr).1.1, (hrow field hf r hr).1.2, (hrow field hf r hr).2.1, (hrow field hf r hr).2.2⟩)
    (hfields ⟨Or.inl rfl, by simp [pairBound], by simp [pairBound]⟩
      ⟨Or.inr ⟨0x3e800000, by decide, Or.inl (by decide +kernel)⟩, by simp [pairBound], fun _ v hv => by
        rcases hvalues v hv with h | h | h <;> rw [h] <;> simp only [pairBound, XorGuard] <;> norm_num⟩)
    exactLog2 exactLog2_accurate (fun field hf x hx _ => linearFaithful_of_none (hnone field hf x hx))
  have hstored : ∀ field ∈ pairMetadata.fieldIndices, stored field = pairStored e field := by
    intro field hf
    rw [pairStored, g1 field hf]
    rfl
  refine ⟨e₁, e₂, e, h1, h2, h3, ⟨ingested, g2, g3, g4 listEnv _ tagsLt tagsLt_order ?_ _ _ ?_ pairColumns
    fun row hr field => pairColumns_rowOf row hr field⟩, by decide +kernel, ?_⟩
  · have := pairWorld_reads (pairStored e) pairMetadata.fieldIndices
    exact ⟨fun i hi => by rw [hstored i hi]; exact this.stored i hi, this.sorted⟩
  · refine ⟨by simp, by decide, ⟨_, rfl, by decide⟩, ⟨_, _, rfl, fun i _ => ?_⟩, by simp [ReversedEquality], fun _ _ => Iff.rfl,
      show 1 ≤ 8192 by decide⟩
    simp [FullBatches, pairWorld, itemsOf]
  · have ha : ((answer listEnv (pairWorld (pairStored e)) pairMetadata [0, 1, 2, 3] [.binary (.column "ts") .ge (.constant (.time 20))] 9).toOption.map
        fun a => (a.batches, a.ending)) = some ([.ok [[.time 20, .time 35], [.tag "a", .tag "a"], [.value 0xbf800000, .value 0x40000000],
        [.value 0x3f800000, .value 0x3f800000]]], .finished) := by decide +kernel
    generalize answer listEnv _ pairMetadata [0, 1, 2, 3] _ 9 = r at ha ⊢
    cases r with
    | error f => cases ha
    | ok a =>
      simp only [Except.toOption, Option.map_some, Option.some.injEq, Prod.mk.injEq] at ha
      exact ⟨a, rfl, ha⟩

/-! ### The property without the condition -/

/-- The rows of a buffer that is full and two rows that are older than some of them. -/
def lateIngested : List (Model.Storage.Row (Nat × Nat)) :=
  [10, 20, 30, 40, 50, 60, 70, 80].map (fun t => pairRow "a" t 0x3f800000 0x3f800000) ++
    [90, 100, 110, 120, 130, 140, 150, 160].map (fun t => pairRow "a" t 0x3f800000 0x40000000) ++
    [pairRow "a" 45 0x3f800000 0x40400000, pairRow "a" 46 0x3f800000 0x40400000]

/-- The rows are received and a flush is requested, which is done. -/
def lateOps : List (Model.Storage.Op (Nat × Nat)) :=
  [.insert "t" lateIngested (some 0) 18, .ingestionTake] ++ List.replicate 18 (.ingestionRow true) ++
    [.ingestionDone, .flush, .ingestionTake, .compressionTake, .compressionDone, .compressionTake, .compressionDone, .compressionTake, .write,
      .write, .write]

/-- **C74** is false of the code if the rows of a series are not received in the order of their timestamps: all rows are well-formed and were
saved, the segments are read in order, and the query returns the value 3 for `y` at timestamp 90, for which 2 was received. The value is that of
the row with timestamp 45. -/
theorem C74_rows_mixed : ∃ e : Model.Storage.Engine (Nat × Nat), (Storage.Engine.new 100 1000 100).run pairEnv lateOps = some e ∧
    Good pairEnv e.received ∧ e.received = lateIngested ∧ (savedRows e).Perm e.received ∧
    (∀ field ∈ pairMetadata.fieldIndices, storedSegments exactLog2 pairMetadata pairValue field e.c.saved = some (pairStored e field)) ∧
    ReadsSortedSegments (pairWorld (pairStored e)) tagsLt pairMetadata.fieldIndices (pairStored e) ∧
    FieldsQuery listEnv (pairWorld (pairStored e)) pairMetadata [0, 2, 3] [] ∧
    ∃ batches, answer listEnv (pairWorld (pairStored e)) pairMetadata [0, 2, 3] [] 9 =
        .ok ⟨[⟨"ts", .timestamp, false⟩, ⟨"x", .value, false⟩, ⟨"y", .value, false⟩], batches, .finished⟩ ∧
      (∃ columns, .ok columns ∈ batches ∧ [.time 90, .value 0x3f800000, .value 0x40400000] ∈ rowsOfColumns columns) ∧
      ∀ r ∈ e.received, r.ts = 90 → ¬ ReadBack (pairBound 3) (pairValue r.val 3) 0x40400000 := by
  refine ⟨((Storage.Engine.new 100 1000 100).run pairEnv lateOps).get (by decide +kernel), by decide +kernel, by decide +kernel, by decide +kernel,
    by decide +kernel, by decide +kernel, pairWorld_reads _ _, ?_, ?_⟩
  · refine ⟨by simp, by decide, ⟨_, rfl, by decide⟩, ⟨_, _, rfl, fun i _ => ?_⟩, by simp, fun _ _ => Iff.rfl, show 1 ≤ 8192 by decide⟩
    simp [FullBatches, pairWorld, itemsOf]
  · have ha : ((answer listEnv (pairWorld (pairStored (((Storage.Engine.new 100 1000 100).run pairEnv lateOps).get (by decide +kernel))))
        pairMetadata [0, 2, 3] [] 9).toOption.map fun a => (a.batches, a.ending)) =
        some ([.ok [[10, 20, 30, 40, 50, 60, 70, 80, 90, 100, 110, 120, 130, 140, 150, 160, 45, 46].map .time,
            List.replicate 18 (.value 0x3f800000),
            List.replicate 8 (.value 0x3f800000) ++ [.value 0x40400000, .value 0x40400000] ++ List.replicate 8 (.value 0x40000000)]],
          .finished) := by decide +kernel
    have hc : ((answer listEnv (pairWorld (pairStored (((Storage.Engine.new 100 1000 100).run pairEnv lateOps).get (by decide +kernel))))
        pairMetadata [0, 2, 3] [] 9).toOption.map fun a => a.columns) =
        some [⟨"ts", .timestamp, false⟩, ⟨"x", .value, false⟩, ⟨"y", .value, false⟩] := by decide +kernel
    generalize answer listEnv _ pairMetadata [0, 2, 3] _ 9 = r at ha hc ⊢
    cases r with
    | error f => cases ha
    | ok a =>
      obtain ⟨columns, batches, ending⟩ := a
      simp only [Except.toOption, Option.map_some, Option.some.injEq, Prod.mk.injEq] at ha hc
      obtain ⟨rfl, rfl⟩ := ha
      subst hc
      refine ⟨_, rfl, ⟨_, List.mem_singleton.mpr rfl, by decide +kernel⟩, ?_⟩
      have hval : ∀ r ∈ (((Storage.Engine.new 100 1000 100).run pairEnv lateOps).get (by decide +kernel)).received, r.ts = 90 →
          FVal.ofBits32 (pairValue r.val 3) = .fin false 2 := by decide +kernel
      intro r hr ht h
      have h3 : FVal.ofBits32 0x40400000 = .fin false 3 := by decide +kernel
      simp only [ReadBack, pairBound, show ¬ (3 = 2) by decide, if_false, ReadWithin, hval r hr ht, h3, WithinExact, ratOf] at h
      norm_num at h

end ModelarDB.Props
