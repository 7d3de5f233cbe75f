import Verif.Lemmas.GeneratedRows
import Verif.Props.C74
/-
C77: a query for generated columns returns the values of their expressions for the rows that were ingested.
-/
namespace ModelarDB.Props
open Model Model.Query Model.TableDefinition Model.StoredTable Spec Spec.Storage Lemmas

variable {α ε : Type}

/-- **C77** in the parts that hold: as `C74_rows_partial`, but for queries for any columns of the table, stored or generated. There is a selection
of the rows of the table that were received at the end that has all rows that were received before the request, for each of them a row is read
with its timestamp and tags and for each field a value within the error bound of the field, and a query returns for each row of the selection
that satisfies its filters one row. It has for each generated column the value of its expression for the values that are read for the same
row, also if the columns the expression refers to are not in the query. If an expression has no value in a row the batch with the row is an
error, all other batches are returned. This is so for every meaning of expressions that computes each row on its own. Missing: batches of segments that are read and are not full (C36), and what is missing in C73. -/
theorem C77_generated_partial {store : Model.Storage.Env α} (hs : Sorts store) (hcap : 2 ≤ store.capacity) (hmax : store.capacity < 2 ^ 63)
    {i u c : Nat} {before after : List (Model.Storage.Op α)} {request : Model.Storage.Op α} (hreq : Op.isRequest request)
    (hio : ∀ op ∈ before ++ after, Op.ioOk op) {e₁ e₂ e : Model.Storage.Engine α} (h1 : (Storage.Engine.new i u c).run store before = some e₁)
    (h2 : e₁.step store request = some e₂) (h3 : e₂.run store after = some e)
    (hanswered : before.countP Op.isRequest < e.results.length) (hg : Good store e.received)
    {name : String} (hin : InOrder name e.received) {qs : List Column} {bs : List ErrorBound} {gs : List (Option (Generated ε))}
    {m : Metadata ε} (hm : tryNew name qs bs gs = .ok m) (hunique : (qs.map (·.name)).Nodup) (hfree : ∀ tag ∈ tagNamesOf m, FreeName tag)
    {value : α → Nat → Nat} {bound : Nat → ErrorBound} (hbound : ∀ field ∈ m.fieldIndices, m.errorBounds[field]? = some (bound field))
    (hrows : ∀ field ∈ m.fieldIndices, ∀ r ∈ rowsOfTable name e.received, WellFormed m.tagIndices.length value field r)
    (hvalues : ∀ field ∈ m.fieldIndices, Compressible (bound field) ((rowsOfTable name e.received).map fun r => value r.val field))
    (log2 : Log2) (hlog : Log2Accurate log2)
    (hlinear : ∀ field ∈ m.fieldIndices, ∀ x ∈ e.c.saved, x.table = name →
      LinearFaithful (ReadBack (bound field)) (bound field) (x.points.map Prod.fst) (x.points.map fun p => value p.2 field)) :
    ∃ (stored : Nat → List StoredSegment) (ingested : List (Model.Storage.Row α)),
      (∀ field ∈ m.fieldIndices, storedSegments log2 m value field e.c.saved = some (stored field)) ∧
      (rowsOfTable name e₁.received).Subperm ingested ∧ ingested.Subperm (rowsOfTable name e.received) ∧
      ∀ (env : Env ε) (w : World ε StoredSegment) (lt : List String → List String → Prop), StrictOrder lt →
        ReadsSortedSegments w lt m.fieldIndices stored → ∀ evaluate : ε → List Cell → Option Cell, RowWise env.refs w.meaning evaluate →
        ∀ (projection : List Nat) (filters : List Expr),
        ColumnsQuery env w m projection filters → ∀ rows : TableRow → String → Value,
        (∀ row, row.tags.length = m.tagIndices.length → ∀ field, RowOf m (row.point field) (rows row)) →
        ReturnsColumns env w m projection filters evaluate value (fun field => ReadBack (bound field)) rows ingested := by
  obtain ⟨stored, ingested, back, g1, g2, g3, hvalid, hdisjoint, hread, hback, hkeys, htags⟩ := saved_rows hs hcap hmax hreq hio h1 h2 h3 hanswered
    hg hin hm hbound hrows hvalues log2 hlog hlinear
  refine ⟨stored, ingested, g1, g2, g3, ?_⟩
  intro env w lt hlt hreads evaluate hrow projection filters hq rows hrowOf
  obtain ⟨plan, hplan, hpf⟩ := hq.plan
  obtain ⟨parquet, grid, hfilters, hfull⟩ := hq.rewritten
  have hexec := (planScan_executable hq.order hm hunique hplan).mpr ⟨hq.fields, hq.reads⟩
  have hne : projection ≠ [] := by
    obtain ⟨i, hi, _⟩ := hq.reads
    exact List.ne_nil_of_mem hi
  obtain ⟨out, returned, n₀, a1, a2, a3, a4, a5⟩ := EndToEnd.join_of_rows hq.batch hm hunique hfree hplan hexec hpf hfilters hq.forward hfull hlt
    hreads hvalid hdisjoint hback hkeys htags rows fun row hr field => hrowOf row (htags row hr) field
  have hnames : plan.joinSchema.map (·.name) ≠ [] := by
    simp only [Plan.executable, Bool.and_eq_true, decide_eq_true_eq, Bool.not_eq_true', List.isEmpty_eq_false_iff] at hexec
    intro h
    rw [List.map_eq_nil_iff] at h
    rw [h] at hexec
    exact hexec.2 (List.length_eq_zero_iff.mp hexec.1)
  obtain ⟨parts, b1, b2⟩ := GeneratedRows.split_rows hnames (cell := storedCell m) (by simpa using a2) (by simpa [Function.comp_def] using a3)
  obtain ⟨_, _, hres, _⟩ := planScan_ok hplan
  refine ⟨n₀, plan.result, _, parts, back, mapM_option_eq_some.mp hres, a1, ?_, hread, by rw [b1]; exact a4, by rw [b1]; exact a5⟩
  rw [List.forall₂_map_right_iff]
  refine b2.imp ?_
  rintro part columns ⟨c1, rfl⟩
  exact GeneratedRows.finish_part hq.order hm hne hplan hexec hrow c1

/-- Every value of expressions in rows has a meaning for columns. -/
theorem rowWise_of_rows (refs : ε → List String) (evaluate : ε → List Cell → Option Cell) :
    RowWise refs (fun e n columns => (if columns.isEmpty then List.replicate n [] else rowsOfColumns columns).mapM (evaluate e)) evaluate := by
  intro e rows
  by_cases he : refs e = []
  · simp only [he, List.map_nil, List.isEmpty_nil, if_true]
    induction rows with
    | nil => rfl
    | cons row rows ih => rw [List.length_cons, List.replicate_succ, List.mapM_cons, List.mapM_cons, ih]
  have hc : ((refs e).map fun name => rows.map fun row => row name).isEmpty = false := by simpa using he
  simp only [hc, Bool.false_eq_true, if_false]
  have h : rowsOfColumns ((refs e).map fun name => rows.map fun row => row name) = rows.map fun row => (refs e).map row := by
    have := GeneratedRows.rowsOfColumns_eq (columns := (refs e).map fun name => rows.map fun row => row name) (n := rows.length) (by simpa using he)
      (by simp)
    refine List.map_injective_iff.mpr (List.map_injective_iff.mpr (Option.some_injective _)) (this.trans ?_)
    refine List.ext_getElem (by simp) fun i hi hi' => ?_
    have hir : i < rows.length := by simpa using hi
    simp [List.getElem?_eq_getElem hir]
  simp only [h]
  clear h hc
  induction rows with
  | nil => rfl
  | cons row rows ih => rw [List.map_cons, List.mapM_cons, List.mapM_cons, ih]


/-! ### A table with a generated column -/

/-- `ts TIMESTAMP, tag TAG, s FIELD AS x + y, x FIELD, y FIELD(0.25)`. The expression is given by the columns it refers to. -/
def totalTable : Except Failure (Metadata (List String)) :=
  createFromSql listEnv "t" [.timestamp "ts", .tag "tag", .fieldAs "s" ["x", "y"], .field "x", .fieldBound "y" (.fin false (1 / 4)) false]

/-- The definition of the table. -/
def totalMetadata : Metadata (List String) :=
  { pairMetadata with
    generated := [none, none, some ⟨["x", "y"], [3, 4]⟩, none, none]
    querySchema := [⟨"ts", .timestamp, false⟩, ⟨"tag", .string, false⟩, ⟨"s", .value, false⟩, ⟨"x", .value, false⟩, ⟨"y", .value, false⟩]
    querySchemaToSchema := [0, 1, 3, 4] }

theorem totalTable_eq : totalTable = .ok totalMetadata := by decide +kernel

/-- The sum of two values. Expressions for other cells have no value. -/
def totalOf (_ : List String) : List Cell → Option Cell
  | [.value a, .value b] => some (.value ((FVal.ofBits32 a).add f32Fmt (FVal.ofBits32 b)).toBits32)
  | _ => none

/-- The segments are read as for the table without the generated column. -/
def totalWorld (stored : Nat → List StoredSegment) : World (List String) StoredSegment :=
  { pairWorld stored with meaning := fun e n columns => (if columns.isEmpty then List.replicate n [] else rowsOfColumns columns).mapM (totalOf e) }

theorem totalWorld_reads (stored : Nat → List StoredSegment) (fields : List Nat) : ReadsSortedSegments (totalWorld stored) tagsLt fields stored :=
  ⟨fun i hi => ⟨rfl, ((pairWorld_reads stored fields).stored i hi).neverFails, ((pairWorld_reads stored fields).stored i hi).contents⟩,
    (pairWorld_reads stored fields).sorted⟩

theorem totalColumns_rowOf (row : TableRow) (h : row.tags.length = 1) (field : Nat) : RowOf totalMetadata (row.point field) (pairColumns row) :=
  ⟨(pairColumns_rowOf row h field).time, (pairColumns_rowOf row h field).tags, (pairColumns_rowOf row h field).count⟩

/-- The segments that are stored for a field. -/
def totalStored (e : Model.Storage.Engine (Nat × Nat)) (field : Nat) : List StoredSegment :=
  (storedSegments exactLog2 totalMetadata pairValue field e.c.saved).getD []

/-- `SELECT ts, s FROM t WHERE ts >= 20` returns the sums of the two of the four rows of the table that satisfy the filter. -/
example : ∃ (e₁ e₂ e : Model.Storage.Engine (Nat × Nat)),
    (Storage.Engine.new 100 1000 100).run pairEnv pairOps.1 = some e₁ ∧ e₁.step pairEnv .flush = some e₂ ∧ e₂.run pairEnv pairOps.2 = some e ∧
    (∃ ingested, (rowsOfTable "t" e₁.received).Subperm ingested ∧ ingested.Subperm (rowsOfTable "t" e.received) ∧
      ReturnsColumns listEnv (totalWorld (totalStored e)) totalMetadata [0, 2] [.binary (.column "ts") .ge (.constant (.time 20))] totalOf pairValue
        (fun field => ReadBack (pairBound field)) pairColumns ingested) ∧
    (rowsOfTable "t" e₁.received).length = 4 ∧
    ∃ a, answer listEnv (totalWorld (totalStored e)) totalMetadata [0, 2] [.binary (.column "ts") .ge (.constant (.time 20))] 9 = .ok a ∧
      a.batches = [.ok [[.time 20, .time 35], [.value 0, .value 0x40400000]]] ∧ a.ending = .finished := by
  let e₁ := ((Storage.Engine.new 100 1000 100).run pairEnv pairOps.1).get (by decide +kernel)
  let e₂ := ((Storage.Engine.new 100 1000 100).run pairEnv (pairOps.1 ++ [.flush])).get (by decide +kernel)
  let e := ((Storage.Engine.new 100 1000 100).run pairEnv (pairOps.1 ++ [.flush] ++ pairOps.2)).get (by decide +kernel)
  have h1 : (Storage.Engine.new 100 1000 100).run pairEnv pairOps.1 = some e₁ := by decide +kernel
  have h2 : e₁.step pairEnv .flush = some e₂ := by decide +kernel
  have h3 : e₂.run pairEnv pairOps.2 = some e := by decide +kernel
  have hm : tryNew "t" totalMetadata.querySchema [.lossless, .lossless, .lossless, .lossless, .absolute (.fin false (1 / 4))] totalMetadata.generated =
    .ok totalMetadata := by decide +kernel
  have hfields : ∀ {p : Nat → Prop}, p 2 → p 3 → ∀ field ∈ totalMetadata.fieldIndices, p field := by
    intro p hp hp' field hf
    simp only [totalMetadata, pairMetadata, List.mem_cons, List.not_mem_nil, or_false] at hf
    rcases hf with rfl | rfl
    · exact hp
    · exact hp'
  have hrow : ∀ field ∈ totalMetadata.fieldIndices, ∀ r ∈ rowsOfTable "t" e.received, (r.tags.length = 1 ∧ (-2 ^ 63 ≤ r.ts ∧ r.ts < 2 ^ 63)) ∧
      pairValue r.val field < 2 ^ 32 ∧ (FVal.ofBits32 (pairValue r.val field)).isNan = false := by decide +kernel
  have hnone : ∀ field ∈ totalMetadata.fieldIndices, ∀ x ∈ e.c.saved, ∀ i < (x.points.map Prod.fst).length,
      (fitNextModel i (pairBound field) (x.points.map Prod.fst) (x.points.map fun p => pairValue p.2 field)).bytesPerValue.le (.fin false 4) =
        true → (fitNextModel i (pairBound field) (x.points.map Prod.fst) (x.points.map fun p => pairValue p.2 field)).modelType ≠ .swing := by
    decide +kernel
  have hvalues : ∀ v ∈ (rowsOfTable "t" e.received).map fun r => pairValue r.val 3,
      FVal.ofBits32 v = .fin false 1 ∨ FVal.ofBits32 v = .fin false (9227469 / 8388608) ∨ FVal.ofBits32 v = .fin false (7549747 / 8388608) := by
    decide +kernel
  obtain ⟨stored, ingested, g1, g2, g3, g4⟩ := C77_generated_partial pairEnv_sorts (by decide) (by decide) (request := .flush) (by decide)
    (by simp [pairOps, Op.ioOk]) h1 h2 h3 (by decide +kernel) (by decide +kernel) (by decide +kernel) hm (by decide) (by decide)
    (value := pairValue) (bound := pairBound) (by decide +kernel)
    (fun field hf r hr => ⟨(hrow field hf r hr).1.1, (hrow field hf r hr).1.2, (hrow field hf r hr).2.1, (hrow field hf r hr).2.2⟩)
    (hfields ⟨Or.inl rfl, by simp [pairBound], by simp [pairBound]⟩
      ⟨Or.inr ⟨0x3e800000, by decide, Or.inl (by decide +kernel)⟩, by simp [pairBound], fun _ v hv => by
        rcases hvalues v hv with h | h | h <;> rw [h] <;> simp only [pairBound, XorGuard] <;> norm_num⟩)
    exactLog2 exactLog2_accurate (fun field hf x hx _ => linearFaithful_of_none (hnone field hf x hx))
  have hstored : ∀ field ∈ totalMetadata.fieldIndices, stored field = totalStored e field := by
    intro field hf
    rw [totalStored, g1 field hf]
    rfl
  refine ⟨e₁, e₂, e, h1, h2, h3, ⟨ingested, g2, g3, g4 listEnv _ tagsLt tagsLt_order ?_ totalOf (rowWise_of_rows _ _) _ _ ?_ pairColumns
    fun row hr field => totalColumns_rowOf row hr field⟩, by decide +kernel, ?_⟩
  · have := totalWorld_reads (totalStored e) totalMetadata.fieldIndices
    exact ⟨fun i hi => by rw [hstored i hi]; exact this.stored i hi, this.sorted⟩
  · have hcolumns : ∀ {p : Nat → Prop}, p 0 → p 2 → ∀ i ∈ [0, 2], p i := by
      intro p hp hp' i hi
      simp only [List.mem_cons, List.not_mem_nil, or_false] at hi
      rcases hi with rfl | rfl
      · exact hp
      · exact hp'
    refine ⟨hcolumns (by rintro g c ⟨⟩) (by rintro g c _ ⟨⟩; decide), ⟨0, by simp, Or.inl rfl⟩,
      ⟨_, rfl, by decide⟩, ⟨_, _, rfl, fun i _ => ?_⟩, by simp [ReversedEquality], fun _ _ => Iff.rfl,
      show 1 ≤ 8192 by decide⟩
    simp [FullBatches, totalWorld, pairWorld, itemsOf]
  · have ha : ((answer listEnv (totalWorld (totalStored e)) totalMetadata [0, 2] [.binary (.column "ts") .ge (.constant (.time 20))] 9).toOption.map
        fun a => (a.batches, a.ending)) = some ([.ok [[.time 20, .time 35], [.value 0, .value 0x40400000]]], .finished) := by decide +kernel
    generalize answer listEnv _ totalMetadata [0, 2] _ 9 = r at ha ⊢
    cases r with
    | error f => cases ha
    | ok a =>
      simp only [Except.toOption, Option.map_some, Option.some.injEq, Prod.mk.injEq] at ha
      exact ⟨a, rfl, ha⟩

/-- A constant, for all expressions. -/
def oneOf (_ : List String) (_ : List Cell) : Option Cell := some (.value 0x3f800000)

/-- `SELECT one, ts FROM t` for the table `constantMetadata` of C57, in which `one` is `1.0`: the query reads stored columns, and the constant is repeated for each row of a
batch. `SELECT one FROM t` does not (`C57_constant_column_panics`). -/
example : RowWise listEnv.refs (fun e n columns => (if columns.isEmpty then List.replicate n [] else rowsOfColumns columns).mapM (oneOf e)) oneOf ∧
    GeneratedFieldsIn constantMetadata [3, 0] ∧ ReadsStored constantMetadata [3, 0] ∧ ∃ plan, planScan listEnv id constantMetadata [3, 0] = .ok plan ∧
    finish (evaluateGenerated listEnv { totalWorld (fun _ => []) with
        meaning := fun e n columns => (if columns.isEmpty then List.replicate n [] else rowsOfColumns columns).mapM (oneOf e) } plan.joinSchema) plan
      [[.time 10, .time 20]] = .ok [[.value 0x3f800000, .value 0x3f800000], [.time 10, .time 20]] := by
  refine ⟨rowWise_of_rows _ _, ?_, ⟨0, by simp, Or.inl rfl⟩, _, rfl, by decide +kernel⟩
  intro i hi
  simp only [List.mem_cons, List.not_mem_nil, or_false] at hi
  rcases hi with rfl | rfl
  · rintro g c _ ⟨⟩; decide
  · rintro g c ⟨⟩

end ModelarDB.Props
