import Verif.Props.C10Lines
import Verif.Props.C73Rows
import Verif.Props.C77
import Verif.Props.C79
/-
C73, C74, C77 and C79 with conditions on the rows that are received only: the linear models that are chosen are read back as required because the values of
the rows have a scale.
-/
namespace ModelarDB.Props
open Model Model.Query Model.TableDefinition Model.StoredTable Model.Restarts Spec Spec.Storage Spec.Restarts Lemmas Lemmas.StoredRows

variable {α ε : Type}

/-- The values of all fields of the rows have a scale. -/
def ScaledFields (bound : Nat → ErrorBound) (n : Nat) (value : α → Nat → Nat) (fields : List Nat) (rows : List (Model.Storage.Row α)) : Prop :=
  ∀ field ∈ fields, ∃ m M G T D, RowsScale (bound field) n value field rows m M G T D

/-- The linear models of rows with a scale are read back. -/
theorem linear_of_members {eb : ErrorBound} (hvalid : ValidErrorBound eb) {n : Nat} {value : α → Nat → Nat} {field : Nat} {name : String}
    {received : List (Model.Storage.Row α)} {saved : List (Model.Storage.Chunk α)} (hsub : ∀ r ∈ saved.flatMap chunkRows, r ∈ received)
    (hchunks : ∀ x ∈ saved, x.points ≠ [] ∧ x.points.length ≤ n ∧ StrictlyIncreasing (x.points.map Prod.fst)) {numTags : Nat}
    (hrows : ∀ r ∈ rowsOfTable name received, WellFormed numTags value field r) {m M G T D : ℚ}
    (hscale : RowsScale eb n value field (rowsOfTable name received) m M G T D) :
    ∀ x ∈ saved, x.table = name → LinearFaithful (ReadBack eb) eb (x.points.map Prod.fst) (x.points.map fun p => value p.2 field) := by
  intro x hx ht
  obtain ⟨h1, h2, h3⟩ := hchunks x hx
  have hmem : ∀ r ∈ chunkRows x, r ∈ rowsOfTable name received := by
    intro r hr
    refine List.mem_filter.mpr ⟨hsub r (List.mem_flatMap.mpr ⟨x, hx, hr⟩), ?_⟩
    obtain ⟨p, _, rfl⟩ := List.mem_map.mp hr
    simpa using ht
  have hfaithful : LinearFaithful (ReadWithin eb) eb (x.points.map Prod.fst) (x.points.map fun p => value p.2 field) := by
    refine faithful_of_scale hvalid (by simp) ?_ (chunk_scale hscale h1 hmem h3 h2)
    intro t ht
    obtain ⟨p, hp, rfl⟩ := List.mem_map.mp ht
    exact (hrows _ (hmem _ (List.mem_map.mpr ⟨p, hp, rfl⟩))).time
  cases eb with
  | lossless => exact faithful_lossless hfaithful
  | absolute b => exact hfaithful
  | relative p => exact hfaithful

theorem linear_of_rows {eb : ErrorBound} (hvalid : ValidErrorBound eb) {n : Nat} {value : α → Nat → Nat} {field : Nat} {name : String}
    {received : List (Model.Storage.Row α)} {saved : List (Model.Storage.Chunk α)} (hsub : (saved.flatMap chunkRows).Subperm received)
    (hchunks : ∀ x ∈ saved, x.points ≠ [] ∧ x.points.length ≤ n ∧ StrictlyIncreasing (x.points.map Prod.fst)) {numTags : Nat}
    (hrows : ∀ r ∈ rowsOfTable name received, WellFormed numTags value field r) {m M G T D : ℚ}
    (hscale : RowsScale eb n value field (rowsOfTable name received) m M G T D) :
    ∀ x ∈ saved, x.table = name → LinearFaithful (ReadBack eb) eb (x.points.map Prod.fst) (x.points.map fun p => value p.2 field) :=
  linear_of_members hvalid (fun _ h => hsub.subset h) hchunks hrows hscale

/-- **C73** for a lossless field and rows with a scale: that linear models are read back unchanged follows. All conditions are about the rows that are
received. Missing: as for `C73_lossless_partial`, the rows with a scale are those whose values are large enough for the rounding on lines through them. -/
theorem C73_lossless_rows_partial {store : Model.Storage.Env α} (hs : Sorts store) (hcap : 2 ≤ store.capacity) (hmax : store.capacity < 2 ^ 63)
    {i u c : Nat} {before after : List (Model.Storage.Op α)} {request : Model.Storage.Op α} (hreq : Op.isRequest request)
    (hio : ∀ op ∈ before ++ after, Op.ioOk op) {e₁ e₂ e : Model.Storage.Engine α} (h1 : (Storage.Engine.new i u c).run store before = some e₁)
    (h2 : e₁.step store request = some e₂) (h3 : e₂.run store after = some e)
    (hanswered : before.countP Op.isRequest < e.results.length) (hg : Good store e.received)
    {name : String} {qs : List Column} {bs : List ErrorBound} {gs : List (Option (Generated ε))} {md : Metadata ε}
    (hm : tryNew name qs bs gs = .ok md) (hunique : (qs.map (·.name)).Nodup) (hfree : ∀ tag ∈ tagNamesOf md, FreeName tag)
    {value : α → Nat → Nat} {field : Nat} (hfield : field ∈ md.fieldIndices) (heb : md.errorBounds[field]? = some .lossless)
    (hrows : ∀ r ∈ rowsOfTable name e.received, WellFormed md.tagIndices.length value field r) (log2 : Log2)
    {m M G T D : ℚ} (hscale : RowsScale .lossless store.capacity value field (rowsOfTable name e.received) m M G T D) :
    ∃ stored ingested, storedSegments log2 md value field e.c.saved = some stored ∧
      (rowsOfTable name e₁.received).Subperm ingested ∧ ingested.Subperm (rowsOfTable name e.received) ∧
      ∀ (env : Env ε) (w : World ε StoredSegment), ReadsStoredSegments w field stored → ∀ (projection : List Nat) (filters : List Expr),
        OneFieldQuery env w md projection filters field → ∀ rows : Point → String → Value,
        (∀ p, p.tags.length = md.tagIndices.length → RowOf md p (rows p)) →
        ReturnsRows env w md projection filters field value SameFloat rows ingested := by
  obtain ⟨hrun, hio'⟩ := EndToEnd.run_request hreq hio h1 h2 h3
  obtain ⟨hsub, hchunks⟩ := EndToEnd.saved_spec hs hcap hio' hrun hg
  exact C73_lossless_partial hs hcap hmax hreq hio h1 h2 h3 hanswered hg hm hunique hfree hfield heb hrows log2
    (linear_of_rows (.inl rfl) hsub hchunks hrows hscale)

/-- The rows of C86 have a scale also for lossless compression: two values of a series differ by `0.5`, and rounding is far smaller than their precision. -/
example : RowsScale .lossless 4 (fun v _ => v) 2 (rowsOfTable "t" flushedRows.2.2.received) 100 102 (1 / 100000) 120000 60000 := by
  rw [flushedRows_received]
  refine ⟨?_, ?_, ?_, ?_, ?_, ?_, ?_, ?_, ?_⟩
  · unfold FiniteBits; decide +kernel
  · decide +kernel
  · decide +kernel
  · decide +kernel
  · decide +kernel
  · decide +kernel
  · norm_num
  · norm_num
  · exact Or.inl ⟨rfl, by norm_num⟩

/-- **C74** for rows with a scale: all conditions are about the rows that are received. -/
theorem C74_rows_scale_partial {store : Model.Storage.Env α} (hs : Sorts store) (hcap : 2 ≤ store.capacity) (hmax : store.capacity < 2 ^ 63)
    {i u c : Nat} {before after : List (Model.Storage.Op α)} {request : Model.Storage.Op α} (hreq : Op.isRequest request)
    (hio : ∀ op ∈ before ++ after, Op.ioOk op) {e₁ e₂ e : Model.Storage.Engine α} (h1 : (Storage.Engine.new i u c).run store before = some e₁)
    (h2 : e₁.step store request = some e₂) (h3 : e₂.run store after = some e)
    (hanswered : before.countP Op.isRequest < e.results.length) (hg : Good store e.received)
    {name : String} (hin : InOrder name e.received) {qs : List Column} {bs : List ErrorBound} {gs : List (Option (Generated ε))}
    {m : Metadata ε} (hm : tryNew name qs bs gs = .ok m) (hunique : (qs.map (·.name)).Nodup) (hfree : ∀ tag ∈ tagNamesOf m, FreeName tag)
    {value : α → Nat → Nat} {bound : Nat → ErrorBound} (hbound : ∀ field ∈ m.fieldIndices, m.errorBounds[field]? = some (bound field))
    (hrows : ∀ field ∈ m.fieldIndices, ∀ r ∈ rowsOfTable name e.received, WellFormed m.tagIndices.length value field r)
    (hvalues : ∀ field ∈ m.fieldIndices, Compressible (bound field) ((rowsOfTable name e.received).map fun r => value r.val field))
    (log2 : Log2) (hlog : Log2Accurate log2)
    (hscale : ScaledFields bound store.capacity value m.fieldIndices (rowsOfTable name e.received)) :
    ∃ (stored : Nat → List StoredSegment) (ingested : List (Model.Storage.Row α)),
      (∀ field ∈ m.fieldIndices, storedSegments log2 m value field e.c.saved = some (stored field)) ∧
      (rowsOfTable name e₁.received).Subperm ingested ∧ ingested.Subperm (rowsOfTable name e.received) ∧
      ∀ (env : Env ε) (w : World ε StoredSegment) (lt : List String → List String → Prop), StrictOrder lt →
        ReadsSortedSegments w lt m.fieldIndices stored → ∀ (projection : List Nat) (filters : List Expr),
        FieldsQuery env w m projection filters → ∀ rows : TableRow → String → Value,
        (∀ row, row.tags.length = m.tagIndices.length → ∀ field, RowOf m (row.point field) (rows row)) →
        ReturnsTableRows env w m projection filters value (fun field => ReadBack (bound field)) rows ingested := by
  obtain ⟨hrun, hio'⟩ := EndToEnd.run_request hreq hio h1 h2 h3
  obtain ⟨hsub, hchunks⟩ := EndToEnd.saved_spec hs hcap hio' hrun hg
  refine C74_rows_partial hs hcap hmax hreq hio h1 h2 h3 hanswered hg hin hm hunique hfree hbound hrows hvalues log2 hlog fun field hf => ?_
  obtain ⟨a, M, G, T, D, h⟩ := hscale field hf
  exact linear_of_rows (hvalues field hf).valid hsub hchunks (hrows field hf) h

/-- **C77** for rows with a scale: all conditions are about the rows that are received. -/
theorem C77_generated_scale_partial {store : Model.Storage.Env α} (hs : Sorts store) (hcap : 2 ≤ store.capacity) (hmax : store.capacity < 2 ^ 63)
    {i u c : Nat} {before after : List (Model.Storage.Op α)} {request : Model.Storage.Op α} (hreq : Op.isRequest request)
    (hio : ∀ op ∈ before ++ after, Op.ioOk op) {e₁ e₂ e : Model.Storage.Engine α} (h1 : (Storage.Engine.new i u c).run store before = some e₁)
    (h2 : e₁.step store request = some e₂) (h3 : e₂.run store after = some e)
    (hanswered : before.countP Op.isRequest < e.results.length) (hg : Good store e.received)
    {name : String} (hin : InOrder name e.received) {qs : List Column} {bs : List ErrorBound} {gs : List (Option (Generated ε))}
    {m : Metadata ε} (hm : tryNew name qs bs gs = .ok m) (hunique : (qs.map (·.name)).Nodup) (hfree : ∀ tag ∈ tagNamesOf m, FreeName tag)
    {value : α → Nat → Nat} {bound : Nat → ErrorBound} (hbound : ∀ field ∈ m.fieldIndices, m.errorBounds[field]? = some (bound field))
    (hrows : ∀ field ∈ m.fieldIndices, ∀ r ∈ rowsOfTable name e.received, WellFormed m.tagIndices.length value field r)
    (hvalues : ∀ field ∈ m.fieldIndices, Compressible (bound field) ((rowsOfTable name e.received).map fun r => value r.val field))
    (log2 : Log2) (hlog : Log2Accurate log2)
    (hscale : ScaledFields bound store.capacity value m.fieldIndices (rowsOfTable name e.received)) :
    ∃ (stored : Nat → List StoredSegment) (ingested : List (Model.Storage.Row α)),
      (∀ field ∈ m.fieldIndices, storedSegments log2 m value field e.c.saved = some (stored field)) ∧
      (rowsOfTable name e₁.received).Subperm ingested ∧ ingested.Subperm (rowsOfTable name e.received) ∧
      ∀ (env : Env ε) (w : World ε StoredSegment) (lt : List String → List String → Prop), StrictOrder lt →
        ReadsSortedSegments w lt m.fieldIndices stored → ∀ evaluate : ε → List Cell → Option Cell, RowWise env.refs w.meaning evaluate →
        ∀ (projection : List Nat) (filters : List Expr),
        ColumnsQuery env w m projection filters → ∀ rows : TableRow → String → Value,
        (∀ row, row.tags.length = m.tagIndices.length → ∀ field, RowOf m (row.point field) (rows row)) →
        ReturnsColumns env w m projection filters evaluate value (fun field => ReadBack (bound field)) rows ingested := by
  obtain ⟨hrun, hio'⟩ := EndToEnd.run_request hreq hio h1 h2 h3
  obtain ⟨hsub, hchunks⟩ := EndToEnd.saved_spec hs hcap hio' hrun hg
  refine C77_generated_partial hs hcap hmax hreq hio h1 h2 h3 hanswered hg hin hm hunique hfree hbound hrows hvalues log2 hlog fun field hf => ?_
  obtain ⟨a, M, G, T, D, h⟩ := hscale field hf
  exact linear_of_rows (hvalues field hf).valid hsub hchunks (hrows field hf) h

/-- The rows of the examples of C74 and C77, a lossless field and a field with the error bound `0.25`, have a scale. -/
example : ∃ e, (Storage.Engine.new 100 1000 100).run pairEnv (pairOps.1 ++ [.flush] ++ pairOps.2) = some e ∧
    ScaledFields pairBound pairEnv.capacity pairValue pairMetadata.fieldIndices (rowsOfTable "t" e.received) := by
  refine ⟨((Storage.Engine.new 100 1000 100).run pairEnv (pairOps.1 ++ [.flush] ++ pairOps.2)).get (by decide +kernel), by simp, ?_⟩
  intro field hf
  simp only [pairMetadata, List.mem_cons, List.not_mem_nil, or_false] at hf
  rcases hf with rfl | rfl
  · refine ⟨1, 2, 1, 35, 10, ?_, ?_, ?_, ?_, ?_, ?_, ?_, ?_, ?_⟩
    · unfold FiniteBits; decide +kernel
    · decide +kernel
    · decide +kernel
    · decide +kernel
    · decide +kernel
    · decide +kernel
    · norm_num
    · norm_num [pairEnv]
    · exact Or.inl ⟨rfl, by norm_num [pairEnv]⟩
  · refine ⟨1 / 2, 2, 1, 35, 10, ?_, ?_, ?_, ?_, ?_, ?_, ?_, ?_, ?_⟩
    · unfold FiniteBits; decide +kernel
    · decide +kernel
    · decide +kernel
    · decide +kernel
    · decide +kernel
    · decide +kernel
    · norm_num
    · norm_num [pairEnv]
    · refine Or.inr ⟨?_, ?_, ?_⟩
      · intro v _ _
        norm_num [linearSlack, pairEnv, pairBound, margin, allowed]
      · norm_num [pairEnv]
      · norm_num

/-- **C79** for queries for at most one field of rows with a scale: all conditions are about the rows that are sent. -/
theorem C79_query_scale_partial {store : Model.Storage.Env α} (hs : Sorts store) (hcap : 2 ≤ store.capacity) (hmax : store.capacity < 2 ^ 63)
    {i u c : Nat} {actions : List (Action α)} (hok : ∀ a ∈ actions, Action.ok a) {crashed requested s : Server α}
    (hrun : (Server.new i u c).run store actions = some crashed) (hr : Recovered store crashed requested s) (hg : Good store (rowsIn s.log))
    {name : String} {qs : List Column} {bs : List ErrorBound} {gs : List (Option (Generated ε))} {md : Metadata ε}
    (hm : tryNew name qs bs gs = .ok md) (hunique : (qs.map (·.name)).Nodup) (hfree : ∀ tag ∈ tagNamesOf md, FreeName tag)
    {value : α → Nat → Nat} {field : Nat} (hfield : field ∈ md.fieldIndices) {eb : ErrorBound} (heb : md.errorBounds[field]? = some eb)
    (hrows : ∀ r ∈ rowsOfTable name (rowsIn s.log), WellFormed md.tagIndices.length value field r)
    (hvalues : Compressible eb ((rowsOfTable name (rowsIn s.log)).map fun r => value r.val field))
    (log2 : Log2) (hlog : Log2Accurate log2)
    {m M G T D : ℚ} (hscale : RowsScale eb store.capacity value field (rowsOfTable name (rowsIn s.log)) m M G T D) :
    ∃ stored ingested, storedSegments log2 md value field s.allSaved = some stored ∧ ingested.Subperm (rowsOfTable name (rowsIn s.log)) ∧
      (∀ b ∈ requested.acknowledged, b.1 = name → ∀ r ∈ b.2.2,
        r ∈ ingested ∨ (r ∉ inTables crashed ∧ ∃ r' ∈ b.2.2, r' ∈ inTables crashed)) ∧
      ∀ (env : Env ε) (w : World ε StoredSegment), ReadsStoredSegments w field stored → ∀ (projection : List Nat) (filters : List Expr),
        OneFieldQuery env w md projection filters field → ∀ rows : Point → String → Value,
        (∀ p, p.tags.length = md.tagIndices.length → RowOf md p (rows p)) →
        ReturnsRows env w md projection filters field value (ReadBack eb) rows ingested := by
  obtain ⟨more, hrun', hok'⟩ := Restarts.recovered_run hr
  have hi := Restarts.inv_run hs hcap actions hok (Restarts.inv_new i u c) hrun (Restarts.good_run hrun' hg)
  obtain ⟨hsub, hchunks⟩ := (Restarts.inv_run hs hcap more hok' hi hrun' hg).saved hs hcap hg
  exact C79_query_partial hs hcap hmax hok hrun hr hg hm hunique hfree hfield heb hrows hvalues log2 hlog
    (linear_of_rows hvalues.valid hsub hchunks hrows hscale)

/-- **C79** for queries for any number of fields of rows with a scale: all conditions are about the rows that are sent. -/
theorem C79_rows_scale_partial {store : Model.Storage.Env α} (hs : Sorts store) (hcap : 2 ≤ store.capacity) (hmax : store.capacity < 2 ^ 63)
    {i u c : Nat} {actions : List (Action α)} (hok : ∀ a ∈ actions, Action.ok a) {crashed requested s : Server α}
    (hrun : (Server.new i u c).run store actions = some crashed) (hr : Recovered store crashed requested s) (hg : Good store (rowsIn s.log))
    {name : String} (hin : InOrder name (rowsIn s.log)) {qs : List Column} {bs : List ErrorBound} {gs : List (Option (Generated ε))}
    {m : Metadata ε} (hm : tryNew name qs bs gs = .ok m) (hunique : (qs.map (·.name)).Nodup) (hfree : ∀ tag ∈ tagNamesOf m, FreeName tag)
    {value : α → Nat → Nat} {bound : Nat → ErrorBound} (hbound : ∀ field ∈ m.fieldIndices, m.errorBounds[field]? = some (bound field))
    (hrows : ∀ field ∈ m.fieldIndices, ∀ r ∈ rowsOfTable name (rowsIn s.log), WellFormed m.tagIndices.length value field r)
    (hvalues : ∀ field ∈ m.fieldIndices, Compressible (bound field) ((rowsOfTable name (rowsIn s.log)).map fun r => value r.val field))
    (log2 : Log2) (hlog : Log2Accurate log2)
    (hscale : ScaledFields bound store.capacity value m.fieldIndices (rowsOfTable name (rowsIn s.log))) :
    ∃ (stored : Nat → List StoredSegment) (ingested : List (Model.Storage.Row α)),
      (∀ field ∈ m.fieldIndices, storedSegments log2 m value field s.allSaved = some (stored field)) ∧
      ingested.Subperm (rowsOfTable name (rowsIn s.log)) ∧
      (∀ b ∈ requested.acknowledged, b.1 = name → ∀ r ∈ b.2.2,
        r ∈ ingested ∨ (r ∉ inTables crashed ∧ ∃ r' ∈ b.2.2, r' ∈ inTables crashed)) ∧
      ∀ (env : Env ε) (w : World ε StoredSegment) (lt : List String → List String → Prop), StrictOrder lt →
        ReadsSortedSegments w lt m.fieldIndices stored → ∀ (projection : List Nat) (filters : List Expr),
        FieldsQuery env w m projection filters → ∀ rows : TableRow → String → Value,
        (∀ row, row.tags.length = m.tagIndices.length → ∀ field, RowOf m (row.point field) (rows row)) →
        ReturnsTableRows env w m projection filters value (fun field => ReadBack (bound field)) rows ingested := by
  obtain ⟨more, hrun', hok'⟩ := Restarts.recovered_run hr
  have hi := Restarts.inv_run hs hcap actions hok (Restarts.inv_new i u c) hrun (Restarts.good_run hrun' hg)
  obtain ⟨hsub, hchunks⟩ := (Restarts.inv_run hs hcap more hok' hi hrun' hg).saved hs hcap hg
  refine C79_rows_partial hs hcap hmax hok hrun hr hg hin hm hunique hfree hbound hrows hvalues log2 hlog fun field hf => ?_
  obtain ⟨a, M, G, T, D, h⟩ := hscale field hf
  exact linear_of_rows (hvalues field hf).valid hsub hchunks (hrows field hf) h

/-- The rows of the server of C79 that is stopped twice have a scale. -/
theorem recoveredRows_scale : RowsScale .lossless 4 (fun v _ => v) 2 (rowsOfTable "t" (rowsIn (recoveredServer.get (by decide +kernel)).log)) 1 2 3 3 1 := by
  refine ⟨?_, ?_, ?_, ?_, ?_, ?_, ?_, ?_, ?_⟩
  · unfold FiniteBits; decide +kernel
  · decide +kernel
  · decide +kernel
  · decide +kernel
  · decide +kernel
  · decide +kernel
  · norm_num
  · norm_num
  · exact Or.inl ⟨rfl, by norm_num⟩

end ModelarDB.Props
