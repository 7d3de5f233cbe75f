import Verif.Props.C86
/-
C73 for fields with an error bound, with conditions on the rows that are received only.
-/
namespace ModelarDB.Props
open Model Model.Query Model.TableDefinition Model.StoredTable Spec Spec.Storage Lemmas Lemmas.StoredRows

variable {α ε : Type}

/-- **C73** for a field with an error bound and rows with a scale: that linear models are read within the error bound follows. All conditions are
about the rows that are received. Missing: as for `C73_lossy_partial`, the rows with a scale are those whose values are not near zero and do not change
much compared to the error bound. -/
theorem C73_lossy_rows_partial {store : Model.Storage.Env α} (hs : Sorts store) (hcap : 2 ≤ store.capacity) (hmax : store.capacity < 2 ^ 63)
    {i u c : Nat} {before after : List (Model.Storage.Op α)} {request : Model.Storage.Op α} (hreq : Op.isRequest request)
    (hio : ∀ op ∈ before ++ after, Op.ioOk op) {e₁ e₂ e : Model.Storage.Engine α} (h1 : (Storage.Engine.new i u c).run store before = some e₁)
    (h2 : e₁.step store request = some e₂) (h3 : e₂.run store after = some e)
    (hanswered : before.countP Op.isRequest < e.results.length) (hg : Good store e.received)
    {name : String} {qs : List Column} {bs : List ErrorBound} {gs : List (Option (Generated ε))} {md : Metadata ε}
    (hm : tryNew name qs bs gs = .ok md) (hunique : (qs.map (·.name)).Nodup) (hfree : ∀ tag ∈ tagNamesOf md, FreeName tag)
    {value : α → Nat → Nat} {field : Nat} (hfield : field ∈ md.fieldIndices) {eb : ErrorBound} (heb : md.errorBounds[field]? = some eb)
    (hproved : ProvedBound eb) (hrows : ∀ r ∈ rowsOfTable name e.received, WellFormed md.tagIndices.length value field r)
    (hguard : ∀ r ∈ rowsOfTable name e.received, XorGuard eb (FVal.ofBits32 (value r.val field))) (log2 : Log2) (hlog : Log2Accurate log2)
    {m M G T D : ℚ} (hscale : RowsScale eb store.capacity value field (rowsOfTable name e.received) m M G T D) :
    ∃ stored ingested, storedSegments log2 md value field e.c.saved = some stored ∧
      (rowsOfTable name e₁.received).Subperm ingested ∧ ingested.Subperm (rowsOfTable name e.received) ∧
      ∀ (env : Env ε) (w : World ε StoredSegment), ReadsStoredSegments w field stored → ∀ (projection : List Nat) (filters : List Expr),
        OneFieldQuery env w md projection filters field → ∀ rows : Point → String → Value,
        (∀ p, p.tags.length = md.tagIndices.length → RowOf md p (rows p)) →
        ReturnsRows env w md projection filters field value (ReadWithin eb) rows ingested := by
  obtain ⟨hrun, hio'⟩ := EndToEnd.run_request hreq hio h1 h2 h3
  obtain ⟨hsub, hchunks⟩ := EndToEnd.saved_spec hs hcap hio' hrun hg
  exact C73_lossy_partial hs hcap hmax hreq hio h1 h2 h3 hanswered hg hm hunique hfree hfield heb hproved.1 hproved.2 hrows hguard log2 hlog
    fun x hx ht => (saved_within hmax hsub hchunks hproved.1 hrows hguard hscale hx ht).1.linear

/-- The rows of C86 are returned within `0.25` by `SELECT v, timestamp, day FROM t WHERE timestamp >= 2`. -/
example : ∃ stored ingested, storedSegments exactLog2 quarterMetadata (fun v _ => v) 2 flushedRows.2.2.c.saved = some stored ∧
    (rowsOfTable "t" flushedRows.1.received).Subperm ingested ∧ ingested.Subperm (rowsOfTable "t" flushedRows.2.2.received) ∧
    ReturnsRows listEnv (storedWorld stored) quarterMetadata [2, 0, 1] [.binary (.column "timestamp") .ge (.constant (.time 2))] 2 (fun v _ => v)
      (ReadWithin (.absolute (.fin false (1 / 4)))) dayRow ingested := by
  have h1 : (Storage.Engine.new 6 48 20).run (smallEnv 4) minuteRows = some flushedRows.1 := by decide +kernel
  have h2 : flushedRows.1.step (smallEnv 4) .flush = some flushedRows.2.1 := by decide +kernel
  have h3 : flushedRows.2.1.run (smallEnv 4) flushing.2 = some flushedRows.2.2 := by decide +kernel
  have hm : tryNew "t" quarterMetadata.querySchema [.lossless, .lossless, .absolute (.fin false (1 / 4))] [none, none, none] = .ok quarterMetadata := by
    decide +kernel
  have hrows : ∀ r ∈ rowsOfTable "t" flushedRows.2.2.received, WellFormed quarterMetadata.tagIndices.length (fun v _ => v) 2 r := by
    rw [flushedRows_received]
    have : ∀ r ∈ [rowA 60000 0x42c80000, rowB 60000 0x42ca2000, rowA 120000 0x42c90000],
        (r.tags.length = 1 ∧ (-2 ^ 63 ≤ r.ts ∧ r.ts < 2 ^ 63)) ∧ r.val < 2 ^ 32 ∧ (FVal.ofBits32 r.val).isNan = false := by decide +kernel
    exact fun r hr => ⟨(this r hr).1.1, (this r hr).1.2, (this r hr).2.1, (this r hr).2.2⟩
  obtain ⟨stored, ingested, g1, g2, g3, g4⟩ := C73_lossy_rows_partial (smallEnv_sorts 4) (by decide) (by decide) (request := .flush) (by decide)
    (by simp [minuteRows, flushing, Op.ioOk]) h1 h2 h3 (by decide +kernel) (by decide +kernel) hm (by decide) (by decide) (field := 2)
    (by decide) (by decide +kernel) quarter_proved hrows flushedRows_guard exactLog2 exactLog2_accurate flushedRows_scale
  refine ⟨stored, ingested, g1, g2, g3, g4 listEnv _ (storedWorld_reads stored 2) _ _ ?_ dayRow fun p hp => ?_⟩
  swap
  · have h := dayRow_rowOf p hp
    exact ⟨h.1, h.2, h.3⟩
  exact ⟨by simp, by decide, ⟨_, rfl, rfl⟩, ⟨_, _, rfl⟩, by simp [ReversedEquality], fun _ _ => Iff.rfl, show 1 ≤ 8192 by decide⟩

end ModelarDB.Props
