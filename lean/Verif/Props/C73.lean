import Verif.Lemmas.EndToEnd
import Verif.Props.C11
/-
C73: a query returns the rows that were ingested.
-/
namespace ModelarDB.Props
open Model Model.Query Model.TableDefinition Model.StoredTable Spec Spec.Storage Lemmas

variable {α ε : Type}

/-- Ingesting, flushing and querying for any relation between the values of a series and the values that are read of it. -/
theorem ingested_rows {store : Model.Storage.Env α} (hs : Sorts store) (hcap : 2 ≤ store.capacity) (hmax : store.capacity < 2 ^ 63) {i u c : Nat}
    {before after : List (Model.Storage.Op α)} {request : Model.Storage.Op α} (hreq : Op.isRequest request)
    (hio : ∀ op ∈ before ++ after, Op.ioOk op) {e₁ e₂ e : Model.Storage.Engine α} (h1 : (Storage.Engine.new i u c).run store before = some e₁)
    (h2 : e₁.step store request = some e₂) (h3 : e₂.run store after = some e)
    (hanswered : before.countP Op.isRequest < e.results.length) (hg : Good store e.received)
    {name : String} {qs : List Column} {bs : List ErrorBound} {gs : List (Option (Generated ε))} {m : Metadata ε}
    (hm : tryNew name qs bs gs = .ok m) (hunique : (qs.map (·.name)).Nodup) (hfree : ∀ tag ∈ tagNamesOf m, FreeName tag)
    {value : α → Nat → Nat} {field : Nat} (hfield : field ∈ m.fieldIndices) {eb : ErrorBound} (heb : m.errorBounds[field]? = some eb)
    (hrows : ∀ r ∈ rowsOfTable name e.received, WellFormed m.tagIndices.length value field r) (log2 : Log2) (R : Nat → Nat → Prop)
    (hread : ∀ (ts : List Int) (vs : List Nat), ts.length = vs.length → ts ≠ [] → (∀ t ∈ ts, IsI64 t) → StrictlyIncreasing ts →
      ts.length < 2 ^ 63 → (∀ v ∈ vs, v < 2 ^ 32) → (∀ v ∈ vs, (FVal.ofBits32 v).isNan = false) →
      (∀ v ∈ vs, ∃ r ∈ rowsOfTable name e.received, v = value r.val field) → LinearFaithful R eb ts vs →
      ∃ segments ws, tryCompressUnivariate log2 eb ts vs = .segments segments ∧ gridAll segments = some (ts, ws) ∧ List.Forall₂ R vs ws)
    (hlinear : ∀ x ∈ e.c.saved, x.table = name → LinearFaithful R eb (x.points.map Prod.fst) (x.points.map fun p => value p.2 field)) :
    ∃ stored ingested, storedSegments log2 m value field e.c.saved = some stored ∧
      (rowsOfTable name e₁.received).Subperm ingested ∧ ingested.Subperm (rowsOfTable name e.received) ∧
      ∀ (env : Env ε) (w : World ε StoredSegment), ReadsStoredSegments w field stored → ∀ (projection : List Nat) (filters : List Expr),
        OneFieldQuery env w m projection filters field → ∀ rows : Point → String → Value,
        (∀ p, p.tags.length = m.tagIndices.length → RowOf m p (rows p)) →
        ReturnsRows env w m projection filters field value R rows ingested := by
  have hname : name = m.name := by obtain ⟨_, _, _, _, _, _, _, h8⟩ := tryNew_ok.mp hm; rw [h8]
  obtain ⟨hrun, hio'⟩ := EndToEnd.run_request hreq hio h1 h2 h3
  obtain ⟨hsub, hchunks⟩ := EndToEnd.saved_spec hs hcap hio' hrun hg
  have hall := C23_flush_saves_everything_partial hs hcap hreq hio h1 h2 h3 hanswered hg
  subst hname
  obtain ⟨stored, g1, g2, g3⟩ := EndToEnd.storedSegments_spec hfield
    (EndToEnd.chunks_stored hmax hsub hchunks heb hrows log2 R hread hlinear)
  have g3 : List.Forall₂ (ReadFor value field R) (rowsOfTable m.name (savedRows e)) (stored.flatMap pointsOf) := g3
  refine ⟨stored, rowsOfTable m.name (savedRows e), g1, hall.filter _, hsub.filter _, ?_⟩
  intro env w hreads projection filters hq rows hrowOf
  obtain ⟨plan, hplan, hpf⟩ := hq.plan
  obtain ⟨parquet, grid, hfilters⟩ := hq.rewritten
  have htags : ∀ p ∈ stored.flatMap pointsOf, p.tags.length = m.tagIndices.length := by
    intro p hp
    obtain ⟨k, hk, rfl⟩ := List.getElem_of_mem hp
    have hk' : k < (rowsOfTable m.name (savedRows e)).length := by rw [g3.length_eq]; exact hk
    have h4 := (List.forall₂_iff_get.mp g3).2 k hk' hk
    have h5 := h4.tags
    simp only [List.get_eq_getElem] at h5
    rw [h5]
    exact (hrows _ ((hsub.filter _).subset (List.getElem_mem hk'))).tags
  obtain ⟨batches, returned, n₀, a1, a2, a3, a4⟩ := EndToEnd.answer_of_stored hq.order hq.batch hm hunique hfree hq.asked hq.stored hplan hpf
    hfilters hq.forward g2 htags hreads rows fun p hp => hrowOf p (htags p hp)
  obtain ⟨_, _, hres, _⟩ := planScan_ok hplan
  exact ⟨n₀, plan.result, batches, stored.flatMap pointsOf, returned, mapM_option_eq_some.mp hres, a1, a2, g3, a3, a4⟩

/-- **C73** for a lossless field: anything happens (`before`), a flush or stop is requested, anything happens (`after`) and at the end the request
has been answered. Then there is a selection of the rows of the table that were received at the end that has all rows that were received before
the request, and every query returns the timestamps, the tags and the values of the rows of the selection that satisfy its filters. Each is
returned as often as it was received, and what is returned besides these are rows of the selection that do not satisfy the filters. Missing:
queries for several fields (C74) or for generated columns (C40), series with NaN or linear models that are rounded (C10), two series with the
same hash, repeated timestamps and I/O that fails (C22), tags with names the server uses (C57) and filters of the form `expression = timestamp`
(C34). -/
theorem C73_lossless_partial {store : Model.Storage.Env α} (hs : Sorts store) (hcap : 2 ≤ store.capacity) (hmax : store.capacity < 2 ^ 63)
    {i u c : Nat} {before after : List (Model.Storage.Op α)} {request : Model.Storage.Op α} (hreq : Op.isRequest request)
    (hio : ∀ op ∈ before ++ after, Op.ioOk op) {e₁ e₂ e : Model.Storage.Engine α} (h1 : (Storage.Engine.new i u c).run store before = some e₁)
    (h2 : e₁.step store request = some e₂) (h3 : e₂.run store after = some e)
    (hanswered : before.countP Op.isRequest < e.results.length) (hg : Good store e.received)
    {name : String} {qs : List Column} {bs : List ErrorBound} {gs : List (Option (Generated ε))} {m : Metadata ε}
    (hm : tryNew name qs bs gs = .ok m) (hunique : (qs.map (·.name)).Nodup) (hfree : ∀ tag ∈ tagNamesOf m, FreeName tag)
    {value : α → Nat → Nat} {field : Nat} (hfield : field ∈ m.fieldIndices) (heb : m.errorBounds[field]? = some .lossless)
    (hrows : ∀ r ∈ rowsOfTable name e.received, WellFormed m.tagIndices.length value field r) (log2 : Log2)
    (hlinear : ∀ x ∈ e.c.saved, x.table = name →
      LinearFaithful SameFloat .lossless (x.points.map Prod.fst) (x.points.map fun p => value p.2 field)) :
    ∃ stored ingested, storedSegments log2 m value field e.c.saved = some stored ∧
      (rowsOfTable name e₁.received).Subperm ingested ∧ ingested.Subperm (rowsOfTable name e.received) ∧
      ∀ (env : Env ε) (w : World ε StoredSegment), ReadsStoredSegments w field stored → ∀ (projection : List Nat) (filters : List Expr),
        OneFieldQuery env w m projection filters field → ∀ rows : Point → String → Value,
        (∀ p, p.tags.length = m.tagIndices.length → RowOf m p (rows p)) →
        ReturnsRows env w m projection filters field value SameFloat rows ingested :=
  ingested_rows hs hcap hmax hreq hio h1 h2 h3 hanswered hg hm hunique hfree hfield heb hrows log2 SameFloat
    (fun ts vs hlen hne hr hinc hsize h32 hnan _ hl => C10_lossless_readback_partial log2 ts vs hlen hne hr hinc hsize h32 hnan hl) hlinear

/-- **C73** for a field with an error bound: the same as above, but the values that are returned are within the error bound of those that were
received. Missing are also the values and error bounds of C11. -/
theorem C73_lossy_partial {store : Model.Storage.Env α} (hs : Sorts store) (hcap : 2 ≤ store.capacity) (hmax : store.capacity < 2 ^ 63)
    {i u c : Nat} {before after : List (Model.Storage.Op α)} {request : Model.Storage.Op α} (hreq : Op.isRequest request)
    (hio : ∀ op ∈ before ++ after, Op.ioOk op) {e₁ e₂ e : Model.Storage.Engine α} (h1 : (Storage.Engine.new i u c).run store before = some e₁)
    (h2 : e₁.step store request = some e₂) (h3 : e₂.run store after = some e)
    (hanswered : before.countP Op.isRequest < e.results.length) (hg : Good store e.received)
    {name : String} {qs : List Column} {bs : List ErrorBound} {gs : List (Option (Generated ε))} {m : Metadata ε}
    (hm : tryNew name qs bs gs = .ok m) (hunique : (qs.map (·.name)).Nodup) (hfree : ∀ tag ∈ tagNamesOf m, FreeName tag)
    {value : α → Nat → Nat} {field : Nat} (hfield : field ∈ m.fieldIndices) {eb : ErrorBound} (heb : m.errorBounds[field]? = some eb)
    (hvalid : ValidErrorBound eb) (hrel : ∀ s r, eb = .relative (.fin s r) → (2 : ℚ) ^ (-100 : ℤ) ≤ r ∧ r ≤ 99.9999)
    (hrows : ∀ r ∈ rowsOfTable name e.received, WellFormed m.tagIndices.length value field r)
    (hguard : ∀ r ∈ rowsOfTable name e.received, XorGuard eb (FVal.ofBits32 (value r.val field))) (log2 : Log2) (hlog : Log2Accurate log2)
    (hlinear : ∀ x ∈ e.c.saved, x.table = name →
      LinearFaithful (ReadWithin eb) eb (x.points.map Prod.fst) (x.points.map fun p => value p.2 field)) :
    ∃ stored ingested, storedSegments log2 m value field e.c.saved = some stored ∧
      (rowsOfTable name e₁.received).Subperm ingested ∧ ingested.Subperm (rowsOfTable name e.received) ∧
      ∀ (env : Env ε) (w : World ε StoredSegment), ReadsStoredSegments w field stored → ∀ (projection : List Nat) (filters : List Expr),
        OneFieldQuery env w m projection filters field → ∀ rows : Point → String → Value,
        (∀ p, p.tags.length = m.tagIndices.length → RowOf m p (rows p)) →
        ReturnsRows env w m projection filters field value (ReadWithin eb) rows ingested :=
  ingested_rows hs hcap hmax hreq hio h1 h2 h3 hanswered hg hm hunique hfree hfield heb hrows log2 (ReadWithin eb)
    (fun ts vs hlen hne hr hinc hsize h32 hnan hv hl => C11_lossy_readback_partial log2 hlog eb hvalid hrel ts vs hlen hne hr hinc hsize h32 hnan
      (fun v hvs => by obtain ⟨r, hr, rfl⟩ := hv v hvs; exact hguard r hr) hl) hlinear

/-! ### Four rows of two tables -/

/-- Rows of two series are received before a flush is requested, a row of another table is received after it. -/
def ingesting : List (Model.Storage.Op Nat) × List (Model.Storage.Op Nat) :=
  ([.insert "t" [rowA 2 0x3f800000, rowB 1 0x40000000] (some 0) 3, .ingestionTake, .ingestionRow true,
      .insert "t" [rowA 3 0xbf800000] (some 1) 1], flushing.2)

/-- What the query below depends on: the segments that are to be kept are read in one batch. -/
def storedWorld (stored : List StoredSegment) : World (List String) StoredSegment where
  interpretation := plainly
  segment := segmentOf
  rest _ _ := .null
  read keep _ := [.item (stored.filter keep)]
  meaning _ _ columns := columns.head?
  hashOrder := id
  batchSize := 8192

theorem storedWorld_reads (stored : List StoredSegment) (field : Nat) : ReadsStoredSegments (storedWorld stored) field stored where
  segment := rfl
  neverFails keep := by simp [NeverFails, storedWorld]
  contents keep := ⟨stored.filter keep, by simp [storedWorld, itemsOf], List.filter_sublist, List.Sublist.refl _⟩

/-- `SELECT v, timestamp, day FROM t WHERE timestamp >= 2` returns the two of the three rows of the table that satisfy the filter. -/
example : ∃ (e₁ e₂ e : Model.Storage.Engine Nat) (stored : List StoredSegment),
    (Storage.Engine.new 6 48 20).run (smallEnv 4) ingesting.1 = some e₁ ∧ e₁.step (smallEnv 4) .flush = some e₂ ∧
    e₂.run (smallEnv 4) ingesting.2 = some e ∧
    storedSegments exactLog2 dayMetadata (fun v _ => v) 2 e.c.saved = some stored ∧
    (∃ ingested, (rowsOfTable "t" e₁.received).Subperm ingested ∧ ingested.Subperm (rowsOfTable "t" e.received) ∧
      ReturnsRows listEnv (storedWorld stored) dayMetadata [2, 0, 1] [.binary (.column "timestamp") .ge (.constant (.time 2))] 2 (fun v _ => v)
        SameFloat dayRow ingested) ∧
    rowsOfTable "t" e₁.received = [rowA 2 0x3f800000, rowB 1 0x40000000, rowA 3 0xbf800000] ∧
    ∃ a, answer listEnv (storedWorld stored) dayMetadata [2, 0, 1] [.binary (.column "timestamp") .ge (.constant (.time 2))] 9 = .ok a ∧
      a.batches = [.ok [[.value 0x3f800000, .value 0xbf800000], [.time 2, .time 3], [.tag "a", .tag "a"]]] ∧ a.ending = .finished := by
  let e₁ := ((Storage.Engine.new 6 48 20).run (smallEnv 4) ingesting.1).get (by decide +kernel)
  let e₂ := ((Storage.Engine.new 6 48 20).run (smallEnv 4) (ingesting.1 ++ [.flush])).get (by decide +kernel)
  let e := ((Storage.Engine.new 6 48 20).run (smallEnv 4) (ingesting.1 ++ [.flush] ++ ingesting.2)).get (by decide +kernel)
  have h1 : (Storage.Engine.new 6 48 20).run (smallEnv 4) ingesting.1 = some e₁ := by decide +kernel
  have h2 : e₁.step (smallEnv 4) .flush = some e₂ := by decide +kernel
  have h3 : e₂.run (smallEnv 4) ingesting.2 = some e := by decide +kernel
  have hlinear : ∀ x ∈ e.c.saved, x.table = "t" → LinearFaithful SameFloat .lossless (x.points.map Prod.fst) (x.points.map fun p => p.2) := by
    have : ∀ x ∈ e.c.saved, linearFaithfulCheck SameFloat .lossless (x.points.map Prod.fst) (x.points.map fun p => p.2) = true := by
      decide +kernel
    exact fun x hx _ => linearFaithful_of_check (this x hx)
  have hm : tryNew "t" dayMetadata.querySchema [.lossless, .lossless, .lossless] [none, none, none] = .ok dayMetadata := by decide +kernel
  have hrows : ∀ r ∈ rowsOfTable "t" e.received, WellFormed dayMetadata.tagIndices.length (fun v _ => v) 2 r := by
    have : ∀ r ∈ rowsOfTable "t" e.received, (r.tags.length = 1 ∧ (-2 ^ 63 ≤ r.ts ∧ r.ts < 2 ^ 63)) ∧
        r.val < 2 ^ 32 ∧ (FVal.ofBits32 r.val).isNan = false := by decide +kernel
    exact fun r hr => ⟨(this r hr).1.1, (this r hr).1.2, (this r hr).2.1, (this r hr).2.2⟩
  obtain ⟨stored, ingested, g1, g2, g3, g4⟩ := C73_lossless_partial (smallEnv_sorts 4) (by decide) (by decide) (request := .flush) (by decide)
    (by simp [ingesting, flushing, Op.ioOk]) h1 h2 h3 (by decide +kernel) (by decide +kernel) hm (by decide) (by decide) (field := 2) (by decide) (by decide +kernel)
    hrows exactLog2 hlinear
  refine ⟨e₁, e₂, e, stored, h1, h2, h3, g1, ⟨ingested, g2, g3, g4 listEnv _ (storedWorld_reads stored 2) _ _ ?_ dayRow
    fun p hp => dayRow_rowOf p hp⟩, by decide +kernel, ?_⟩
  · exact ⟨by simp, by decide, ⟨_, rfl, rfl⟩, ⟨_, _, rfl⟩, by simp [ReversedEquality], fun _ _ => Iff.rfl,
      show 1 ≤ 8192 by decide⟩
  · have : storedSegments exactLog2 dayMetadata (fun v _ => v) 2 e.c.saved =
        some ((storedSegments exactLog2 dayMetadata (fun v _ => v) 2 e.c.saved).get (by decide +kernel)) := by simp
    rw [this] at g1
    cases g1
    have ha : ((answer listEnv (storedWorld ((storedSegments exactLog2 dayMetadata (fun v _ => v) 2 e.c.saved).get (by decide +kernel))) dayMetadata
        [2, 0, 1] [.binary (.column "timestamp") .ge (.constant (.time 2))] 9).toOption.map fun a => (a.batches, a.ending)) =
        some ([.ok [[.value 0x3f800000, .value 0xbf800000], [.time 2, .time 3], [.tag "a", .tag "a"]]], .finished) := by decide +kernel
    generalize answer listEnv _ dayMetadata [2, 0, 1] _ 9 = r at ha ⊢
    cases r with
    | error f => cases ha
    | ok a =>
      simp only [Except.toOption, Option.map_some, Option.some.injEq, Prod.mk.injEq] at ha
      exact ⟨a, rfl, ha⟩

end ModelarDB.Props
