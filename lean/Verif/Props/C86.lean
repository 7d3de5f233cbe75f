import Verif.Lemmas.StoredRows
import Verif.Props.C73
/-
C86: aggregates of the rows that were ingested.
-/
namespace ModelarDB.Props
open Model Model.Aggregates Model.TableDefinition Model.StoredTable Spec Spec.Storage Lemmas Lemmas.StoredRows

variable {α ε : Type}

theorem compressed_chunks {log2 : Log2} {m : Metadata ε} {value : α → Nat → Nat} {field : Nat} {eb : ErrorBound}
    (heb : m.errorBounds[field]? = some eb) {chunks : List (Model.Storage.Chunk α)} (h : ∀ x ∈ chunks, StoredWithin eb (seriesOf value field x)) :
    ∃ segments stored, chunks.mapM (compressField log2 m value field) = some segments ∧
      List.Forall₂ (fun p segments => tryCompressUnivariate log2 eb p.1 p.2 = .segments segments) (chunks.map (seriesOf value field)) stored ∧
      segments.flatten.map Prod.snd = stored.flatten := by
  induction chunks with
  | nil => exact ⟨[], [], rfl, .nil, rfl⟩
  | cons x chunks ih =>
    obtain ⟨segments, stored, h1, h2, h3⟩ := ih fun y hy => h y (List.mem_cons_of_mem _ hy)
    have w := h x (by simp)
    obtain ⟨l, _, h4, _⟩ := C09_compression_partitions_series log2 eb _ _ w.length w.nonempty w.range w.increasing w.size
    refine ⟨(l.map fun s => (x.tags, s)) :: segments, l :: stored, ?_, .cons h4 h2, ?_⟩
    · rw [List.mapM_cons, h1, show compressField log2 m value field x = some (l.map fun s => (x.tags, s)) by
        unfold compressField
        rw [heb]
        simp only [seriesOf] at h4
        simp only [h4]]
      rfl
    · rw [List.flatten_cons, List.map_append, h3, List.flatten_cons, List.map_map]
      congr 1
      simp

theorem values_of_chunks (value : α → Nat → Nat) (field : Nat) (name : String) (saved : List (Model.Storage.Chunk α)) :
    ingestedValues ((saved.filter fun c => c.table = name).map (seriesOf value field)) =
      valuesOfRows value field (rowsOfTable name (saved.flatMap chunkRows)) := by
  unfold ingestedValues valuesOfRows rowsOfTable
  induction saved with
  | nil => rfl
  | cons c saved ih =>
    rw [List.flatMap_cons, List.filter_append, List.map_append, ← ih]
    by_cases ht : c.table = name
    · have hf : (chunkRows c).filter (fun r => r.table = name) = chunkRows c := by
        refine List.filter_eq_self.mpr fun r hr => ?_
        simp only [chunkRows, rowsOf, List.mem_map] at hr
        obtain ⟨p, _, rfl⟩ := hr
        simpa using ht
      rw [List.filter_cons_of_pos (by simpa using ht), List.map_cons, List.flatMap_cons, List.map_append, hf]
      congr 1
      simp [seriesOf, chunkRows, rowsOf, Function.comp_def]
    · have hf : (chunkRows c).filter (fun r => r.table = name) = [] := by
        refine List.filter_eq_nil_iff.mpr fun r hr => ?_
        simp only [chunkRows, rowsOf, List.mem_map] at hr
        obtain ⟨p, _, rfl⟩ := hr
        simpa using ht
      rw [List.filter_cons_of_neg (by simpa using ht), hf, List.map_nil, List.nil_append]

/-- The series of a table that are compressed are stored within the error bound and have the scale of the rows. -/
theorem saved_within {store : Model.Storage.Env α} (hmax : store.capacity < 2 ^ 63) {saved : List (Model.Storage.Chunk α)}
    {received : List (Model.Storage.Row α)} (hsub : (saved.flatMap chunkRows).Subperm received) (hchunks : ∀ x ∈ saved, x.points ≠ [] ∧ x.points.length ≤ store.capacity ∧
      StrictlyIncreasing (x.points.map Prod.fst))
    {name : String} {numTags : Nat} {value : α → Nat → Nat} {field : Nat} {eb : ErrorBound} (hvalid : ValidErrorBound eb)
    (hrows : ∀ r ∈ rowsOfTable name received, WellFormed numTags value field r)
    (hguard : ∀ r ∈ rowsOfTable name received, XorGuard eb (FVal.ofBits32 (value r.val field))) {m M G T D : ℚ}
    (hscale : RowsScale eb store.capacity value field (rowsOfTable name received) m M G T D)
    {x : Model.Storage.Chunk α} (hx : x ∈ saved) (ht : x.table = name) :
    StoredWithin eb (seriesOf value field x) ∧ SeriesScale eb ((seriesOf value field x).1.zip (seriesOf value field x).2) m M G T D := by
  obtain ⟨h1, h2, h3⟩ := hchunks x hx
  have hmem : ∀ p ∈ x.points, (⟨x.table, x.tags, p.1, p.2⟩ : Model.Storage.Row α) ∈ rowsOfTable name received := fun p hp =>
    List.mem_filter.mpr ⟨hsub.subset (List.mem_flatMap.mpr ⟨x, hx, List.mem_map.mpr ⟨p, hp, rfl⟩⟩), by simpa using ht⟩
  have hval : ∀ v ∈ (seriesOf value field x).2, ∃ r ∈ rowsOfTable name received, v = value r.val field := by
    intro v hv
    obtain ⟨p, hp, rfl⟩ := List.mem_map.mp hv
    exact ⟨_, hmem p hp, rfl⟩
  have htime : ∀ t ∈ (seriesOf value field x).1, IsI64 t := by
    intro t ht
    obtain ⟨p, hp, rfl⟩ := List.mem_map.mp ht
    exact (hrows _ (hmem p hp)).time
  have hsc := chunk_scale hscale h1 (fun r hr => by
    obtain ⟨p, hp, rfl⟩ := List.mem_map.mp hr
    exact hmem p hp) h3 h2
  refine ⟨⟨by simp [seriesOf], by simpa [seriesOf] using h1, htime, h3, ?_, ?_, ?_, ?_, ?_⟩, hsc⟩
  · simp only [seriesOf, List.length_map]
    omega
  · intro v hv
    obtain ⟨r, hr, rfl⟩ := hval v hv
    exact (hrows r hr).bits
  · intro v hv
    obtain ⟨r, hr, rfl⟩ := hval v hv
    exact hscale.finite r hr
  · intro v hv
    obtain ⟨r, hr, rfl⟩ := hval v hv
    exact hguard r hr
  · exact faithful_of_scale hvalid (by simp [seriesOf]) htime hsc

/-- The rounding of linear models for values up to `M`, timestamps up to `T` and intervals of at least `D`. -/
def rowsError (M T D : ℚ) : ℚ := linearError (3 * M) T D

/-- What is stored of rows, if their values have a scale: the series that are compressed, with the values of the rows. -/
theorem stored_chunks {store : Model.Storage.Env α} (hcap : 2 ≤ store.capacity) (hmax : store.capacity < 2 ^ 63) {saved : List (Model.Storage.Chunk α)}
    {received : List (Model.Storage.Row α)} (hsub : (saved.flatMap chunkRows).Subperm received) (hchunks : ∀ x ∈ saved, x.points ≠ [] ∧
      x.points.length ≤ store.capacity ∧ StrictlyIncreasing (x.points.map Prod.fst))
    {md : Metadata ε} {value : α → Nat → Nat} {field : Nat} (hfield : field ∈ md.fieldIndices) {eb : ErrorBound}
    (heb : md.errorBounds[field]? = some eb) (hproved : ProvedBound eb)
    (hrows : ∀ r ∈ rowsOfTable md.name received, WellFormed md.tagIndices.length value field r)
    (hguard : ∀ r ∈ rowsOfTable md.name received, XorGuard eb (FVal.ofBits32 (value r.val field))) {m M G T D : ℚ}
    (hscale : RowsScale eb store.capacity value field (rowsOfTable md.name received) m M G T D)
    (log2 : Log2) (hlog : Log2Accurate log2) (hsome : rowsOfTable md.name (saved.flatMap chunkRows) ≠ []) :
    ∃ stored series, storedSegments log2 md value field saved = some stored ∧
      ingestedValues series = valuesOfRows value field (rowsOfTable md.name (saved.flatMap chunkRows)) ∧ series ≠ [] ∧
      (∀ partitions, partitions.flatten.Perm (stored.map Prod.snd) → StoredAs log2 eb series partitions) ∧
      (∀ p ∈ series, ∃ x ∈ saved, x.table = md.name ∧ p = seriesOf value field x) ∧
      ∀ p ∈ series, p.1.length ≤ store.capacity ∧ NumericSeries eb p.1 p.2 (3 * M) T D := by
  have hw : ∀ x ∈ saved.filter (fun c => c.table = md.name), StoredWithin eb (seriesOf value field x) ∧
      SeriesScale eb ((seriesOf value field x).1.zip (seriesOf value field x).2) m M G T D := by
    intro x hx
    obtain ⟨hx, ht⟩ := List.mem_filter.mp hx
    exact saved_within hmax hsub hchunks hproved.1 hrows hguard hscale hx (by simpa using ht)
  obtain ⟨segments, stored, k1, k2, k3⟩ := compressed_chunks (log2 := log2) heb fun x hx => (hw x hx).1
  have hvalues := values_of_chunks value field md.name saved
  refine ⟨segments.flatten, (saved.filter fun c => c.table = md.name).map (seriesOf value field), ?_, hvalues, ?_, ?_, ?_, ?_⟩
  · unfold storedSegments
    rw [if_pos hfield, k1]
    rfl
  · intro hc
    rw [hc] at hvalues
    exact hsome (List.map_eq_nil_iff.mp hvalues.symm)
  · intro partitions hp
    refine ⟨hproved, hlog, ?_, stored, k2, by rw [← k3]; exact hp⟩
    intro p hp
    obtain ⟨x, hx, rfl⟩ := List.mem_map.mp hp
    exact (hw x hx).1
  · intro p hp
    obtain ⟨x, hx, rfl⟩ := List.mem_map.mp hp
    obtain ⟨hx, ht⟩ := List.mem_filter.mp hx
    exact ⟨x, hx, by simpa using ht, rfl⟩
  · intro p hp
    obtain ⟨x, hx, rfl⟩ := List.mem_map.mp hp
    obtain ⟨h4, h5⟩ := hw x hx
    refine ⟨by simpa [seriesOf] using (hchunks x (List.mem_filter.mp hx).1).2.1, numeric_of_scale hproved.1 h4 h5 ?_⟩
    have hM : 0 ≤ M := le_trans (by positivity) h5.limit.1
    have hT : 0 ≤ T := by
      obtain ⟨r, rest, hr⟩ := List.exists_cons_of_ne_nil (show rowsOfTable md.name received ≠ [] from fun hc => hsome (by
        have h6 : (rowsOfTable md.name (saved.flatMap chunkRows)).Subperm (rowsOfTable md.name received) := hsub.filter _
        rw [hc] at h6
        exact List.subperm_nil.mp h6))
      exact le_trans (abs_nonneg _) (hscale.time r (by rw [hr]; simp))
    have hD := h5.positive.2.2
    have h7 : 0 ≤ 3 * M * T / D := by positivity
    have h8 := hscale.limit.2.2.2
    have h9 : (2 : ℚ) ≤ store.capacity := by exact_mod_cast hcap
    nlinarith

/-- What is stored of the rows that are ingested, if their values have a scale: the series that are compressed, with the values of the rows. -/
theorem stored_rows {store : Model.Storage.Env α} (hs : Sorts store) (hcap : 2 ≤ store.capacity) (hmax : store.capacity < 2 ^ 63) {i u c : Nat}
    {before after : List (Model.Storage.Op α)} {request : Model.Storage.Op α} (hreq : Op.isRequest request)
    (hio : ∀ op ∈ before ++ after, Op.ioOk op) {e₁ e₂ e : Model.Storage.Engine α} (h1 : (Storage.Engine.new i u c).run store before = some e₁)
    (h2 : e₁.step store request = some e₂) (h3 : e₂.run store after = some e)
    (hanswered : before.countP Op.isRequest < e.results.length) (hg : Good store e.received)
    {md : Metadata ε} {value : α → Nat → Nat} {field : Nat} (hfield : field ∈ md.fieldIndices) {eb : ErrorBound}
    (heb : md.errorBounds[field]? = some eb) (hproved : ProvedBound eb)
    (hrows : ∀ r ∈ rowsOfTable md.name e.received, WellFormed md.tagIndices.length value field r)
    (hguard : ∀ r ∈ rowsOfTable md.name e.received, XorGuard eb (FVal.ofBits32 (value r.val field))) {m M G T D : ℚ}
    (hscale : RowsScale eb store.capacity value field (rowsOfTable md.name e.received) m M G T D)
    (log2 : Log2) (hlog : Log2Accurate log2) (hsome : rowsOfTable md.name e₁.received ≠ []) :
    ∃ stored ingested series, storedSegments log2 md value field e.c.saved = some stored ∧
      (rowsOfTable md.name e₁.received).Subperm ingested ∧ ingested.Subperm (rowsOfTable md.name e.received) ∧
      ingestedValues series = valuesOfRows value field ingested ∧ series ≠ [] ∧
      (∀ partitions, partitions.flatten.Perm (stored.map Prod.snd) → StoredAs log2 eb series partitions) ∧
      (∀ p ∈ series, ∃ x ∈ e.c.saved, x.table = md.name ∧ p = seriesOf value field x) ∧
      ∀ p ∈ series, p.1.length ≤ store.capacity ∧ NumericSeries eb p.1 p.2 (3 * M) T D := by
  obtain ⟨hrun, hio'⟩ := EndToEnd.run_request hreq hio h1 h2 h3
  obtain ⟨hsub, hchunks⟩ := EndToEnd.saved_spec hs hcap hio' hrun hg
  have hall := C23_flush_saves_everything_partial hs hcap hreq hio h1 h2 h3 hanswered hg
  have hsome' : rowsOfTable md.name (savedRows e) ≠ [] := by
    intro hc
    have hsubp : (rowsOfTable md.name e₁.received).Subperm (rowsOfTable md.name (savedRows e)) := hall.filter _
    rw [hc] at hsubp
    exact hsome (List.subperm_nil.mp hsubp)
  obtain ⟨stored, series, k1, k2, k3, k4, k5, k6⟩ := stored_chunks hcap hmax hsub hchunks hfield heb hproved hrows hguard hscale log2 hlog hsome'
  exact ⟨stored, rowsOfTable md.name (savedRows e), series, k1, hall.filter _, hsub.filter _, k2, k3, k4, k5, k6⟩

/-- **C86** for COUNT, MIN and MAX: anything happens (`before`), a flush or stop is requested, anything happens (`after`) and at the end the request
has been answered. Then there is a selection of the rows of the table that were received that has all rows that were received before the request, and
for the segments that are stored, in any order and any number of partitions, COUNT is the number of rows of the selection and MIN and MAX are the
minimum and the maximum of their values up to the error bound and the rounding of linear models. Missing: rows without a scale, that is values near
zero or with large changes (C10, C11), values that are not finite, two series with the same hash, repeated timestamps and I/O that
fails (C22). -/
theorem C86_count_min_max_partial {store : Model.Storage.Env α} (hs : Sorts store) (hcap : 2 ≤ store.capacity) (hmax : store.capacity < 2 ^ 63)
    {i u c : Nat} {before after : List (Model.Storage.Op α)} {request : Model.Storage.Op α} (hreq : Op.isRequest request)
    (hio : ∀ op ∈ before ++ after, Op.ioOk op) {e₁ e₂ e : Model.Storage.Engine α} (h1 : (Storage.Engine.new i u c).run store before = some e₁)
    (h2 : e₁.step store request = some e₂) (h3 : e₂.run store after = some e)
    (hanswered : before.countP Op.isRequest < e.results.length) (hg : Good store e.received)
    {md : Metadata ε} {value : α → Nat → Nat} {field : Nat} (hfield : field ∈ md.fieldIndices) {eb : ErrorBound}
    (heb : md.errorBounds[field]? = some eb) (hproved : ProvedBound eb)
    (hrows : ∀ r ∈ rowsOfTable md.name e.received, WellFormed md.tagIndices.length value field r)
    (hguard : ∀ r ∈ rowsOfTable md.name e.received, XorGuard eb (FVal.ofBits32 (value r.val field))) {m M G T D : ℚ}
    (hscale : RowsScale eb store.capacity value field (rowsOfTable md.name e.received) m M G T D)
    (log2 : Log2) (hlog : Log2Accurate log2) (hsome : rowsOfTable md.name e₁.received ≠ [])
    (hcount : (rowsOfTable md.name e.received).length < 2 ^ 63) :
    ∃ stored ingested, storedSegments log2 md value field e.c.saved = some stored ∧
      (rowsOfTable md.name e₁.received).Subperm ingested ∧ ingested.Subperm (rowsOfTable md.name e.received) ∧
      ∀ partitions, partitions.flatten.Perm (stored.map Prod.snd) → ∀ f, (f = .count ∨ f = .min ∨ f = .max) →
        ∃ r, execute f partitions = some r ∧ AggregateDeviates eb (rowsError M T D) 0 f (valuesOfRows value field ingested) r := by
  obtain ⟨stored, ingested, series, k1, k2, k3, k4, k5, k6, k7, k8⟩ := stored_rows hs hcap hmax hreq hio h1 h2 h3 hanswered hg hfield heb hproved hrows hguard hscale log2 hlog hsome
  refine ⟨stored, ingested, k1, k2, k3, fun partitions hp f hf => ?_⟩
  have h := k6 partitions hp
  have hlen : (ingestedValues series).length < 2 ^ 63 := by
    rw [k4, valuesOfRows, List.length_map]
    exact lt_of_le_of_lt k3.length_le hcount
  obtain ⟨⟨a, ha, ha'⟩, ⟨b, hb, hb'⟩⟩ := C84_min_max_partial log2 eb series partitions h k5 (rowsError M T D)
    fun p hp => ⟨3 * M, T, D, (k8 p hp).2, le_refl _⟩
  rw [← k4]
  rcases hf with rfl | rfl | rfl
  · exact ⟨_, C84_count log2 eb series partitions h hlen, rfl⟩
  · exact ⟨_, ha, a, rfl, ha'⟩
  · exact ⟨_, hb, b, rfl, hb'⟩

/-- How far SUM may be from the sum of the stored values of `rows`. -/
def rowsRounding (eb : ErrorBound) (partitions : List (List Segment)) (n : Nat) (e : ℚ) (values : List FVal) : ℚ :=
  roundingOfSum partitions.flatten.length (partitions.length + 1) n values.length e (totalAbs values + totalDeviation eb values)

theorem roundingOfSum_succ {a b n count : Nat} {e m : ℚ} (he : 0 ≤ e) (hm : 0 ≤ m) : roundingOfSum a b n count e m ≤ roundingOfSum a (b + 1) n count e m := by
  unfold roundingOfSum sumError
  have h0 : (0 : ℚ) ≤ (1 + 1 / 2 ^ 24) ^ (n + 3) - 1 := by
    have : (1 : ℚ) ≤ (1 + 1 / 2 ^ 24) ^ (n + 3) := one_le_pow₀ (by norm_num)
    linarith
  have h1 : 0 ≤ m + (8 * count * e + ((1 + 1 / 2 ^ 24) ^ (n + 3) - 1) * m) := by positivity
  have h2 : (1 + 1 / 2 ^ 53 : ℚ) ^ (1 + a + b) ≤ (1 + 1 / 2 ^ 53) ^ (1 + a + (b + 1)) := pow_le_pow_right₀ (by norm_num) (by omega)
  have := mul_le_mul_of_nonneg_right (sub_le_sub_right h2 1) h1
  linarith

theorem allowed_nonneg {eb : ErrorBound} (hvalid : ValidErrorBound eb) (q : ℚ) : 0 ≤ allowed eb q := by
  have := (deviationBound_eq hvalid (s := decide (q < 0)) (abs_nonneg q)).2.1
  have hq : ratOf (decide (q < 0)) |q| = q := by
    unfold ratOf
    by_cases h : q < 0
    · simp [h, abs_of_neg h]
    · simp [h, abs_of_nonneg (not_lt.mp h)]
  rwa [hq] at this

theorem totals_nonneg {eb : ErrorBound} (hvalid : ValidErrorBound eb) (xs : List FVal) : 0 ≤ totalAbs xs + totalDeviation eb xs := by
  refine add_nonneg (List.sum_nonneg ?_) (List.sum_nonneg ?_)
  · intro y hy
    obtain ⟨z, _, rfl⟩ := List.mem_map.mp hy
    exact abs_nonneg _
  · intro y hy
    obtain ⟨z, _, rfl⟩ := List.mem_map.mp hy
    exact mul_nonneg (allowed_nonneg hvalid _) (by norm_num)

/-- **C86** for all aggregates, if the rows of each series have one interval and are received in the order of their timestamps. Missing besides the
above: series that are not regular and rows that are not received in order, SUM is wrong for the former (`C84_sum_wrong`), and sums that overflow. -/
theorem C86_aggregates_partial {store : Model.Storage.Env α} (hs : Sorts store) (hcap : 2 ≤ store.capacity) (hmax : store.capacity ≤ 2 ^ 24)
    {i u c : Nat} {before after : List (Model.Storage.Op α)} {request : Model.Storage.Op α} (hreq : Op.isRequest request)
    (hio : ∀ op ∈ before ++ after, Op.ioOk op) {e₁ e₂ e : Model.Storage.Engine α} (h1 : (Storage.Engine.new i u c).run store before = some e₁)
    (h2 : e₁.step store request = some e₂) (h3 : e₂.run store after = some e)
    (hanswered : before.countP Op.isRequest < e.results.length) (hg : Good store e.received)
    {md : Metadata ε} {value : α → Nat → Nat} {field : Nat} (hfield : field ∈ md.fieldIndices) {eb : ErrorBound}
    (heb : md.errorBounds[field]? = some eb) (hproved : ProvedBound eb)
    (hrows : ∀ r ∈ rowsOfTable md.name e.received, WellFormed md.tagIndices.length value field r)
    (hguard : ∀ r ∈ rowsOfTable md.name e.received, XorGuard eb (FVal.ofBits32 (value r.val field))) {m M G T D : ℚ}
    (hscale : RowsScale eb store.capacity value field (rowsOfTable md.name e.received) m M G T D)
    (log2 : Log2) (hlog : Log2Accurate log2) (hsome : rowsOfTable md.name e₁.received ≠ [])
    (hcount : (rowsOfTable md.name e.received).length ≤ 2 ^ 53) (hregular : RegularRows (rowsOfTable md.name e.received))
    (horder : InOrder md.name e.received) :
    ∃ stored ingested, storedSegments log2 md value field e.c.saved = some stored ∧
      (rowsOfTable md.name e₁.received).Subperm ingested ∧ ingested.Subperm (rowsOfTable md.name e.received) ∧
      ∀ partitions, partitions.flatten.Perm (stored.map Prod.snd) → ∀ f, ∃ r, execute f partitions = some r ∧
        AggregateDeviates eb (rowsError M T D) (rowsRounding eb partitions store.capacity (rowsError M T D) (valuesOfRows value field ingested)) f
          (valuesOfRows value field ingested) r := by
  obtain ⟨stored, ingested, series, k1, k2, k3, k4, k5, k6, k7, k8⟩ := stored_rows hs hcap (by omega) hreq hio h1 h2 h3 hanswered hg hfield heb hproved hrows hguard hscale log2 hlog hsome
  obtain ⟨hrun, hio'⟩ := EndToEnd.run_request hreq hio h1 h2 h3
  obtain ⟨hsub, hchunks⟩ := EndToEnd.saved_spec hs hcap hio' hrun hg
  obtain ⟨hinv, _, hord⟩ := StorageOrder.ordered_run hs hcap _ hio' (Lemmas.Storage.inv_new i u c) (StorageOrder.own_new i u c)
    (StorageOrder.ordered_new i u c) hrun hg horder
  have hM : 0 ≤ M := le_trans (by positivity) hscale.limit.1
  have hT : 0 ≤ T := by
    obtain ⟨r, rest, hr⟩ := List.exists_cons_of_ne_nil hsome
    exact le_trans (abs_nonneg _) (hscale.time r ((k2.trans k3).subset (by rw [hr]; simp)))
  have hD := hscale.positive.2.2
  have he : 0 ≤ rowsError M T D := by unfold rowsError linearError; positivity
  have hreg : ∀ p ∈ series, RegularSeries eb store.capacity (rowsError M T D) p := by
    intro p hp
    obtain ⟨hlen, hnum⟩ := k8 p hp
    obtain ⟨x, hx, ht, rfl⟩ := k7 p hp
    refine ⟨chunk_regular hinv hord hsub hregular hx ht (hchunks x hx).2.2, ?_, hlen, 3 * M, T, D, hnum, le_refl _, ?_⟩
    · intro v hv
      obtain ⟨q, hq, rfl⟩ := List.mem_map.mp hv
      have hmem : (⟨x.table, x.tags, q.1, q.2⟩ : Model.Storage.Row α) ∈ rowsOfTable md.name e.received :=
        List.mem_filter.mpr ⟨hsub.subset (List.mem_flatMap.mpr ⟨x, hx, List.mem_map.mpr ⟨q, hq, rfl⟩⟩), by simpa using ht⟩
      have h4 := hscale.least _ hmem
      intro hc
      dsimp only at h4 hc
      rw [hc] at h4
      have h5 : realValue 0x80000000 = 0 := by decide +kernel
      rw [h5, abs_zero] at h4
      have h6 := allowed_nonneg hproved.1 0
      have h7 := hscale.positive.1
      linarith
    · have hcast : ((seriesOf value field x).1.length : ℚ) ≤ store.capacity := by exact_mod_cast hlen
      have h4 : 0 ≤ 3 * M + 3 * M * T / D := by positivity
      exact (mul_le_mul_of_nonneg_right hcast h4).trans hscale.limit.2.2.2
  refine ⟨stored, ingested, k1, k2, k3, fun partitions hp f => ?_⟩
  have h := k6 partitions hp
  have hlen : (ingestedValues series).length ≤ 2 ^ 53 := by
    rw [k4, valuesOfRows, List.length_map]
    exact k3.length_le.trans hcount
  rw [← k4]
  unfold rowsRounding
  cases f with
  | count => exact ⟨_, C84_count log2 eb series partitions h (by omega), rfl⟩
  | min =>
    obtain ⟨⟨a, ha, ha'⟩, _⟩ := C84_min_max_partial log2 eb series partitions h k5 (rowsError M T D)
      fun p hp => ⟨3 * M, T, D, (k8 p hp).2, le_refl _⟩
    exact ⟨_, ha, a, rfl, ha'⟩
  | max =>
    obtain ⟨_, ⟨a, ha, ha'⟩⟩ := C84_min_max_partial log2 eb series partitions h k5 (rowsError M T D)
      fun p hp => ⟨3 * M, T, D, (k8 p hp).2, le_refl _⟩
    exact ⟨_, ha, a, rfl, ha'⟩
  | sum =>
    obtain ⟨x, a, b⟩ := C84_sum_regular_partial log2 eb series partitions h k5 store.capacity hmax (rowsError M T D) he hreg
    refine ⟨_, a, x, rfl, fun hx => (b hx).trans ?_⟩
    have := roundingOfSum_succ (a := partitions.flatten.length) (b := partitions.length) (n := store.capacity)
      (count := (ingestedValues series).length) he (totals_nonneg hproved.1 (ingestedValues series))
    linarith
  | avg =>
    obtain ⟨x, a, b⟩ := C84_avg_regular_partial log2 eb series partitions h k5 hlen store.capacity hmax (rowsError M T D) he hreg
    refine ⟨_, a, x, rfl, fun hx => (b hx).trans (le_of_eq ?_)⟩
    rw [add_div]

/-- **C86** for a query: the plan of a query for aggregates of the field is replaced (C38), and what it returns for each aggregate is what the
aggregate of the rows is, up to the error bound and the rounding. -/
theorem C86_query_partial {store : Model.Storage.Env α} (hs : Sorts store) (hcap : 2 ≤ store.capacity) (hmax : store.capacity ≤ 2 ^ 24)
    {i u c : Nat} {before after : List (Model.Storage.Op α)} {request : Model.Storage.Op α} (hreq : Op.isRequest request)
    (hio : ∀ op ∈ before ++ after, Op.ioOk op) {e₁ e₂ e : Model.Storage.Engine α} (h1 : (Storage.Engine.new i u c).run store before = some e₁)
    (h2 : e₁.step store request = some e₂) (h3 : e₂.run store after = some e)
    (hanswered : before.countP Op.isRequest < e.results.length) (hg : Good store e.received)
    {md : Metadata ε} {value : α → Nat → Nat} {field : Nat} (hfield : field ∈ md.fieldIndices) {eb : ErrorBound}
    (heb : md.errorBounds[field]? = some eb) (hproved : ProvedBound eb)
    (hrows : ∀ r ∈ rowsOfTable md.name e.received, WellFormed md.tagIndices.length value field r)
    (hguard : ∀ r ∈ rowsOfTable md.name e.received, XorGuard eb (FVal.ofBits32 (value r.val field))) {m M G T D : ℚ}
    (hscale : RowsScale eb store.capacity value field (rowsOfTable md.name e.received) m M G T D)
    (log2 : Log2) (hlog : Log2Accurate log2) (hsome : rowsOfTable md.name e₁.received ≠ [])
    (hcount : (rowsOfTable md.name e.received).length ≤ 2 ^ 53) (hregular : RegularRows (rowsOfTable md.name e.received))
    (horder : InOrder md.name e.received) :
    ∃ stored ingested, storedSegments log2 md value field e.c.saved = some stored ∧
      (rowsOfTable md.name e₁.received).Subperm ingested ∧ ingested.Subperm (rowsOfTable md.name e.received) ∧
      ∀ (plan plan' : Aggregates.Plan) (node : AggregateNode) (input : Aggregates.Plan) (calls : List Call) (partitions : List (List Segment)),
        rewrite plan = some plan' → plan.children = [.aggregate node input] → node.aggregates = calls.map .call →
        (∀ call ∈ calls, call.argument = .column ∧ '(' ∉ call.function) → node.mode = .partial_ →
        partitions.flatten.Perm (stored.map Prod.snd) →
        ∃ functions results,
          plan'.children = [.aggregate { node with aggregates := functions.map .model } (.dataSource true false)] ∧
          executeNode node functions partitions = some results ∧
          List.Forall₂ (fun call r => ∃ f, functionOf call = some f ∧ AggregateDeviates eb (rowsError M T D)
            (rowsRounding eb partitions store.capacity (rowsError M T D) (valuesOfRows value field ingested)) f (valuesOfRows value field ingested) r)
            calls results := by
  obtain ⟨stored, ingested, k1, k2, k3, k4⟩ := C86_aggregates_partial hs hcap hmax hreq hio h1 h2 h3 hanswered hg hfield heb hproved hrows hguard hscale log2 hlog hsome hcount hregular horder
  refine ⟨stored, ingested, k1, k2, k3, fun plan plan' node input calls partitions hrewrite hchildren hcalls hargument hmode hp => ?_⟩
  obtain ⟨node', input', gridExec, parquetOnly, functions, a1, _, _, rfl, _, _, _, a8, a9⟩ := C38_rewritten plan plan' hrewrite
  rw [hchildren] at a1
  injection a1 with a1
  injection a1 with a1 a1'
  subst a1 a1'
  rw [hcalls] at a8
  have hf := tryRewriteAggregates_calls (fun call hc => (hargument call hc).2) a8
  obtain ⟨results, b1, b2⟩ := mapAll_forall₂ (g := fun f => execute f partitions)
    (R := fun call r => ∃ f, functionOf call = some f ∧ AggregateDeviates eb (rowsError M T D)
      (rowsRounding eb partitions store.capacity (rowsError M T D) (valuesOfRows value field ingested)) f (valuesOfRows value field ingested) r) hf
    fun call _ f hcf => by
      obtain ⟨r, c1, c2⟩ := k4 partitions hp f
      exact ⟨r, c1, f, hcf, c2⟩
  refine ⟨functions, results, a9, ?_, b2⟩
  unfold executeNode
  rw [hmode]
  exact b1

/-! ### Two series with the error bound `0.25` -/

/-- The table of C73 with an error bound. -/
def quarterMetadata : Metadata (List String) := { dayMetadata with errorBounds := [.lossless, .lossless, .absolute (.fin false (1 / 4))] }

/-- Three rows of two series are received before a flush is requested, a row of another table is received after it. -/
def minuteRows : List (Model.Storage.Op Nat) :=
  [.insert "t" [rowA 60000 0x42c80000, rowB 60000 0x42ca2000] (some 0) 3, .ingestionTake, .ingestionRow true,
    .insert "t" [rowA 120000 0x42c90000] (some 1) 1]

def flushedRows : Model.Storage.Engine Nat × Model.Storage.Engine Nat × Model.Storage.Engine Nat :=
  (((Storage.Engine.new 6 48 20).run (smallEnv 4) minuteRows).get (by decide +kernel),
    ((Storage.Engine.new 6 48 20).run (smallEnv 4) (minuteRows ++ [.flush])).get (by decide +kernel),
    ((Storage.Engine.new 6 48 20).run (smallEnv 4) (minuteRows ++ [.flush] ++ flushing.2)).get (by decide +kernel))

theorem flushedRows_received : rowsOfTable "t" flushedRows.2.2.received =
    [rowA 60000 0x42c80000, rowB 60000 0x42ca2000, rowA 120000 0x42c90000] := by decide +kernel

theorem flushedRows_scale : RowsScale (.absolute (.fin false (1 / 4))) 4 (fun v _ => v) 2 (rowsOfTable "t" flushedRows.2.2.received) 90 128 (1 / 10000)
    120000 60000 := by
  rw [flushedRows_received]
  refine ⟨?_, ?_, ?_, ?_, ?_, ?_, ?_, ?_, ?_⟩
  · unfold FiniteBits; decide +kernel
  · decide +kernel
  · decide +kernel
  · decide +kernel
  · decide +kernel
  · decide +kernel
  · norm_num
  · norm_num
  · refine Or.inr ⟨?_, ?_, ?_⟩
    · intro r _ _
      norm_num [linearSlack, margin, allowed]
    · norm_num
    · norm_num

theorem flushedRows_guard : ∀ r ∈ rowsOfTable "t" flushedRows.2.2.received, XorGuard (.absolute (.fin false (1 / 4))) (FVal.ofBits32 r.val) := by
  rw [flushedRows_received]
  intro v hv
  fin_cases hv
  all_goals
    refine Or.inr ?_
    norm_num [pow2_eq, rowA, rowB]

theorem flushedRows_regular : RegularRows (rowsOfTable "t" flushedRows.2.2.received) := by
  rw [flushedRows_received]
  exact ⟨fun _ => 60000, by decide +kernel⟩

/-- The aggregates of the three rows with the values `100`, `101.0625` and `100.5`: two segments are stored and read in one
partition. -/
example : ∃ stored ingested, storedSegments exactLog2 quarterMetadata (fun v _ => v) 2 flushedRows.2.2.c.saved = some stored ∧
    (rowsOfTable "t" flushedRows.1.received).Subperm ingested ∧ ingested.Subperm (rowsOfTable "t" flushedRows.2.2.received) ∧
    rowsOfTable "t" flushedRows.1.received = [rowA 60000 0x42c80000, rowB 60000 0x42ca2000, rowA 120000 0x42c90000] ∧
    (∀ f, ∃ r, execute f [stored.map Prod.snd] = some r ∧ AggregateDeviates (.absolute (.fin false (1 / 4))) (rowsError 128 120000 60000)
      (rowsRounding (.absolute (.fin false (1 / 4))) [stored.map Prod.snd] 4 (rowsError 128 120000 60000) (valuesOfRows (fun v _ => v) 2 ingested)) f
      (valuesOfRows (fun v _ => v) 2 ingested) r) ∧
    rowsError 128 120000 60000 ≤ 1 / 10000 ∧ execute .count [stored.map Prod.snd] = some (.int 3) ∧
    execute .avg [stored.map Prod.snd] = some (.f64 (FVal.div f64Fmt (.fin false 301.5625) (.fin false 3))) := by
  have h1 : (Storage.Engine.new 6 48 20).run (smallEnv 4) minuteRows = some flushedRows.1 := by decide +kernel
  have h2 : flushedRows.1.step (smallEnv 4) .flush = some flushedRows.2.1 := by decide +kernel
  have h3 : flushedRows.2.1.run (smallEnv 4) flushing.2 = some flushedRows.2.2 := by decide +kernel
  have hrows : ∀ r ∈ rowsOfTable "t" flushedRows.2.2.received, WellFormed quarterMetadata.tagIndices.length (fun v _ => v) 2 r := by
    rw [flushedRows_received]
    have : ∀ r ∈ [rowA 60000 0x42c80000, rowB 60000 0x42ca2000, rowA 120000 0x42c90000],
        (r.tags.length = 1 ∧ (-2 ^ 63 ≤ r.ts ∧ r.ts < 2 ^ 63)) ∧ r.val < 2 ^ 32 ∧ (FVal.ofBits32 r.val).isNan = false := by decide +kernel
    exact fun r hr => ⟨(this r hr).1.1, (this r hr).1.2, (this r hr).2.1, (this r hr).2.2⟩
  obtain ⟨stored, ingested, g1, g2, g3, g4⟩ := C86_aggregates_partial (md := quarterMetadata) (smallEnv_sorts 4) (by decide) (by decide)
    (request := .flush) (by decide) (by simp [minuteRows, flushing, Op.ioOk]) h1 h2 h3 (by decide +kernel) (by decide +kernel) (field := 2)
    (by decide) (by decide +kernel) quarter_proved hrows flushedRows_guard flushedRows_scale exactLog2 exactLog2_accurate (by decide +kernel)
    (by decide +kernel) flushedRows_regular (by unfold InOrder; decide +kernel)
  refine ⟨stored, ingested, g1, g2, g3, by decide +kernel, g4 [stored.map Prod.snd] (by simp), by norm_num [rowsError, linearError], ?_⟩
  have : storedSegments exactLog2 quarterMetadata (fun v _ => v) 2 flushedRows.2.2.c.saved =
      some ((storedSegments exactLog2 quarterMetadata (fun v _ => v) 2 flushedRows.2.2.c.saved).get (by decide +kernel)) := by simp
  rw [this] at g1
  cases g1
  decide +kernel

end ModelarDB.Props
