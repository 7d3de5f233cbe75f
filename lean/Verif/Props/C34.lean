import Verif.Lemmas.QueryFilter
import Verif.Lemmas.TableDefinition
import Verif.Props.C30
import Verif.Props.C36
/-
C34: time filters never lose matching rows.
-/
namespace ModelarDB.Props
open Model Model.Query Model.TableDefinition Spec Lemmas

/-- The values a filter for segments is evaluated for. `rest` gives the columns without a meaning here. -/
def segmentEnv {ε : Type} {σ : Type} (m : Metadata ε) (segment : SegmentOf σ) (rest : Nat → Value) (s : σ) : String → Value :=
  lookup (queryCompressedBase ++ tagColumns m) (segmentValues rest (segment.start s) (segment.stop s) (segment.tags s))

/-- The values a filter for data points is evaluated for. -/
def pointEnv {ε : Type} (m : Metadata ε) (p : Point) : String → Value := lookup (gridBase ++ tagColumns m) (pointValues p)

/-- A data point that satisfies all filters of a query is in a segment that is kept and is kept itself. -/
theorem keeps_of_match {ε : Type} {σ : Type} {qs : List Column} {bs : List ErrorBound} {gs : List (Option (Generated ε))} {m : Metadata ε}
    (hm : Consistent qs bs gs m) (I : Interpretation) {filters : List Expr} {parquet grid : Option Expr}
    (hplan : planFilters m filters = .ok (parquet, grid)) (hrev : ∀ f ∈ filters, ¬ ReversedEquality m.schema f) (segment : SegmentOf σ)
    (rest : Nat → Value) {s : σ} (hvalid : segment.Valid s) {p : Point} (hp : p ∈ segment.points s) {row : String → Value}
    (hrow : RowOf m p row) (hmatch : ∀ f ∈ filters, f.eval I row = .bool true) :
    Keeps I parquet (segmentEnv m segment rest s) ∧ Keeps I grid (pointEnv m p) := by
  unfold planFilters at hplan
  split at hplan
  · cases hplan
  rename_i pe ge hcomb
  unfold rewriteAndCombineFilters at hcomb
  split at hcomb
  · cases hcomb
  rename_i rs hrs
  simp only [Except.ok.injEq, Prod.mk.injEq] at hcomb
  obtain ⟨rfl, rfl⟩ := hcomb
  split at hplan
  rotate_left
  · cases hplan
  · cases hplan
  rename_i pe ge hpe hge
  simp only [Except.ok.injEq, Prod.mk.injEq] at hplan
  obtain ⟨rfl, rfl⟩ := hplan
  have hpe' : pe = conjunction (rs.map Prod.fst) ∧ ∀ e, pe = some e → convertible (queryCompressedBase ++ tagColumns m) e.refs = true := by
    unfold tryConvert at hpe
    split at hpe
    · cases hpe; rename_i h; exact ⟨h.symm, by simp⟩
    · rename_i h
      split at hpe
      · rename_i hc
        cases hpe
        exact ⟨h.symm, by rintro e ⟨⟩; exact hc⟩
      · cases hpe
  have hge' : ge = conjunction (rs.map Prod.snd) ∧ ∀ e, ge = some e → convertible (gridBase ++ tagColumns m) e.refs = true := by
    unfold tryConvert at hge
    split at hge
    · cases hge; rename_i h; exact ⟨h.symm, by simp⟩
    · rename_i h
      split at hge
      · rename_i hc
        cases hge
        exact ⟨h.symm, by rintro e ⟨⟩; exact hc⟩
      · cases hge
  obtain ⟨rfl, hpe'⟩ := hpe'
  obtain ⟨rfl, hge'⟩ := hge'
  have htags := hvalid.tags p hp
  obtain ⟨h1, h2⟩ := hvalid.times p hp
  have htagcols : tagColumns m = m.tagIndices.filterMap fun i => m.schema[i]? := rfl
  have hall : ∀ r ∈ rs, r.1.eval I (segmentEnv m segment rest s) = .bool true ∧ r.2.eval I (pointEnv m p) = .bool true := by
    intro r hr
    obtain ⟨f, hf, hfr⟩ := rewriteFilters_mem hrs r hr
    obtain ⟨e1, he1⟩ : ∃ e, conjunction (rs.map Prod.fst) = some e := by
      cases rs with
      | nil => simp at hr
      | cons _ _ => exact ⟨_, rfl⟩
    obtain ⟨e2, he2⟩ : ∃ e, conjunction (rs.map Prod.snd) = some e := by
      cases rs with
      | nil => simp at hr
      | cons _ _ => exact ⟨_, rfl⟩
    have hc1 := hpe' e1 he1
    have hc2 := hge' e2 he2
    -- The operands have the same value for the row, the segment and the data point.
    have hsame : ∀ o : Expr, (∀ n ∈ o.refs, n ∈ r.1.refs ∧ n ∈ r.2.refs) →
        o.eval I (segmentEnv m segment rest s) = o.eval I row ∧ o.eval I (pointEnv m p) = o.eval I row := by
      intro o ho
      have hn : ∀ n ∈ o.refs, segmentEnv m segment rest s n = row n ∧ pointEnv m p n = row n := by
        intro n hn
        obtain ⟨g1, g2⟩ := ho n hn
        have g1 := conjunction_refs he1 r.1 (List.mem_map_of_mem hr) n g1
        have g2 := conjunction_refs he2 r.2 (List.mem_map_of_mem hr) n g2
        obtain ⟨c, hc, rfl⟩ := List.mem_map.mp (ref_is_tag hc1 hc2 g1 g2)
        obtain ⟨k, hk⟩ := List.mem_iff_getElem?.mp hc
        have hvalidIdx : ∀ i ∈ m.tagIndices, i < m.schema.length := by
          intro i hi
          obtain ⟨c, hc, _⟩ := (hm.tags i).mp hi
          exact (List.getElem?_eq_some_iff.mp hc).1
        obtain ⟨hlen, hget⟩ := filterMap_getElem?_of_valid m.schema m.tagIndices hvalidIdx
        have hklt : k < m.tagIndices.length := by
          rw [← hlen]
          exact (List.getElem?_eq_some_iff.mp hk).1
        have hidx : m.tagIndices[k]? = some m.tagIndices[k] := List.getElem?_eq_getElem hklt
        have hschema : m.schema[m.tagIndices[k]]? = some c := by rw [← hget k _ hidx]; exact hk
        have hlt : k < p.tags.length := by rw [hrow.count]; exact hklt
        have htag : p.tags[k]? = some p.tags[k] := List.getElem?_eq_getElem hlt
        rw [hrow.tags k _ c _ hidx hschema htag]
        exact ⟨lookup_tag rfl (convertible_iff.mp hc1).1 hk (by rw [← htags]; exact htag), lookup_tag rfl (convertible_iff.mp hc2).1 hk htag⟩
      exact ⟨eval_congr I o fun n h => (hn n h).1, eval_congr I o fun n h => (hn n h).2⟩
    have hfm := hmatch f hf
    have hts : ∀ field, fieldWithName m.schema field.name = some field → field.type = .timestamp → row field.name = .time p.time := by
      intro c hc ht
      have hmem := List.mem_of_find?_eq_some hc
      obtain ⟨j, hj⟩ := List.mem_iff_getElem?.mp hmem
      have := (hm.timestamp j).mp ⟨c, hj, ht⟩
      exact hrow.time c (this ▸ hj)
    have hname : ∀ {n : String} {field : Column}, fieldWithName m.schema n = some field → field.name = n := by
      intro n field h
      simpa using List.find?_some h
    unfold rewriteFilter at hfr
    split at hfr
    · rename_i n op right
      split at hfr
      · cases hfr
      rename_i field hfield
      have hn := hname hfield
      subst hn
      simp only [Except.ok.injEq] at hfr
      split at hfr
      · rename_i ht
        have hr' : ∀ n ∈ right.refs, n ∈ r.1.refs ∧ n ∈ r.2.refs := by
          intro n hn
          cases op <;> simp only [rewriteLeft, Option.some.injEq, reduceCtorEq] at hfr <;> subst hfr <;> simp [Expr.refs, hn]
        obtain ⟨s1, s2⟩ := hsame right hr'
        refine rewriteLeft_keeps hfr (lookup_start _ _ _ _ _) (lookup_end _ _ _ _ _) (lookup_timestamp _ _) s1 s2 h1 h2 ?_
        simp only [Expr.eval] at hfm
        rwa [hts field hfield ht] at hfm
      · cases hfr
    · rename_i left op n hleft
      split at hfr
      · cases hfr
      rename_i field hfield
      have hn := hname hfield
      subst hn
      simp only [Except.ok.injEq] at hfr
      split at hfr
      · rename_i ht
        have hop : op ≠ .eq := by
          rintro rfl
          refine hrev _ hf ?_
          have hmem := List.mem_of_find?_eq_some hfield
          cases left with
          | column n => exact absurd rfl (hleft n)
          | constant v => exact ⟨field, hmem, rfl, ht⟩
          | other id refs => exact ⟨field, hmem, rfl, ht⟩
          | binary l o r => exact ⟨field, hmem, rfl, ht⟩
        have hr' : ∀ n ∈ left.refs, n ∈ r.1.refs ∧ n ∈ r.2.refs := by
          intro n hn
          cases op <;> simp only [rewriteRight, Option.some.injEq, reduceCtorEq] at hfr <;> first
            | exact absurd rfl hop
            | (subst hfr; simp [Expr.refs, hn])
        obtain ⟨s1, s2⟩ := hsame left hr'
        refine rewriteRight_keeps hfr hop (lookup_start _ _ _ _ _) (lookup_end _ _ _ _ _) (lookup_timestamp _ _) s1 s2 h1 h2 ?_
        simp only [Expr.eval] at hfm
        rwa [hts field hfield ht] at hfm
      · cases hfr
    · cases hfr
  exact ⟨(keeps_conjunction I _ _).mpr (by simp only [List.mem_map]; rintro _ ⟨r, hr, rfl⟩; exact (hall r hr).1),
    (keeps_conjunction I _ _).mpr (by simp only [List.mem_map]; rintro _ ⟨r, hr, rfl⟩; exact (hall r hr).2)⟩

/-- **C34** in the parts that hold: reading only segments and data points that satisfy the rewritten filters, and then checking the filters
of the query, returns the same data points as checking the filters of the query for all data points. A filter can contain any expressions.
`keep` are the segments that are read, they can be more than those that satisfy the filter. `rows` gives the rows the data points are in. Not
shown is the property for filters of the form `expression = timestamp`, for these it is false of the code, see
`C34_reversed_equality_loses_rows`. -/
theorem C34_rows_partial {ε : Type} {σ : Type} {name : String} {qs : List Column} {bs : List ErrorBound} {gs : List (Option (Generated ε))}
    {m : Metadata ε} (hm : tryNew name qs bs gs = .ok m) (I : Interpretation) {filters : List Expr} {parquet grid : Option Expr}
    (hplan : planFilters m filters = .ok (parquet, grid)) (hrev : ∀ f ∈ filters, ¬ ReversedEquality m.schema f)
    (segment : SegmentOf σ) (rest : σ → Nat → Value) (segments : List σ) (hvalid : ∀ s ∈ segments, segment.Valid s)
    (rows : Point → String → Value) (hrows : ∀ s ∈ segments, ∀ p ∈ segment.points s, RowOf m p (rows p)) (keep : σ → Bool)
    (hkeep : ∀ s ∈ segments, Keeps I parquet (segmentEnv m segment (rest s) s) → keep s = true) :
    ((((segments.filter keep).flatMap segment.points).filter fun p => decide (Keeps I grid (pointEnv m p))).filter fun p =>
        filters.all fun f => f.eval I (rows p) = .bool true) =
      (segments.flatMap segment.points).filter fun p => filters.all fun f => f.eval I (rows p) = .bool true := by
  have hc := consistent_of_tryNew hm
  rw [List.filter_filter, List.filter_flatMap, List.filter_flatMap]
  induction segments with
  | nil => rfl
  | cons s segments ih =>
    have ih := ih (fun s' h => hvalid s' (List.mem_cons_of_mem _ h)) (fun s' h => hrows s' (List.mem_cons_of_mem _ h))
      (fun s' h => hkeep s' (List.mem_cons_of_mem _ h))
    have hmatch : ∀ p ∈ segment.points s, (filters.all fun f => f.eval I (rows p) = .bool true) = true →
        Keeps I parquet (segmentEnv m segment (rest s) s) ∧ Keeps I grid (pointEnv m p) := by
      intro p hp hall
      refine keeps_of_match hc I hplan hrev segment (rest s) (hvalid s (by simp)) hp (hrows s (by simp) p hp) ?_
      simpa using hall
    rw [List.flatMap_cons, ← ih]
    by_cases hk : keep s = true
    · rw [List.filter_cons_of_pos hk, List.flatMap_cons]
      congr 1
      refine List.filter_congr fun p hp => ?_
      rw [Bool.eq_iff_iff, Bool.and_eq_true]
      exact ⟨fun h => h.1, fun h => ⟨h, by simpa using (hmatch p hp h).2⟩⟩
    · rw [List.filter_cons_of_neg hk]
      have : (segment.points s).filter (fun p => filters.all fun f => f.eval I (rows p) = .bool true) = [] := by
        rw [List.filter_eq_nil_iff]
        intro p hp hall
        exact hk (hkeep s (by simp) (hmatch p hp hall).1)
      rw [this, List.nil_append]

/-! ### A query for which the conditions hold -/

/-- Expressions that are not modelled have no value, except for the function with the number 0, which gives the number in a text. -/
def plainly : Interpretation where
  other id vs := match id, vs with
    | 0, [.text "5"] => .time 5
    | 0, [.text "2"] => .time 2
    | _, _ => .null
  op _ a b := .bool (a = b)

/-- `timestamp TIMESTAMP, day TAG, v FIELD`. -/
def dayTable : Except Failure (Metadata (List String)) := createFromSql listEnv "t" [.timestamp "timestamp", .tag "day", .field "v"]

/-- The definition of the table. -/
def dayMetadata : Metadata (List String) :=
  { name := "t", timestampIndex := 0, fieldIndices := [2], tagIndices := [1], errorBounds := [.lossless, .lossless, .lossless]
    generated := [none, none, none]
    schema := [⟨"timestamp", .timestamp, false⟩, ⟨"day", .string, false⟩, ⟨"v", .value, false⟩]
    querySchema := [⟨"timestamp", .timestamp, false⟩, ⟨"day", .string, false⟩, ⟨"v", .value, false⟩]
    querySchemaToSchema := [0, 1, 2]
    compressedSchema := compressedSchemaBase ++ [⟨"day", .string, false⟩] }

theorem dayTable_eq : dayTable = .ok dayMetadata := by decide +kernel

/-- The row of a data point. -/
def dayRow (p : Point) (name : String) : Value :=
  if name = "timestamp" then .time p.time
  else if name = "day" then match p.tags with
    | [t] => .text t
    | _ => .null
  else if name = "v" then .number p.value
  else .null

theorem dayRow_rowOf (p : Point) (h : p.tags.length = 1) : RowOf dayMetadata p (dayRow p) := by
  obtain ⟨t, v, tags⟩ := p
  match tags, h with
  | [tag], _ =>
    refine ⟨?_, ?_, rfl⟩
    · rintro c hc
      cases hc
      rfl
    · intro k j c tag' hk hj ht
      match k, hk with
      | 0, hk =>
        cases hk
        cases hj
        cases ht
        rfl

/-- `timestamp >= 2 AND number(day) > timestamp AND v = 7`. -/
def dayFilters : List Expr :=
  [.binary (.column "timestamp") .ge (.constant (.time 2)), .binary (.other 0 ["day"]) .gt (.column "timestamp"),
    .binary (.column "v") .eq (.constant (.number 7))]

/-- Three segments of two time series. -/
def daySegments : List ListSegment := [⟨["5"], (1, 7), [(3, 7), (4, 8)]⟩, ⟨["5"], (6, 7), [(7, 7)]⟩, ⟨["2"], (1, 7), [(2, 7)]⟩]

/-- The first segment has the data point that satisfies the filters, and the second is not read. -/
example : ∃ parquet grid, planFilters dayMetadata dayFilters = .ok (parquet, grid) ∧
    (∀ f ∈ dayFilters, ¬ ReversedEquality dayMetadata.schema f) ∧
    (daySegments.map fun s => decide (Keeps plainly parquet (segmentEnv dayMetadata listSegment (fun _ => .null) s))) = [true, false, true] ∧
    ((daySegments.flatMap listSegment.points).filter fun p => dayFilters.all fun f => f.eval plainly (dayRow p) = .bool true) =
      [⟨3, 7, ["5"]⟩] ∧
    ((((daySegments.filter fun s => decide (Keeps plainly parquet (segmentEnv dayMetadata listSegment (fun _ => .null) s))).flatMap
        listSegment.points).filter fun p => decide (Keeps plainly grid (pointEnv dayMetadata p))).filter fun p =>
          dayFilters.all fun f => f.eval plainly (dayRow p) = .bool true) = [⟨3, 7, ["5"]⟩] := by
  have hrev : ∀ f ∈ dayFilters, ¬ ReversedEquality dayMetadata.schema f := by
    simp [dayFilters, ReversedEquality]
  have hmatch : ((daySegments.flatMap listSegment.points).filter fun p =>
      dayFilters.all fun f => f.eval plainly (dayRow p) = .bool true) = [⟨3, 7, ["5"]⟩] := by decide +kernel
  refine ⟨_, _, rfl, hrev, by decide +kernel, hmatch, ?_⟩
  rw [← hmatch]
  obtain ⟨bs, gs, h⟩ : ∃ bs gs, tryNew "t" dayMetadata.querySchema bs gs = .ok dayMetadata :=
    ⟨[.lossless, .lossless, .lossless], [none, none, none], by decide +kernel⟩
  refine C34_rows_partial h plainly rfl hrev listSegment (fun _ _ => .null) daySegments ?_ dayRow ?_ _ (by simp)
  · intro s hs
    apply ListSegment.valid
    revert s
    decide
  · intro s hs p hp
    refine dayRow_rowOf p ?_
    revert p s
    decide

/-! ### The property for equalities with the timestamp on the right -/

/-- **C34** is false of the code for `number(day) = timestamp`: the segment has a data point that satisfies the filter, but the segment is
not read as its first time is not its last time. -/
theorem C34_reversed_equality_loses_rows : ∃ parquet grid,
    planFilters dayMetadata [.binary (.other 0 ["day"]) .eq (.column "timestamp")] = .ok (parquet, grid) ∧
    (⟨5, 7, ["5"]⟩ : Point) ∈ listSegment.points ⟨["5"], (1, 7), [(5, 7), (9, 7)]⟩ ∧
    listSegment.Valid ⟨["5"], (1, 7), [(5, 7), (9, 7)]⟩ ∧
    (Expr.binary (.other 0 ["day"]) .eq (.column "timestamp")).eval plainly (dayRow ⟨5, 7, ["5"]⟩) = .bool true ∧
    ¬ Keeps plainly parquet (segmentEnv dayMetadata listSegment (fun _ => .null) ⟨["5"], (1, 7), [(5, 7), (9, 7)]⟩) := by
  refine ⟨_, _, rfl, by decide, ListSegment.valid (by decide), by decide +kernel, by decide +kernel⟩

/-- The same for every table, every expression that is not a column and every segment with more than one data point: no segment is read. -/
theorem C34_reversed_equality_never_reads {I : Interpretation} {left : Expr} {name : String} {parquet grid : Expr}
    (h : rewriteRight left .eq (.column name) = some (parquet, grid)) (env : String → Value) (start stop : Int)
    (hstart : env "start_time" = .time start) (hstop : env "end_time" = .time stop) (hlt : start < stop) :
    parquet.eval I env ≠ .bool true := by
  simp only [rewriteRight, Option.some.injEq, Prod.mk.injEq] at h
  obtain ⟨rfl, rfl⟩ := h
  simp only [Expr.eval, hstart, hstop]
  show ¬ conjunctionOfValues (applyOp I .le _ _) (applyOp I .ge _ _) = .bool true
  rw [conj_eq_true, not_and]
  intro h1 h2
  rw [compare_time_true' (by simp)] at h1 h2
  obtain ⟨a, ha, h1⟩ := h1
  obtain ⟨b, hb, h2⟩ := h2
  rw [ha] at hb
  cases hb
  simp only [compareTimes, decide_eq_true_eq] at h1 h2
  omega

/-- If the timestamp column is not named "timestamp" the query fails instead. -/
theorem C34_reversed_equality_fails : ∃ m, createFromSql listEnv "t" [.timestamp "ts", .tag "day", .field "v"] = .ok m ∧
    planFilters m [.binary (.other 0 ["day"]) .eq (.column "ts")] = .error .error := by
  refine ⟨_, rfl, ?_⟩
  decide +kernel

end ModelarDB.Props
