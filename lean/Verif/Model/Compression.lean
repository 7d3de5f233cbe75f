import Verif.Model.MacaqueV
import Verif.Model.PmcMean
import Verif.Model.Swing
/-
Model of the compression of a univariate time series:
`/repo/crates/modelardb_compression/src/types.rs`,
`/repo/crates/modelardb_compression/src/compression.rs` and `sum` and `grid` of
`/repo/crates/modelardb_compression/src/models/mod.rs`.

A series is a list of timestamps and a list of values (bit patterns) of the same length. Building
Arrow arrays is not modelled, a batch of segments is a list of `Segment`.
-/
namespace ModelarDB.Model

/-- `PMC_MEAN_ID`, `SWING_ID` and `MACAQUE_V_ID` (models/mod.rs:36-38). -/
inductive ModelType where
  | pmcMean
  | swing
  | macaqueV
deriving DecidableEq, Repr

/-- `f32::to_le_bytes`. -/
def toLeBytes32 (b : Nat) : List Nat := [b % 256, b / 256 % 256, b / 65536 % 256, b / 16777216 % 256]

/-- `f32::from_le_bytes`; `none` for a slice of the wrong length (a panic in `try_into`). -/
def fromLeBytes32 : List Nat → Option Nat
  | [a, b, c, d] => some (a + 256 * b + 65536 * c + 16777216 * d)
  | _ => none

/-- `PMCMean::bytes_per_value` (pmc_mean.rs:83-87); the metadata has 29 bytes (schemas.rs:41-64). -/
def pmcMeanBytesPerValue (length : Nat) : FVal := FVal.div f32Fmt (.fin false 29) (FVal.ofInt f32Fmt length)

/-- `Swing::bytes_per_value` (swing.rs:236-239). -/
def swingBytesPerValue (length : Nat) : FVal := FVal.div f32Fmt (.fin false 30) (FVal.ofInt f32Fmt length)

/-- `CompressedSegmentBuilder` (types.rs:148-167). Values are bit patterns. -/
structure FittedModel where
  modelType : ModelType
  startIndex : Nat
  endIndex : Nat
  minValue : Nat
  maxValue : Nat
  values : List Nat
  modelLastValue : Nat
  bytesPerValue : FVal
deriving DecidableEq

/-- `ModelBuilder` (types.rs:40-56). -/
structure ModelBuilder where
  startIndex : Nat
  pmcMean : PMCMean
  pmcMeanCouldFitAll : Bool
  swing : Swing
  swingCouldFitAll : Bool

namespace ModelBuilder

/-- `ModelBuilder::new` (types.rs:61-69). -/
def new (startIndex : Nat) (eb : ErrorBound) : ModelBuilder :=
  ⟨startIndex, PMCMean.new eb, true, Swing.new eb, true⟩

/-- `try_to_update_models` (types.rs:74-81). `&&` is lazy, a model that has rejected a value is not
offered another one. -/
def tryToUpdateModels (b : ModelBuilder) (timestamp : Int) (value : Nat) : ModelBuilder × Bool :=
  let p := if b.pmcMeanCouldFitAll then b.pmcMean.fitValue (FVal.ofBits32 value) else (b.pmcMean, false)
  let s := if b.swingCouldFitAll then b.swing.fitDataPoint f64Ops timestamp (FVal.ofBits32 value)
    else (b.swing, false)
  ({ b with pmcMean := p.1, pmcMeanCouldFitAll := p.2, swing := s.1, swingCouldFitAll := s.2 }, p.2 || s.2)

/-- `select_pmc_mean` (types.rs:104-119). -/
def selectPmcMean (startIndex : Nat) (p : PMCMean) : FittedModel :=
  let value := p.model.toBits32
  ⟨.pmcMean, startIndex, startIndex + p.length - 1, value, value, [], value, pmcMeanBytesPerValue p.length⟩

/-- `select_swing` (types.rs:122-144). -/
def selectSwing (startIndex : Nat) (s : Swing) : FittedModel :=
  let first := (s.model f64Ops).1
  let last := (s.model f64Ops).2
  ⟨.swing, startIndex, startIndex + s.length - 1, (first.min last).toBits32, (first.max last).toBits32,
    if first.lt last then [] else [0], last.toBits32, swingBytesPerValue s.length⟩

/-- `finish` (types.rs:84-101). `min_by` returns the first of equal minima. -/
def finish (b : ModelBuilder) : FittedModel :=
  if (swingBytesPerValue b.swing.length).lt (pmcMeanBytesPerValue b.pmcMean.length) then
    selectSwing b.startIndex b.swing
  else selectPmcMean b.startIndex b.pmcMean

end ModelBuilder

/-- The loop of `fit_next_model` (compression.rs:288-298) over the points from the current index. -/
def fitLoop (b : ModelBuilder) : List (Int × Nat) → ModelBuilder
  | [] => b
  | (t, v) :: rest =>
    let r := b.tryToUpdateModels t v
    if r.2 then fitLoop r.1 rest else r.1

/-- `fit_next_model` (compression.rs:280-301). -/
def fitNextModel (currentStartIndex : Nat) (eb : ErrorBound) (ts : List Int) (vs : List Nat) : FittedModel :=
  (fitLoop (ModelBuilder.new currentStartIndex eb) ((ts.zip vs).drop currentStartIndex)).finish

/-- A row of the batch of compressed segments (types.rs:467-490). The column `error` is always NaN and
left out; field column and tags are the same for all segments of a batch. -/
structure Segment where
  modelType : ModelType
  startTime : Int
  endTime : Int
  timestamps : List Nat
  minValue : Nat
  maxValue : Nat
  values : List Nat
  residuals : List Nat
deriving DecidableEq, Repr

/-- `values[start..=end]`. -/
def sliceIncl {α : Type} (l : List α) (first last : Nat) : List α := (l.take (last + 1)).drop first

/-- `encode_values_for_pmc_mean` (types.rs:283-303). -/
def encodeValuesForPmcMean (minValue maxValue residualsMin residualsMax : Nat) : List Nat :=
  if (FVal.ofBits32 residualsMin).lt (FVal.ofBits32 minValue) then
    if (FVal.ofBits32 residualsMax).le (FVal.ofBits32 maxValue) then [1]
    else toLeBytes32 minValue
  else []

/-- `decode_values_for_pmc_mean` (types.rs:307-321). -/
def decodeValuesForPmcMean (minValue maxValue : Nat) (values : List Nat) : Option Nat :=
  match values.length with
  | 0 => some minValue
  | 1 => some maxValue
  | _ => fromLeBytes32 values

/-- `encode_values_for_swing` (types.rs:325-370). -/
def encodeValuesForSwing (minValue maxValue : Nat) (minValueIsFirst : Bool) (residualsMin residualsMax : Nat) :
    List Nat :=
  let minOverwritten := (FVal.ofBits32 residualsMin).lt (FVal.ofBits32 minValue)
  let maxOverwritten := (FVal.ofBits32 maxValue).lt (FVal.ofBits32 residualsMax)
  if minOverwritten && maxOverwritten then
    if minValueIsFirst then toLeBytes32 minValue ++ toLeBytes32 maxValue
    else toLeBytes32 maxValue ++ toLeBytes32 minValue
  else if minOverwritten then (if minValueIsFirst then 0 else 1) :: toLeBytes32 minValue
  else if maxOverwritten then (if minValueIsFirst then 2 else 3) :: toLeBytes32 maxValue
  else if !minValueIsFirst then [0]
  else []

/-- `decode_values_for_swing` (types.rs:374-407). -/
def decodeValuesForSwing (minValue maxValue : Nat) (values : List Nat) : Option (Nat × Nat) :=
  match values.length with
  | 0 => some (minValue, maxValue)
  | 1 => some (maxValue, minValue)
  | 5 =>
    match fromLeBytes32 values.tail, values.head? with
    | some value, some 0 => some (value, maxValue)
    | some value, some 1 => some (maxValue, value)
    | some value, some 2 => some (minValue, value)
    | some value, some 3 => some (value, minValue)
    | _, _ => none
  | 8 =>
    match fromLeBytes32 (values.take 4), fromLeBytes32 (values.drop 4) with
    | some first, some last => some (first, last)
    | _, _ => none
  | _ => none

/-- `CompressedSegmentBuilder::finish` (types.rs:197-267). `none` is a panic: an index outside the
arrays or an unknown model type. -/
def FittedModel.finish (log2 : Log2) (m : FittedModel) (eb : ErrorBound) (residualsEndIndex : Nat)
    (ts : List Int) (vs : List Nat) : Option Segment :=
  match ts[m.startIndex]?, ts[residualsEndIndex]? with
  | some startTime, some endTime =>
    let timestamps := compressResidualTimestamps (sliceIncl ts m.startIndex residualsEndIndex)
    if m.endIndex < residualsEndIndex then
      let residualsStartIndex := m.endIndex + 1
      let r := ((MacaqueV.new eb).compressValuesWithoutFirst log2
        (sliceIncl vs residualsStartIndex residualsEndIndex) m.modelLastValue).model
      let count := ((residualsEndIndex - residualsStartIndex) % 256 + 1) % 256
      match m.modelType with
      | .pmcMean => some ⟨.pmcMean, startTime, endTime, timestamps, min32 m.minValue r.2.1,
          max32 m.maxValue r.2.2, encodeValuesForPmcMean m.minValue m.maxValue r.2.1 r.2.2, r.1 ++ [count]⟩
      | .swing => some ⟨.swing, startTime, endTime, timestamps, min32 m.minValue r.2.1,
          max32 m.maxValue r.2.2,
          encodeValuesForSwing m.minValue m.maxValue m.values.isEmpty r.2.1 r.2.2, r.1 ++ [count]⟩
      | .macaqueV => none
    else
      some ⟨m.modelType, startTime, endTime, timestamps, m.minValue, m.maxValue, m.values, []⟩
  | _, _ => none

/-- `compress_and_store_residuals_in_a_separate_segment` (compression.rs:367-401). -/
def compressResidualsInSeparateSegment (log2 : Log2) (eb : ErrorBound) (startIndex endIndex : Nat)
    (ts : List Int) (vs : List Nat) : Option Segment :=
  match ts[startIndex]?, ts[endIndex]? with
  | some startTime, some endTime =>
    let r := ((MacaqueV.new eb).compressValues log2 (sliceIncl vs startIndex endIndex)).model
    some ⟨.macaqueV, startTime, endTime, compressResidualTimestamps (sliceIncl ts startIndex endIndex),
      r.2.1, r.2.2, r.1, []⟩
  | _, _ => none

/-- `RESIDUAL_VALUES_MAX_LENGTH` (compression.rs:38). -/
def residualValuesMaxLength : Nat := 255

/-- `store_compressed_segments_with_model_and_or_residuals` (compression.rs:310-362): the segments that
are appended. -/
def storeModelAndOrResiduals (log2 : Log2) (eb : ErrorBound) (model : Option FittedModel)
    (residualsEndIndex : Nat) (ts : List Int) (vs : List Nat) : Option (List Segment) :=
  match model with
  | some m =>
    if residualsEndIndex - m.endIndex ≤ residualValuesMaxLength then
      match m.finish log2 eb residualsEndIndex ts vs with
      | some s => some [s]
      | none => none
    else
      match m.finish log2 eb m.endIndex ts vs,
        compressResidualsInSeparateSegment log2 eb (m.endIndex + 1) residualsEndIndex ts vs with
      | some s, some r => some [s, r]
      | _, _ => none
  | none =>
    match compressResidualsInSeparateSegment log2 eb 0 residualsEndIndex ts vs with
    | some r => some [r]
    | none => none

/-- The loop of `try_compress_univariate_time_series` (compression.rs:229-262) and the final flush
(264-271). `fit` is `fit_next_model`. Each iteration advances the start index, so
`ts.length + 1` iterations are enough (`fuel`; running out of it is reported as `none`, which is
proved not to happen). -/
def compressLoop (log2 : Log2) (fit : Nat → FittedModel) (eb : ErrorBound) (ts : List Int) (vs : List Nat) :
    (fuel : Nat) → (currentStartIndex : Nat) → (previous : Option FittedModel) → Option (List Segment)
  | 0, _, _ => none
  | fuel + 1, current, previous =>
    if current < ts.length then
      let model := fit current
      if model.bytesPerValue.le (.fin false 4) then
        if current > 0 then
          match storeModelAndOrResiduals log2 eb previous (current - 1) ts vs,
            compressLoop log2 fit eb ts vs fuel (model.endIndex + 1) (some model) with
          | some segments, some rest => some (segments ++ rest)
          | _, _ => none
        else compressLoop log2 fit eb ts vs fuel (model.endIndex + 1) (some model)
      else compressLoop log2 fit eb ts vs fuel (current + 1) previous
    else storeModelAndOrResiduals log2 eb previous (ts.length - 1) ts vs

/-- Outcome of `try_compress_univariate_time_series`. -/
inductive CompressionResult where
  | panic
  | error
  | segments (s : List Segment)
deriving DecidableEq

/-- `try_compress_univariate_time_series` (compression.rs:191-275) with the selection of models as a
parameter. -/
def tryCompressWith (log2 : Log2) (fit : Nat → FittedModel) (eb : ErrorBound) (ts : List Int) (vs : List Nat) :
    CompressionResult :=
  if ts.length ≠ vs.length then .error
  else if ts.isEmpty then .segments []
  else
    match compressLoop log2 fit eb ts vs (ts.length + 1) 0 none with
    | some s => .segments s
    | none => .panic

/-- `try_compress_univariate_time_series` (compression.rs:191-275). -/
def tryCompressUnivariate (log2 : Log2) (eb : ErrorBound) (ts : List Int) (vs : List Nat) : CompressionResult :=
  tryCompressWith log2 (fun i => fitNextModel i eb ts vs) eb ts vs

/-- `residuals_length` (models/mod.rs:277-284). -/
def residualsLength (residuals : List Nat) : Nat := residuals.getLast?.getD 0

/-- The values of the model at the timestamps that it represents (models/mod.rs:212-238). -/
def Segment.modelValues (s : Segment) (modelTs : List Int) : Option (List Nat) :=
  match s.modelType with
  | .pmcMean =>
    match decodeValuesForPmcMean s.minValue s.maxValue s.values with
    | none => none
    | some value => some (pmcMeanGrid value modelTs.length)
  | .swing =>
    match decodeValuesForSwing s.minValue s.maxValue s.values, modelTs.getLast? with
    | some (first, last), some modelEndTime =>
      some ((swingGrid f64Ops s.startTime modelEndTime (FVal.ofBits32 first) (FVal.ofBits32 last)
        modelTs).map FVal.toBits32)
    | _, _ => none
  | .macaqueV => macaqueVGrid s.values modelTs.length none

/-- `grid` (models/mod.rs:190-251): the appended timestamps and values, `none` for a panic. -/
def grid (s : Segment) : Option (List Int × List Nat) :=
  match decompressAllTimestamps s.startTime s.endTime s.timestamps with
  | none => none
  | some ts =>
    if ts.length < residualsLength s.residuals then none
    else
      let modelTs := ts.take (ts.length - residualsLength s.residuals)
      let residualTs := ts.drop (ts.length - residualsLength s.residuals)
      match s.modelValues modelTs with
      | none => none
      | some values =>
        if s.residuals.isEmpty then some (ts, values)
        else
          match values.getLast? with
          | none => none
          | some modelLastValue =>
            match macaqueVGrid s.residuals.dropLast residualTs.length (some modelLastValue) with
            | none => none
            | some residualValues => some (ts, values ++ residualValues)

/-- `sum` (models/mod.rs:129-184), `none` for a panic. A segment with more residuals than points makes
the length wrap in release builds; no stored segment has that, it is modelled as a panic. -/
def segmentSum (s : Segment) : Option FVal :=
  match segmentLen s.startTime s.endTime s.timestamps with
  | none => none
  | some length =>
    if length < residualsLength s.residuals then none
    else
      let modelLength := length - residualsLength s.residuals
      let modelPart : Option (Nat × FVal) :=
        match s.modelType with
        | .pmcMean =>
          match decodeValuesForPmcMean s.minValue s.maxValue s.values with
          | none => none
          | some value => some (value, pmcMeanSum modelLength (FVal.ofBits32 value))
        | .swing =>
          match decodeValuesForSwing s.minValue s.maxValue s.values with
          | none => none
          | some (first, last) =>
            match swingSum f64Ops s.startTime s.endTime s.timestamps (FVal.ofBits32 first) (FVal.ofBits32 last)
              (residualsLength s.residuals) with
            | none => none
            | some sum => some (last, sum)
        | .macaqueV =>
          match macaqueVSum modelLength s.values none with
          | none => none
          | some sum => some (nanBits32, sum)
      match modelPart with
      | none => none
      | some (modelLastValue, modelSum) =>
        if s.residuals.isEmpty then some modelSum
        else
          match macaqueVSum (residualsLength s.residuals) s.residuals.dropLast (some modelLastValue) with
          | none => none
          | some residualsSum => some (FVal.add f32Fmt modelSum residualsSum)

/-- Reading all segments of a batch in order (`GridExec` calls `grid` for each segment, see C35). -/
def gridAll (segments : List Segment) : Option (List Int × List Nat) :=
  segments.foldr (fun s acc =>
    match grid s, acc with
    | some (ts, vs), some (ts', vs') => some (ts ++ ts', vs ++ vs')
    | _, _ => none) (some ([], []))

end ModelarDB.Model
