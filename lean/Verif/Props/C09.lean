import Verif.Lemmas.FitNext
import Verif.Props.C05
/-
C09: every ingested point is in exactly one segment.
-/
namespace ModelarDB.Props
open Model Spec Lemmas

/-- The segment stores the points with the timestamps in `part`, of which there is at least one:
the timestamps stored with the segment decompress to it, and fewer than all and at most 255 of the
points are residuals. -/
def StoresPart (s : Segment) (part : List Int) : Prop :=
  part ≠ [] ∧ s.startTime = part.headD 0 ∧ s.endTime = part.getLastD 0 ∧
    decompressAllTimestamps s.startTime s.endTime s.timestamps = some part ∧
    residualsLength s.residuals < part.length ∧ residualsLength s.residuals ≤ 255

/-- **C09.** However the models are chosen (`fit`, as long as a model that starts at a point
represents at least this point and no point after the end of the series), the segments are
consecutive, non-empty pieces of the series. -/
theorem C09_segments_partition_series (log2 : Log2) (fit : Nat → FittedModel) (eb : ErrorBound)
    (ts : List Int) (vs : List Nat) (hlen : ts.length = vs.length) (hne : ts ≠ [])
    (hfit : ∀ i < ts.length, (fit i).startIndex = i ∧ i ≤ (fit i).endIndex ∧ (fit i).endIndex < ts.length ∧
      (fit i).modelType ≠ .macaqueV)
    (hrange : ∀ t ∈ ts, IsI64 t) (hinc : StrictlyIncreasing ts) (hsize : ts.length < 2 ^ 63) :
    ∃ segments parts, tryCompressWith log2 fit eb ts vs = .segments segments ∧
      parts.flatten = ts ∧ List.Forall₂ StoresPart segments parts := by
  obtain ⟨segments, h1, h2⟩ := tryCompressWith_chain (log2 := log2) (eb := eb) hfit hne hlen
  have key : ∀ s a b, IsPiece log2 fit eb ts vs s a b → a ≤ b ∧ StoresPart s (sliceIncl ts a b) := by
    intro s a b hp
    have ht := piece_times hfit hp
    have hr := piece_residuals hfit hp
    have hs := (slice_timestamps hrange hinc hsize ht.le ht.lt).1
    have hnil := sliceIncl_ne_nil ts ht.le ht.lt
    refine ⟨ht.le, hnil, ?_, ?_, ?_, ?_, hr.1⟩
    · rw [ht.start, ← sliceIncl_head ts ht.le ht.lt]
      rw [List.headD_eq_head?_getD, List.head?_eq_some_head hnil]
      rfl
    · rw [ht.stop, ← sliceIncl_getLast ts ht.le ht.lt, List.getLastD_eq_getLast?, List.getLast?_eq_some_getLast hnil]
      rfl
    · rw [ht.start, ht.stop, ht.bytes]; exact hs
    · rw [sliceIncl_length ts ht.lt]; exact hr.2
  obtain ⟨parts, h3, h4⟩ := chain_parts _ key h2 rfl
  exact ⟨segments, parts, h1, by simpa using h3, h4⟩

/-- **C09** for the models that are fitted by the code, without hypotheses on them. -/
theorem C09_compression_partitions_series (log2 : Log2) (eb : ErrorBound) (ts : List Int) (vs : List Nat)
    (hlen : ts.length = vs.length) (hne : ts ≠ []) (hrange : ∀ t ∈ ts, IsI64 t)
    (hinc : StrictlyIncreasing ts) (hsize : ts.length < 2 ^ 63) :
    ∃ segments parts, tryCompressUnivariate log2 eb ts vs = .segments segments ∧
      parts.flatten = ts ∧ List.Forall₂ StoresPart segments parts :=
  C09_segments_partition_series log2 _ eb ts vs hlen hne (goodFit_fitNextModel eb ts vs hlen) hrange hinc hsize

/-- **C09**, points are only compressed if each timestamp has a value and each value has a timestamp: a series for which the numbers differ is an error and no segment is made. -/
theorem C09_compressed_have_values (log2 : Log2) (eb : ErrorBound) (ts : List Int) (vs : List Nat) :
    (∀ segments, tryCompressUnivariate log2 eb ts vs = .segments segments → ts.length = vs.length ∧ (ts = [] ↔ segments = [])) ∧
      (ts.length ≠ vs.length → tryCompressUnivariate log2 eb ts vs = .error) := by
  have herr : ts.length ≠ vs.length → tryCompressUnivariate log2 eb ts vs = .error := fun h => by
    simp only [tryCompressUnivariate, tryCompressWith, if_pos h]
  refine ⟨fun segments h => ?_, herr⟩
  by_cases hlen : ts.length = vs.length
  · refine ⟨hlen, ?_⟩
    by_cases hne : ts = []
    · subst hne
      simp only [tryCompressUnivariate, tryCompressWith, if_neg (not_not.mpr hlen), List.isEmpty_nil, if_true] at h
      cases h
      exact ⟨fun _ => rfl, fun _ => rfl⟩
    · obtain ⟨segments', h1, h2⟩ := tryCompressWith_chain (log2 := log2) (eb := eb) (goodFit_fitNextModel eb ts vs hlen) hne hlen
      have he : segments' = segments := by
        have := h1.symm.trans h
        exact CompressionResult.segments.inj this
      subst he
      refine ⟨fun h => absurd h hne, fun h => ?_⟩
      subst h
      have hpos := List.length_pos_of_ne_nil hne
      generalize ts.length = n at h2 hpos
      cases h2
      omega
  · rw [herr hlen] at h; cases h

example : tryCompressUnivariate exactLog2 .lossless [0, 1, 2] [0x40000000, 0] = .error ∧
    tryCompressUnivariate exactLog2 .lossless [0, 1] [0x40000000, 0, 0] = .error := by decide +kernel

/-- A run of eight equal values between other values: two segments of one and nine points. -/
example : (match tryCompressUnivariate exactLog2 .lossless [0, 1, 2, 3, 4, 5, 6, 7, 8, 10]
      [0x40000000, 0, 0, 0, 0, 0, 0, 0, 0, 0x3f800000] with
    | .segments l => l.map fun s => (s.modelType, s.startTime, s.endTime, residualsLength s.residuals)
    | _ => []) = [(.macaqueV, 0, 0, 0), (.pmcMean, 1, 10, 1)] := by
  decide +kernel

end ModelarDB.Props
