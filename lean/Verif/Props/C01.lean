import Verif.Lemmas.TimestampsRoundtrip
/-
C01: timestamps are compressed losslessly. C03: a segment knows how many points it stores.
C02: repeated timestamps.
-/
namespace ModelarDB.Props
open Model Spec Lemmas

/-- **C01.** Compressing strictly increasing timestamps and decompressing them from the start time,
the end time and the stored bytes returns exactly the same list. Lists of `2 ^ 63` timestamps or
more do not fit in memory. -/
theorem C01_timestamps_roundtrip (ts : List Int) (hne : ts ≠ []) (hrange : ∀ t ∈ ts, IsI64 t)
    (hinc : StrictlyIncreasing ts) (hlen : ts.length < 2 ^ 63) :
    decompressAllTimestamps (ts.head hne) (ts.getLast hne) (compressResidualTimestamps ts) = some ts :=
  (roundtrip_and_length ts hne hrange (strict_nonDecreasing hinc) hlen (strict_ends ts hne hinc)).1

/-- **C03.** The number of points computed from the stored bytes is the number of timestamps. -/
theorem C03_segment_length (ts : List Int) (hne : ts ≠ []) (hrange : ∀ t ∈ ts, IsI64 t)
    (hinc : StrictlyIncreasing ts) (hlen : ts.length < 2 ^ 63) :
    segmentLen (ts.head hne) (ts.getLast hne) (compressResidualTimestamps ts) = some ts.length :=
  (roundtrip_and_length ts hne hrange (strict_nonDecreasing hinc) hlen (strict_ends ts hne hinc)).2

/-- An irregular list that uses several widths of delta of deltas. -/
example : decompressAllTimestamps (-5) 9000000000000
    (compressResidualTimestamps [-5, 0, 5, 100, 400, 5000, 4000000000, 9000000000000]) =
    some [-5, 0, 5, 100, 400, 5000, 4000000000, 9000000000000] :=
  C01_timestamps_roundtrip [-5, 0, 5, 100, 400, 5000, 4000000000, 9000000000000] (by decide)
    (by decide) (by decide) (by decide)

/-- A regular list spanning (almost) the whole range of `i64`. -/
example : segmentLen (-9223372036854775807) 9223372036854775807
    (compressResidualTimestamps [-9223372036854775807, 0, 9223372036854775807]) = some 3 :=
  C03_segment_length [-9223372036854775807, 0, 9223372036854775807] (by decide)
    (by decide) (by decide) (by decide)

/-! ### C02

"A series in which two or more points carry the same timestamp can be stored and read back" is
false: it fails exactly when all timestamps of the segment are equal. -/

/-- **C02, negation.** Two equal timestamps: only one comes back. -/
theorem C02_two_equal_lost (t : Int) :
    decompressAllTimestamps t t (compressResidualTimestamps [t, t]) = some [t] := by
  simp [compressResidualTimestamps, decompressAllTimestamps]

/-- **C02, negation.** Three or more equal timestamps: decompression panics. -/
theorem C02_equal_panics (n : Nat) (h3 : 3 ≤ n) (hn : n < 2 ^ 63) (t : Int) :
    decompressAllTimestamps t t (compressResidualTimestamps (List.replicate n t)) = none := by
  unfold compressResidualTimestamps
  have hl : ¬ (List.replicate n t).length ≤ 2 := by simp; omega
  rw [if_neg hl, regular_replicate, if_pos rfl]
  obtain ⟨r1, r2, r3, r4⟩ := regular_length_roundtrip (List.replicate n t)
    (by simp; omega) (by simpa using hn)
  have hemp : (compressRegularResidualTimestamps (List.replicate n t)).isEmpty = false := by
    cases hx : compressRegularResidualTimestamps (List.replicate n t) with
    | nil => exact absurd hx r1
    | cons => rfl
  unfold decompressAllTimestamps
  rw [hemp, r3]
  simp only [Bool.false_and, Bool.false_eq_true, if_false, if_true]
  unfold decompressAllRegularTimestamps
  rw [if_neg (by omega)]
  dsimp only
  have hz : asU64 (t - t) = 0 := by rw [Int.sub_self]; rfl
  rw [hz, Nat.zero_div]
  simp

/-- **C02, partial.** Every non-decreasing series whose timestamps are not all equal survives,
however many repetitions it contains. Missing: series of two or more equal timestamps, for which
the statement is false (above). -/
theorem C02_repeated_timestamps_partial (ts : List Int) (hne : ts ≠ []) (hrange : ∀ t ∈ ts, IsI64 t)
    (hinc : NonDecreasing ts) (hlen : ts.length < 2 ^ 63)
    (hdist : ts.length = 1 ∨ ts.head hne ≠ ts.getLast hne) :
    decompressAllTimestamps (ts.head hne) (ts.getLast hne) (compressResidualTimestamps ts) = some ts ∧
    segmentLen (ts.head hne) (ts.getLast hne) (compressResidualTimestamps ts) = some ts.length :=
  roundtrip_and_length ts hne hrange hinc hlen hdist

example : decompressAllTimestamps 7 9 (compressResidualTimestamps [7, 7, 7, 9, 9]) =
    some [7, 7, 7, 9, 9] :=
  (C02_repeated_timestamps_partial [7, 7, 7, 9, 9] (by decide) (by decide) (by decide) (by decide)
    (by decide)).1

end ModelarDB.Props
