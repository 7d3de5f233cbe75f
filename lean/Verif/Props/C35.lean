import Verif.Lemmas.QueryStream
/-
C35: reconstruction returns every point whatever the batching.
-/
namespace ModelarDB.Props
open Model.Query Spec Lemmas

/-- **C35**: reading a field returns the data points of its segments that satisfy the filter, in order and once each. It does not matter how
the segments are put into batches, when the batches are ready, how large the returned batches are, and which limit the query has. -/
theorem C35_every_point {σ : Type} (points : σ → List Point) (predicate : Option (Point → Bool)) (limit : Option Nat) (batchSize : Nat)
    (hlimit : ∀ l ∈ limit, 1 ≤ l) (hbatch : 1 ≤ batchSize) (events : List (Event (List σ))) (hok : NeverFails events) :
    ∃ batches, ReadsAs (fun s => some (pollGrid points predicate (gridBatchSize limit batchSize) pollEvents s)) (.new events) batches ∧
      batches.flatten = kept predicate ((itemsOf events).flatten.flatMap points) := by
  have hn : 0 < gridBatchSize limit batchSize := by
    unfold gridBatchSize
    cases limit with
    | none => exact hbatch
    | some l => have := hlimit l rfl; simp only; omega
  obtain ⟨k, items, hy, hf, _⟩ := grid_yields points predicate _ hn events hok (.new events) rfl (by cases predicate <;> rfl)
  exact ⟨items, hy.readsAs, hf⟩

/-- **C35** for the batches themselves: with full batches of segments the returned batches are full except for the last. -/
theorem C35_full_batches {σ : Type} (points : σ → List Point) (predicate : Option (Point → Bool)) (batchSize : Nat)
    (hbatch : 1 ≤ batchSize) (events : List (Event (List σ))) (hok : NeverFails events)
    (hfull : FullBatches points predicate batchSize (itemsOf events)) :
    ∃ batches, ReadsAs (fun s => some (pollGrid points predicate batchSize pollEvents s)) (.new events) batches ∧
      ∀ b ∈ (batches.filter (· ≠ [])).dropLast, b.length = batchSize := by
  obtain ⟨k, items, hy, hf, hc⟩ := grid_yields points predicate _ hbatch events hok (.new events) rfl (by cases predicate <;> rfl)
  refine ⟨items, hy.readsAs, ?_⟩
  obtain ⟨e, rfl⟩ := hc hfull
  clear hy hf hc
  generalize (GridStream.new events).current.drop (GridStream.new events).offset ++
    kept predicate ((itemsOf events).flatten.flatMap points) = l
  have hrep : (List.replicate e ([] : List Point)).filter (· ≠ []) = [] := by simp
  rw [List.filter_append, hrep, List.append_nil]
  induction h : l.length using Nat.strongRecOn generalizing l with
  | ind len ih =>
    by_cases hl : l = []
    · subst hl; simp [chunks_nil]
    · rw [chunks_eq hbatch hl]
      have hpos : 0 < l.length := List.length_pos_iff.mpr hl
      have htake : l.take batchSize ≠ [] := by
        rw [ne_eq, List.take_eq_nil_iff]
        simp [hl]; omega
      rw [List.filter_cons_of_pos (by simpa using htake)]
      by_cases hrest : l.drop batchSize = []
      · rw [hrest, chunks_nil]; simp
      · rw [List.dropLast_cons_of_ne_nil]
        · intro b hb
          rcases List.mem_cons.mp hb with rfl | hb
          · have := List.length_pos_iff.mpr hrest
            rw [List.length_drop] at this
            rw [List.length_take]
            omega
          · exact ih _ (by rw [← h, List.length_drop]; omega) _ rfl b hb
        · rw [chunks_eq hbatch hrest, List.filter_cons_of_pos]
          · simp
          · rw [decide_eq_true_eq, ne_eq, List.take_eq_nil_iff]
            simp [hrest]; omega

/-- Three segments in two batches, the second of which has to be waited for. -/
def threeSegments : List (Event (List (List Point))) :=
  [.item [[⟨1, 10, []⟩, ⟨2, 20, []⟩, ⟨3, 30, []⟩], [⟨4, 40, []⟩]], .pending, .item [[⟨5, 50, []⟩, ⟨6, 60, []⟩]]]

example : NeverFails threeSegments := by unfold NeverFails; decide

example : drain (fun s => some (pollGrid id (some fun p => decide (p.time ≠ 2)) (gridBatchSize (some 2) 8192) pollEvents s)) 9
    (.new threeSegments) = ([[⟨1, 10, []⟩, ⟨3, 30, []⟩], [⟨4, 40, []⟩, ⟨5, 50, []⟩], [⟨6, 60, []⟩]], .finished) := by decide +kernel

example : FullBatches id (some fun p => decide (p.time ≠ 2)) 2 (itemsOf threeSegments) := by unfold FullBatches; decide +kernel

end ModelarDB.Props
