import Verif.Lemmas.Multivariate
import Verif.Props.C09
/-
C14: series with different tags are never mixed during bulk compression.
-/
namespace ModelarDB.Props
open Model Spec Lemmas

/-- **C14**: a batch is compressed without a panic into one batch of segments per combination of tag
values that occurs and field column, and each is the compression of exactly the rows with these tag
values, ordered by time. -/
theorem C14_series_never_mixed (log2 : Log2) (sort : SortRows) (hsort : SortsRows sort) (tagColumns : Nat)
    (fieldColumns : List (Nat × ErrorBound)) (hcols : (fieldColumns.map (·.1)).Nodup) (rows : List Row) (hne : rows ≠ [])
    (hn : ∀ r ∈ rows, r.tags.length = tagColumns) :
    ∃ batches, compressMultivariate log2 sort tagColumns fieldColumns rows = some batches ∧
      (batches.map fun b => (b.tags, b.fieldColumn)).Nodup ∧
      (∀ tags column, (tags, column) ∈ batches.map (fun b => (b.tags, b.fieldColumn)) ↔
        (∃ r ∈ rows, r.tags = tags) ∧ column ∈ fieldColumns.map (·.1)) ∧
      ∀ b ∈ batches, ∃ part eb, IsSeries rows b.tags part ∧ (b.fieldColumn, eb) ∈ fieldColumns ∧
        tryCompressUnivariate log2 eb (part.map (·.time)) (part.map (·.field b.fieldColumn)) = .segments b.segments := by
  obtain ⟨gs, outs, h1, h2, h3, h4, h5⟩ := compressMultivariate_groups log2 hsort tagColumns fieldColumns hne hn
  obtain ⟨hperm, hord⟩ := hsort rows
  -- the batches of a group
  have hkeys : ∀ {g : List Tag × List Row} {bs}, GroupBatches log2 fieldColumns g bs →
      bs.map (fun b => (b.tags, b.fieldColumn)) = (fieldColumns.map (·.1)).map fun c => (g.1, c) := by
    intro g bs h
    unfold GroupBatches at h
    rw [List.map_map]
    clear hcols h1 h2
    induction h with
    | nil => rfl
    | cons h _ ih =>
      rw [List.map_cons, List.map_cons, ih, h.1, h.2.1]
      rfl
  have hall : outs.flatten.map (fun b => (b.tags, b.fieldColumn)) =
      (gs.map (·.1)).flatMap fun t => (fieldColumns.map (·.1)).map fun c => (t, c) := by
    clear h1 h3 h4 h5
    induction h2 with
    | nil => rfl
    | cons h _ ih => rw [List.flatten_cons, List.map_append, ih, hkeys h, List.map_cons, List.flatMap_cons]
  refine ⟨outs.flatten, h1, ?_, ?_, ?_⟩
  · rw [hall, List.nodup_flatMap]
    refine ⟨fun t _ => hcols.map (fun a b h => (Prod.mk.inj h).2), ?_⟩
    refine h4.imp fun {a b} hab => ?_
    simp only [Function.onFun]
    intro x hx hy
    obtain ⟨_, _, rfl⟩ := List.mem_map.mp hx
    obtain ⟨_, _, h⟩ := List.mem_map.mp hy
    exact hab.ne (Prod.mk.inj h).1.symm
  · intro tags column
    rw [hall]
    have htags : tags ∈ gs.map (·.1) ↔ ∃ r ∈ rows, r.tags = tags := by
      constructor
      · intro h
        obtain ⟨g, hg, rfl⟩ := List.mem_map.mp h
        obtain ⟨r, hr⟩ := List.exists_mem_of_ne_nil g.2 (h5 g hg).1
        exact ⟨r, hperm.mem_iff.mp (by rw [h3]; exact List.mem_flatMap.mpr ⟨g, hg, hr⟩), (h5 g hg).2 r hr⟩
      · rintro ⟨r, hr, rfl⟩
        have := hperm.mem_iff.mpr hr
        rw [h3] at this
        obtain ⟨g, hg, hrg⟩ := List.mem_flatMap.mp this
        rw [(h5 g hg).2 r hrg]
        exact List.mem_map.mpr ⟨g, hg, rfl⟩
    rw [← htags]
    simp only [List.mem_flatMap, List.mem_map, Prod.mk.injEq]
    constructor
    · rintro ⟨_, ⟨g, hg, rfl⟩, _, ⟨c, hc, rfl⟩, rfl, rfl⟩
      exact ⟨⟨g, hg, rfl⟩, c, hc, rfl⟩
    · rintro ⟨⟨g, hg, rfl⟩, c, hc, rfl⟩
      exact ⟨g.1, ⟨g, hg, rfl⟩, c.1, ⟨c, hc, rfl⟩, rfl, rfl⟩
  · intro b hb0
    obtain ⟨bs, hbs, hb⟩ := List.mem_flatten.mp hb0
    clear hb0
    obtain ⟨g, hg, hgb⟩ : ∃ g ∈ gs, GroupBatches log2 fieldColumns g bs := by
      clear h1 h3 h4 h5 hall
      induction h2 with
      | nil => cases hbs
      | cons h _ ih =>
        rcases List.mem_cons.mp hbs with rfl | hbs
        · exact ⟨_, by simp, h⟩
        · obtain ⟨g, hg, h⟩ := ih hbs
          exact ⟨g, by simp [hg], h⟩
    obtain ⟨c, hc, k1, k2, k3⟩ : ∃ c ∈ fieldColumns, b.tags = g.1 ∧ b.fieldColumn = c.1 ∧
        tryCompressUnivariate log2 c.2 (g.2.map (·.time)) (g.2.map (·.field c.1)) = .segments b.segments := by
      unfold GroupBatches at hgb
      clear hcols h1 h2 hkeys hall hbs
      induction hgb with
      | nil => cases hb
      | cons h _ ih =>
        rcases List.mem_cons.mp hb with rfl | hb
        · exact ⟨_, by simp, h⟩
        · obtain ⟨c, hc, h⟩ := ih hb
          exact ⟨c, by simp [hc], h⟩
    have hfilter := filter_groups h4 (fun g hg => (h5 g hg).2) hg
    rw [← h3] at hfilter
    refine ⟨g.2, c.2, ⟨?_, ?_⟩, by rw [k2]; exact hc, by rw [k2]; exact k3⟩
    · rw [k1]
      conv_lhs => rw [← hfilter]
      exact hperm.filter _
    · rw [← hfilter]
      refine List.Pairwise.imp_of_mem ?_ (hord.filter _)
      intro x y hx hy hxy
      have ex : x.tags = g.1 := by simpa using (List.mem_filter.mp hx).2
      have ey : y.tags = g.1 := by simpa using (List.mem_filter.mp hy).2
      unfold rowLe at hxy
      rw [ex, ey] at hxy
      simpa using hxy

/-- **C14**, what is read: if no two rows with the same tag values have the same timestamp, the segments
of each series hold exactly the timestamps of its rows, in order. -/
theorem C14_timestamps_of_series (log2 : Log2) (sort : SortRows) (hsort : SortsRows sort) (tagColumns : Nat)
    (fieldColumns : List (Nat × ErrorBound)) (hcols : (fieldColumns.map (·.1)).Nodup) (rows : List Row) (hne : rows ≠ [])
    (hn : ∀ r ∈ rows, r.tags.length = tagColumns) (hrange : ∀ r ∈ rows, IsI64 r.time) (hsize : rows.length < 2 ^ 63)
    (hdistinct : ∀ tags, ((rows.filter fun r => r.tags = tags).map (·.time)).Nodup) :
    ∃ batches, compressMultivariate log2 sort tagColumns fieldColumns rows = some batches ∧
      ∀ b ∈ batches, ∃ parts, List.Forall₂ StoresPart b.segments parts ∧ StrictlyIncreasing parts.flatten ∧
        parts.flatten.Perm ((rows.filter fun r => r.tags = b.tags).map (·.time)) := by
  obtain ⟨batches, h1, _, h3, h4⟩ := C14_series_never_mixed log2 sort hsort tagColumns fieldColumns hcols rows hne hn
  refine ⟨batches, h1, fun b hb => ?_⟩
  obtain ⟨part, eb, ⟨hp, hs⟩, _, hc⟩ := h4 b hb
  have hpt := hp.map (·.time)
  have hinc : StrictlyIncreasing (part.map (·.time)) := by
    have hnd : (part.map (·.time)).Nodup := hpt.nodup_iff.mpr (hdistinct b.tags)
    unfold StrictlyIncreasing
    have hle : (part.map (·.time)).Pairwise (· ≤ ·) := List.pairwise_map.mpr hs
    exact (hle.and hnd).imp fun h => lt_of_le_of_ne h.1 h.2
  have hpne : part.map (·.time) ≠ [] := by
    obtain ⟨⟨r, hr, hrt⟩, _⟩ := (h3 b.tags b.fieldColumn).mp (List.mem_map.mpr ⟨b, hb, rfl⟩)
    have : r ∈ part := hp.mem_iff.mpr (List.mem_filter.mpr ⟨hr, by simpa using hrt⟩)
    exact List.ne_nil_of_mem (List.mem_map.mpr ⟨r, this, rfl⟩)
  obtain ⟨segments, parts, k1, k2, k3⟩ := C09_compression_partitions_series log2 eb (part.map (·.time))
    (part.map (·.field b.fieldColumn)) (by simp) hpne (by
      intro t ht
      obtain ⟨r, hr, rfl⟩ := List.mem_map.mp ht
      exact hrange r (List.mem_filter.mp (hp.mem_iff.mp hr)).1) hinc (by
      rw [List.length_map, hp.length_eq]
      exact Nat.lt_of_le_of_lt (List.length_filter_le _ _) hsize)
  rw [hc] at k1
  injection k1 with k1
  exact ⟨parts, k1 ▸ k3, k2 ▸ hinc, k2 ▸ hpt⟩

/-- Sorting by insertion. -/
def insertRow (r : Row) : List Row → List Row
  | [] => [r]
  | x :: xs => if rowLe r x then r :: x :: xs else x :: insertRow r xs

/-- A sort that satisfies the specification. -/
def insertionSort : SortRows := List.foldr insertRow []

theorem rowLe_total (a b : Row) (h : rowLe a b = false) : rowLe b a = true := by
  unfold rowLe at *
  simp only [Bool.or_eq_false_iff, decide_eq_false_iff_not, not_lt, Bool.and_eq_false_iff, Bool.or_eq_true,
    decide_eq_true_eq, Bool.and_eq_true] at *
  rcases h.1.lt_or_eq with h1 | h1
  · exact Or.inl h1
  · right
    refine ⟨h1, ?_⟩
    rcases h.2 with h2 | h2
    · exact absurd h1.symm h2
    · omega

theorem rowLe_trans {a b c : Row} (h1 : rowLe a b = true) (h2 : rowLe b c = true) : rowLe a c = true := by
  unfold rowLe at *
  simp only [Bool.or_eq_true, decide_eq_true_eq, Bool.and_eq_true] at *
  rcases h1 with h1 | ⟨h1, h1'⟩ <;> rcases h2 with h2 | ⟨h2, h2'⟩
  · exact Or.inl (lt_trans h1 h2)
  · exact Or.inl (h2 ▸ h1)
  · exact Or.inl (h1 ▸ h2)
  · exact Or.inr ⟨h1.trans h2, le_trans h1' h2'⟩

theorem insertRow_perm (r : Row) (l : List Row) : (insertRow r l).Perm (r :: l) := by
  induction l with
  | nil => exact .refl _
  | cons x xs ih =>
    unfold insertRow
    split
    · exact .refl _
    · exact (ih.cons x).trans (.swap r x xs)

theorem insertionSort_sorts : SortsRows insertionSort := by
  intro rows
  induction rows with
  | nil => exact ⟨.refl _, .nil⟩
  | cons r rows ih =>
    have hfold : insertionSort (r :: rows) = insertRow r (insertionSort rows) := rfl
    rw [hfold]
    refine ⟨(insertRow_perm r _).trans (ih.1.cons r), ?_⟩
    generalize insertionSort rows = l at ih
    have hl := ih.2
    clear ih
    induction l with
    | nil => exact List.pairwise_singleton _ _
    | cons x xs ihx =>
      unfold insertRow
      rw [List.pairwise_cons] at hl
      split
      · rename_i h
        refine List.Pairwise.cons (fun y hy => ?_) (List.pairwise_cons.mpr hl)
        rcases List.mem_cons.mp hy with rfl | hy
        · exact h
        · exact rowLe_trans h (hl.1 y hy)
      · rename_i h
        refine List.Pairwise.cons (fun y hy => ?_) (ihx hl.2)
        rcases List.mem_cons.mp ((insertRow_perm r xs).mem_iff.mp hy) with rfl | hy
        · exact rowLe_total _ _ (by simpa using h)
        · exact hl.1 y hy

/-- Five rows of three series with two tag columns, whose concatenations `"a" "bc"` and `"ab" "c"` are
equal, in mixed order. -/
def mixedRows : List Row :=
  [⟨[[97, 98], [99]], 3, fun _ => 0x3f800000⟩, ⟨[[97], [98, 99]], 1, fun _ => 0x40000000⟩,
   ⟨[[97, 98], [99]], 1, fun _ => 0x40400000⟩, ⟨[[97], [98, 99]], 0, fun _ => 0x40800000⟩, ⟨[[], []], 7, fun _ => 0⟩]

example : (compressMultivariate exactLog2 insertionSort 2 [(1, .lossless)] mixedRows).map
      (List.map fun b => (b.tags, b.fieldColumn, b.segments.map fun s => (s.startTime, s.endTime))) =
    some [([[], []], 1, [(7, 7)]), ([[97], [98, 99]], 1, [(0, 1)]), ([[97, 98], [99]], 1, [(1, 3)])] := by
  decide +kernel

example : (∀ r ∈ mixedRows, r.tags.length = 2) ∧
    ∀ tags ∈ mixedRows.map (·.tags), ((mixedRows.filter fun r => r.tags = tags).map (·.time)).Nodup := by
  decide

end ModelarDB.Props
