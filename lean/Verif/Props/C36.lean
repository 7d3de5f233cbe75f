import Verif.Lemmas.QueryStream
/-
C36: fields of one row belong to the same timestamp.
-/
namespace ModelarDB.Props
open Model.Query Spec Lemmas

/-- The inputs of a query for `fields` before it is executed. `events` gives the batches of segments of each field. -/
def inputsOf {σ : Type} (fields : List Nat) (events : Nat → List (Event (List σ))) :
    List (Option (List Point) × GridStream (List (Event (List σ)))) :=
  fields.map fun i => (none, .new (events i))

/-- The fields are put together in order if the data points of all of them are the rows of the table in the same order. -/
theorem join_aligned {σ : Type} (points : σ → List Point) (filter : Option (Int → List String → Bool)) (batchSize : Nat)
    (hbatch : 1 ≤ batchSize) (tagNames : List String) (order : List JoinColumn) (fields : List Nat)
    (ha : Answerable tagNames order fields) (rows : List TableRow) (htags : ∀ row ∈ rows, row.tags.length = tagNames.length)
    (events : Nat → List (Event (List σ))) (hok : ∀ i ∈ fields, NeverFails (events i))
    (hfull : ∀ i ∈ fields, FullBatches points (onPoints filter) batchSize (itemsOf (events i)))
    (hpoints : ∀ i ∈ fields, kept (onPoints filter) ((itemsOf (events i)).flatten.flatMap points) =
      (keptRows filter rows).map (TableRow.point i)) :
    ∃ out, ReadsAs (pollJoin tagNames order (pollGrid points (onPoints filter) batchSize pollEvents)) (inputsOf fields events) out ∧
      (out.flatMap rowsOfColumns).map some = (keptRows filter rows).map fun row => cellsOf tagNames row order fields := by
  have hgrid : ∀ i ∈ fields, ∃ k e, Yields (pollGrid points (onPoints filter) batchSize pollEvents) k (.new (events i))
      (itemsFor (chunks batchSize (keptRows filter rows)) i e) := by
    intro i hi
    obtain ⟨k, items, hy, _, hc⟩ := grid_yields points (onPoints filter) _ hbatch (events i) (hok i hi) (.new (events i)) rfl
      (by cases onPoints filter <;> rfl)
    obtain ⟨e, he⟩ := hc (hfull i hi)
    refine ⟨k, e, ?_⟩
    rw [show (GridStream.new (events i)).current.drop (GridStream.new (events i)).offset = [] from rfl, List.nil_append, hpoints i hi,
      chunks_map _ hbatch] at he
    rw [itemsFor, ← he]
    exact hy
  have hall : ∃ ys es, List.length es = fields.length ∧
      AllYield (pollGrid points (onPoints filter) batchSize pollEvents) (inputsOf fields events) ys ∧
      ys.map Prod.snd = List.zipWith (itemsFor (chunks batchSize (keptRows filter rows))) fields es := by
    clear ha hok hfull hpoints
    induction fields with
    | nil => exact ⟨[], [], rfl, .nil, rfl⟩
    | cons i fields ih =>
      obtain ⟨k, e, hy⟩ := hgrid i (by simp)
      obtain ⟨ys, es, h1, h2, h3⟩ := ih fun j hj => hgrid j (List.mem_cons_of_mem _ hj)
      exact ⟨(k, itemsFor (chunks batchSize (keptRows filter rows)) i e) :: ys, e :: es, by simp [h1], List.Forall₂.cons (.none hy) h2, by simp [h3]⟩
  obtain ⟨ys, es, h1, h2, h3⟩ := hall
  obtain ⟨out, hout, hrows⟩ := join_reads ha (chunks batchSize (keptRows filter rows)) (by
    rw [chunks_flatten hbatch]
    intro row hrow
    refine htags row ?_
    cases filter with
    | none => exact hrow
    | some f => exact (List.mem_filter.mp hrow).1) _ ys es h1 h2 h3
  rw [chunks_flatten hbatch] at hrows
  exact ⟨out, hout, hrows⟩

/-- The data points of sorted segments that do not overlap are in the order of the rows. -/
theorem points_aligned {σ : Type} (segment : SegmentOf σ) (lt : List String → List String → Prop) (hirrefl : ∀ a, ¬ lt a a)
    (htrans : ∀ a b c, lt a b → lt b c → lt a c) (filter : Option (Int → List String → Bool)) (rows : List TableRow)
    (hrows : rows.Pairwise fun r s => Before lt r.tags s.tags r.time s.time) (segments : List σ) (hvalid : ∀ s ∈ segments, segment.Valid s)
    (hdisjoint : segment.Disjoint segments) (hsorted : segment.Sorted lt segments) (i : Nat)
    (hcontents : (kept (onPoints filter) (segments.flatMap segment.points)).Perm ((keptRows filter rows).map (TableRow.point i))) :
    kept (onPoints filter) (segments.flatMap segment.points) = (keptRows filter rows).map (TableRow.point i) := by
  have h1 : (kept (onPoints filter) (segments.flatMap segment.points)).Pairwise
      fun p q => Before lt p.tags q.tags p.time q.time :=
    (points_sorted segment lt hvalid hdisjoint hsorted).sublist (kept_sublist _ _)
  have h2 : ((keptRows filter rows).map (TableRow.point i)).Pairwise fun p q => Before lt p.tags q.tags p.time q.time := by
    rw [List.pairwise_map]
    refine List.Pairwise.sublist ?_ hrows
    cases filter with
    | none => exact List.Sublist.refl _
    | some f => exact List.filter_sublist
  refine List.Perm.eq_of_pairwise ?_ h1 h2 hcontents
  intro p q _ _ hpq hqp
  exfalso
  rcases hpq with h | ⟨h, h'⟩ <;> rcases hqp with g | ⟨g, g'⟩
  · exact hirrefl _ (htrans _ _ _ h g)
  · rw [g] at h; exact hirrefl _ h
  · rw [h] at g; exact hirrefl _ g
  · omega

/-- **C36** in the parts that hold: a query for any columns returns exactly the rows of the table that satisfy the filter, in order of tags
and time, and in each row the timestamp, the tags and the fields belong to the same row of the table, if for every field that is read
* the segments that are read together hold the data points of the rows, possibly without data points the filter removes,
* the segments of a time series do not overlap, so the data points were ingested in order of time, and
* the batches of segments are full, that is, hold at least as many data points that satisfy the filter as the size of a batch, except for
  the last.
The segments can be distributed in any way, and the batches of each field can become ready in any order. Not shown is the property without
the last two conditions, it is false of the code, see `C36_rows_mixed` and `C36_rows_lost`. -/
theorem C36_rows_partial {σ : Type} (segment : SegmentOf σ) (lt : List String → List String → Prop) (hirrefl : ∀ a, ¬ lt a a)
    (htrans : ∀ a b c, lt a b → lt b c → lt a c) (filter : Option (Int → List String → Bool)) (batchSize : Nat) (hbatch : 1 ≤ batchSize)
    (tagNames : List String) (order : List JoinColumn) (fields : List Nat) (ha : Answerable tagNames order fields)
    (rows : List TableRow) (hrows : rows.Pairwise fun r s => Before lt r.tags s.tags r.time s.time)
    (htags : ∀ row ∈ rows, row.tags.length = tagNames.length) (events : Nat → List (Event (List σ)))
    (hok : ∀ i ∈ fields, NeverFails (events i))
    (hvalid : ∀ i ∈ fields, ∀ s ∈ (itemsOf (events i)).flatten, segment.Valid s)
    (hdisjoint : ∀ i ∈ fields, segment.Disjoint (itemsOf (events i)).flatten)
    (hsorted : ∀ i ∈ fields, segment.Sorted lt (itemsOf (events i)).flatten)
    (hcontents : ∀ i ∈ fields, (kept (onPoints filter) ((itemsOf (events i)).flatten.flatMap segment.points)).Perm
      ((keptRows filter rows).map (TableRow.point i)))
    (hfull : ∀ i ∈ fields, FullBatches segment.points (onPoints filter) batchSize (itemsOf (events i))) :
    ∃ out, ReadsAs (pollJoin tagNames order (pollGrid segment.points (onPoints filter) batchSize pollEvents)) (inputsOf fields events) out ∧
      (out.flatMap rowsOfColumns).map some = (keptRows filter rows).map fun row => cellsOf tagNames row order fields := by
  exact join_aligned segment.points filter batchSize hbatch tagNames order fields ha rows htags events hok hfull fun i hi =>
    points_aligned segment lt hirrefl htrans filter rows hrows _ (hvalid i hi) (hdisjoint i hi) (hsorted i hi) i (hcontents i hi)

/-! ### A table for which the conditions hold -/

/-- A stored segment: its tags and its data points, which are not empty. -/
structure ListSegment where
  tags : List String
  first : Int × Nat
  rest : List (Int × Nat)
deriving DecidableEq

def ListSegment.all (s : ListSegment) : List (Int × Nat) := s.first :: s.rest

def listSegment : SegmentOf ListSegment where
  points s := s.all.map fun p => ⟨p.1, p.2, s.tags⟩
  tags s := s.tags
  start s := s.first.1
  stop s := (s.all.getLast (by simp [ListSegment.all])).1

/-- The conditions of `SegmentOf.Valid` for a segment that can be checked. -/
def ListSegment.check (s : ListSegment) : Bool :=
  decide ((∀ p ∈ listSegment.points s, p.tags = listSegment.tags s) ∧
    (∀ p ∈ listSegment.points s, listSegment.start s ≤ p.time ∧ p.time ≤ listSegment.stop s) ∧
    (listSegment.points s).Pairwise (fun p q => p.time < q.time) ∧ listSegment.start s ≤ listSegment.stop s)

theorem ListSegment.valid {s : ListSegment} (h : s.check = true) : listSegment.Valid s := by
  obtain ⟨h1, h2, h3, h4⟩ := of_decide_eq_true h
  exact ⟨h1, h2, h3, h4⟩

/-- Tags are compared as strings. -/
def tagsLt (a b : List String) : Prop := a < b

instance (a b : List String) : Decidable (tagsLt a b) := inferInstanceAs (Decidable (a < b))

/-- Five rows of two time series with two fields. -/
def fiveRows : List TableRow :=
  [⟨1, ["A"], fun i => 10 + i⟩, ⟨2, ["A"], fun i => 20 + i⟩, ⟨3, ["A"], fun i => 30 + i⟩, ⟨1, ["B"], fun i => 40 + i⟩,
    ⟨2, ["B"], fun i => 50 + i⟩]

/-- The batches of the two fields: they have different segments and become ready at different times. -/
def fiveEvents (i : Nat) : List (Event (List ListSegment)) :=
  if i = 1 then
    [.item [⟨["A"], (1, 11), [(2, 21), (3, 31)]⟩, ⟨["B"], (1, 41), [(2, 51)]⟩]]
  else
    [.pending, .item [⟨["A"], (1, 10 + i), []⟩, ⟨["A"], (2, 20 + i), [(3, 30 + i)]⟩], .pending, .item [⟨["B"], (1, 40 + i), [(2, 50 + i)]⟩]]

/-- The conditions of `C36_rows_partial` hold for a query for the tag, the third and the second column and the timestamp, with batches of two
rows. -/
example : ∃ out, ReadsAs (pollJoin ["tag"] [.tag "tag", .field, .field, .timestamp]
      (pollGrid listSegment.points (onPoints none) 2 pollEvents)) (inputsOf [2, 1] fiveEvents) out ∧
    (out.flatMap rowsOfColumns).map some =
      fiveRows.map fun row => cellsOf ["tag"] row [.tag "tag", .field, .field, .timestamp] [2, 1] :=
  C36_rows_partial listSegment tagsLt (fun a h => List.lt_irrefl a h) (fun a b c h g => List.lt_trans h g) none 2 (by decide)
    ["tag"] _ [2, 1] ⟨by simp, by simp, by simp [FreeName], by decide⟩ fiveRows
    (by simp only [fiveRows, List.pairwise_cons, List.mem_cons, Before]; simp; decide) (by simp [fiveRows]) fiveEvents
    (by simp only [List.mem_cons, List.not_mem_nil, or_false, forall_eq_or_imp, forall_eq, NeverFails]; constructor <;> decide)
    (by
      simp only [List.mem_cons, List.not_mem_nil, or_false, forall_eq_or_imp, forall_eq]
      refine ⟨fun s hs => ListSegment.valid ?_, fun s hs => ListSegment.valid ?_⟩ <;> revert s <;> decide)
    (by simp only [List.mem_cons, List.not_mem_nil, or_false, forall_eq_or_imp, forall_eq, SegmentOf.Disjoint]; constructor <;> decide)
    (by simp only [List.mem_cons, List.not_mem_nil, or_false, forall_eq_or_imp, forall_eq, SegmentOf.Sorted]; constructor <;> decide)
    (by
      simp only [List.mem_cons, List.not_mem_nil, or_false, forall_eq_or_imp, forall_eq]
      refine ⟨List.Perm.of_eq ?_, List.Perm.of_eq ?_⟩ <;> decide)
    (by simp only [List.mem_cons, List.not_mem_nil, or_false, forall_eq_or_imp, forall_eq, FullBatches]; constructor <;> decide)

/-! ### The property without the conditions -/

/-- Eight rows of a time series with two fields. The rows with the times 30 and 31 were ingested after the row with the time 50. -/
def lateRows : List TableRow := [10, 20, 30, 31, 40, 50].map fun t => ⟨t, [], fun i => t.toNat * 100 + i⟩

/-- The second field was compressed to a segment with the first four data points and the third to two segments, the data points that arrived
late are in a segment of their own. The segments are sorted by time. -/
def lateEvents (i : Nat) : List (Event (List ListSegment)) :=
  if i = 1 then
    [.item [⟨[], (10, 1001), [(20, 2001), (40, 4001), (50, 5001)]⟩, ⟨[], (30, 3001), [(31, 3101)]⟩]]
  else
    [.item [⟨[], (10, 1002), [(20, 2002)]⟩, ⟨[], (30, 3002), [(31, 3102)]⟩, ⟨[], (40, 4002), [(50, 5002)]⟩]]

/-- **C36** is false of the code if data points do not arrive in order of time: the segments of both fields hold exactly the data points of
the rows and are sorted, but the query returns a row with the timestamp 40, the value of the second column ingested at 40 and the value of
the third column ingested at 30. -/
theorem C36_rows_mixed :
    (∀ i ∈ [1, 2], ((itemsOf (lateEvents i)).flatten.flatMap listSegment.points).Perm (lateRows.map (TableRow.point i)) ∧
      listSegment.Sorted tagsLt (itemsOf (lateEvents i)).flatten ∧
      ∀ s ∈ (itemsOf (lateEvents i)).flatten, listSegment.Valid s) ∧
    ∃ out, drain (pollJoin [] [.timestamp, .field, .field] (pollGrid listSegment.points none 8192 pollEvents)) 9
        (inputsOf [1, 2] lateEvents) = (out, .finished) ∧
      [.time 40, .value 4001, .value 3002] ∈ out.flatMap rowsOfColumns ∧
      ∀ row ∈ lateRows, some [.time 40, .value 4001, .value 3002] ≠ cellsOf [] row [.timestamp, .field, .field] [1, 2] := by
  refine ⟨?_, _, rfl, ?_, ?_⟩
  · simp only [List.mem_cons, List.not_mem_nil, or_false, forall_eq_or_imp, forall_eq]
    refine ⟨⟨?_, ?_, ?_⟩, ?_, ?_, ?_⟩
    · decide
    · unfold SegmentOf.Sorted; decide
    · intro s hs; apply ListSegment.valid; revert s; decide
    · decide
    · unfold SegmentOf.Sorted; decide
    · intro s hs; apply ListSegment.valid; revert s; decide
  · decide +kernel
  · decide +kernel

/-- Four rows of four time series with two fields. -/
def fourRows : List TableRow := [("A", 1), ("B", 2), ("C", 3), ("D", 4)].map fun (s, n) => ⟨6, [s], fun i => 10 * n + i⟩

/-- The batches of segments of the two fields that may have data points with time 6, two segments in a batch. The third column has a segment
of the time series AA with data points at the times 5 and 7 only. The second column has these data points in two segments that are not
read. -/
def fourEvents (i : Nat) : List (Event (List ListSegment)) :=
  if i = 1 then
    [.item [⟨["A"], (6, 11), []⟩, ⟨["B"], (6, 21), []⟩], .item [⟨["C"], (6, 31), []⟩, ⟨["D"], (6, 41), []⟩]]
  else
    [.item [⟨["A"], (1, 2), [(6, 12)]⟩, ⟨["AA"], (5, 92), [(7, 93)]⟩], .item [⟨["B"], (6, 22), []⟩, ⟨["C"], (6, 32), []⟩],
      .item [⟨["D"], (6, 42), []⟩]]

/-- **C36** is false of the code also if data points arrive in order: if a batch of segments has less data points that satisfy the filter
than fit into a batch, rows are left out and the following rows are mixed. For the filter `time = 6` the query returns a row with the
tag C and the value of the third column of B. -/
theorem C36_rows_lost :
    (∀ i ∈ [1, 2], kept (onPoints (some fun t _ => t = 6)) ((itemsOf (fourEvents i)).flatten.flatMap listSegment.points) =
        fourRows.map (TableRow.point i) ∧
      listSegment.Sorted tagsLt (itemsOf (fourEvents i)).flatten ∧ listSegment.Disjoint (itemsOf (fourEvents i)).flatten) ∧
    ∃ out, drain (pollJoin ["tag"] [.tag "tag", .field, .field]
          (pollGrid listSegment.points (onPoints (some fun t _ => t = 6)) 2 pollEvents)) 9 (inputsOf [1, 2] fourEvents) = (out, .finished) ∧
      out.flatMap rowsOfColumns =
        [[.tag "A", .value 11, .value 12], [.tag "C", .value 31, .value 22], [.tag "D", .value 41, .value 32]] ∧
      some [.tag "C", .value 31, .value 22] ∉ fourRows.map fun row => cellsOf ["tag"] row [.tag "tag", .field, .field] [1, 2] := by
  refine ⟨?_, _, rfl, ?_, ?_⟩
  · simp only [List.mem_cons, List.not_mem_nil, or_false, forall_eq_or_imp, forall_eq]
    refine ⟨⟨?_, ?_, ?_⟩, ?_, ?_, ?_⟩
    · rfl
    · unfold SegmentOf.Sorted; decide
    · unfold SegmentOf.Disjoint; decide
    · rfl
    · unfold SegmentOf.Sorted; decide
    · unfold SegmentOf.Disjoint; decide
  · decide +kernel
  · decide +kernel

end ModelarDB.Props
