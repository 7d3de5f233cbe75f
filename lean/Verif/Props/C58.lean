import Verif.Props.C36
import Mathlib.Data.List.Flatten
/-
C58: a query with LIMIT returns rows of the table, as many as it asks for.
-/
namespace ModelarDB.Props
open Model.Query Spec Lemmas

/-- What is stored for a field and what the query reads of it: the segments of all files hold the data points of the rows and are valid.
`limit` of them are read, sorted and put in batches. A batch has `batchSize` segments except for the last. -/
structure ReadWithLimit {σ : Type} (segment : SegmentOf σ) (lt : List String → List String → Prop) (limit batchSize : Nat)
    (rows : List TableRow) (i : Nat) (files : List (List σ)) (events : List (Event (List σ))) : Prop where
  contents : (files.flatten.flatMap segment.points).Perm (rows.map (TableRow.point i))
  valid : ∀ s ∈ files.flatten, segment.Valid s
  disjoint : segment.Disjoint files.flatten
  notEmpty : ∀ s ∈ files.flatten, segment.points s ≠ []
  read : (itemsOf events).flatten.Perm (readSegments (some limit) files)
  neverFails : NeverFails events
  sorted : segment.Sorted lt (itemsOf events).flatten
  batches : ∀ b ∈ (itemsOf events).dropLast, batchSize ≤ b.length

theorem disjoint_perm {σ : Type} {segment : SegmentOf σ} {a b : List σ} (h : a.Perm b) (ha : segment.Disjoint a) : segment.Disjoint b := by
  refine h.pairwise ha ?_
  intro x y hxy
  rcases hxy with h | h | h
  · exact .inl fun h' => h h'.symm
  · exact .inr (.inr h)
  · exact .inr (.inl h)

theorem length_le_flatMap {σ : Type} {f : σ → List Point} : ∀ {l : List σ}, (∀ s ∈ l, f s ≠ []) → l.length ≤ (l.flatMap f).length
  | [], _ => by simp
  | s :: l, h => by
    have h1 := length_le_flatMap (f := f) fun x hx => h x (List.mem_cons_of_mem _ hx)
    have h2 := List.length_pos_iff.mpr (h s (by simp))
    rw [List.flatMap_cons, List.length_append, List.length_cons]
    omega

/-- The rows of which data points are read, if only one field is read. -/
theorem rows_read {σ : Type} {segment : SegmentOf σ} {lt : List String → List String → Prop} {limit batchSize : Nat} {rows : List TableRow}
    {i : Nat} {files : List (List σ)} {events : List (Event (List σ))} (h : ReadWithLimit segment lt limit batchSize rows i files events) :
    ∃ chosen : List TableRow, chosen.Sublist rows ∧ ((itemsOf events).flatten.flatMap segment.points).Perm (chosen.map (TableRow.point i)) := by
  have h1 : ((files.flatten.take limit).flatMap segment.points).Sublist (files.flatten.flatMap segment.points) :=
    List.Sublist.flatMap (List.take_sublist _ _) _
  obtain ⟨l, hl, hsub⟩ := List.exists_perm_sublist h1 h.contents
  obtain ⟨chosen, hc, rfl⟩ := List.sublist_map_iff.mp hsub
  exact ⟨chosen, hc, (h.read.flatMap_right _).trans hl.symm⟩

theorem chosen_length {σ : Type} {segment : SegmentOf σ} {lt : List String → List String → Prop} {limit batchSize : Nat}
    {rows chosen : List TableRow} {i : Nat} {files : List (List σ)} {events : List (Event (List σ))}
    (h : ReadWithLimit segment lt limit batchSize rows i files events)
    (hc : ((itemsOf events).flatten.flatMap segment.points).Perm (chosen.map (TableRow.point i))) : min limit rows.length ≤ chosen.length := by
  have h1 := hc.length_eq
  have h2 := (h.read.flatMap_right segment.points).length_eq
  have h3 := h.contents.length_eq
  simp only [List.length_map] at h1 h3
  simp only [readSegments] at h2
  rcases Nat.lt_or_ge limit files.flatten.length with hlt | hge
  · have := length_le_flatMap (f := segment.points) (l := files.flatten.take limit) fun s hs => h.notEmpty s (List.mem_of_mem_take hs)
    rw [List.length_take] at this
    omega
  · rw [List.take_of_length_le hge] at h2
    omega

/-- If the same rows are read for all fields, these are the rows that are returned. -/
theorem limit_rows {σ : Type} (segment : SegmentOf σ) (lt : List String → List String → Prop) (hirrefl : ∀ a, ¬ lt a a)
    (htrans : ∀ a b c, lt a b → lt b c → lt a c) (limit batchSize : Nat) (hlimit : 1 ≤ limit) (hbatch : 1 ≤ batchSize)
    (tagNames : List String) (order : List JoinColumn) (fields : List Nat) (ha : Answerable tagNames order fields)
    (rows chosen : List TableRow) (hsub : chosen.Sublist rows) (hrows : rows.Pairwise fun r s => Before lt r.tags s.tags r.time s.time)
    (htags : ∀ row ∈ rows, row.tags.length = tagNames.length) (files : Nat → List (List σ)) (events : Nat → List (Event (List σ)))
    (h : ∀ i ∈ fields, ReadWithLimit segment lt limit batchSize rows i (files i) (events i))
    (hc : ∀ i ∈ fields, ((itemsOf (events i)).flatten.flatMap segment.points).Perm (chosen.map (TableRow.point i))) :
    ∃ out, ReadsAs (pollJoin tagNames order (pollGrid segment.points none (gridBatchSize (some limit) batchSize) pollEvents))
        (inputsOf fields events) out ∧
      (out.flatMap rowsOfColumns).map some = chosen.map fun row => cellsOf tagNames row order fields := by
  have hmem : ∀ i ∈ fields, ∀ s ∈ (itemsOf (events i)).flatten, s ∈ (files i).flatten := by
    intro i hi s hs
    exact List.mem_of_mem_take ((h i hi).read.mem_iff.mp hs)
  refine C36_rows_partial segment lt hirrefl htrans none _ (by simp only [gridBatchSize]; omega) tagNames order fields ha chosen
    (hrows.sublist hsub) (fun row hr => htags row (hsub.subset hr)) events (fun i hi => (h i hi).neverFails)
    (fun i hi s hs => (h i hi).valid s (hmem i hi s hs)) (fun i hi => ?_) (fun i hi => (h i hi).sorted) (fun i hi => hc i hi)
    (fun i hi b hb => ?_)
  · exact disjoint_perm (h i hi).read.symm ((h i hi).disjoint.sublist (List.take_sublist _ _))
  · have h1 := (h i hi).batches b hb
    have h2 := length_le_flatMap (f := segment.points) (l := b) fun s hs =>
      (h i hi).notEmpty s (hmem i hi s (List.mem_flatten_of_mem (List.dropLast_subset _ hb) hs))
    change gridBatchSize (some limit) batchSize ≤ (b.flatMap segment.points).length
    simp only [gridBatchSize]
    omega

/-- **C58** for queries that read one field: the rows that are kept are rows of the table, none of them more often than it was ingested,
and there are as many as the query asks for or as the table has. This is so however the segments are distributed over files. Not shown is the
property for queries that read several fields, for these it is false of the code, see `C58_rows_mixed`, except for the cases in
`C58_all_read_partial` and `C58_same_ends_partial`. -/
theorem C58_one_field_partial {σ : Type} (segment : SegmentOf σ) (lt : List String → List String → Prop) (hirrefl : ∀ a, ¬ lt a a)
    (htrans : ∀ a b c, lt a b → lt b c → lt a c) (limit batchSize : Nat) (hlimit : 1 ≤ limit) (hbatch : 1 ≤ batchSize)
    (tagNames : List String) (order : List JoinColumn) (field : Nat) (ha : Answerable tagNames order [field])
    (rows : List TableRow) (hrows : rows.Pairwise fun r s => Before lt r.tags s.tags r.time s.time)
    (htags : ∀ row ∈ rows, row.tags.length = tagNames.length) (files : List (List σ)) (events : List (Event (List σ)))
    (h : ReadWithLimit segment lt limit batchSize rows field files events) :
    ∃ (out : List (List (List Cell))) (chosen : List TableRow), ReadsAs (pollJoin tagNames order (pollGrid segment.points none (gridBatchSize (some limit) batchSize) pollEvents))
        (inputsOf [field] fun _ => events) out ∧ chosen.Sublist rows ∧ chosen.length = min limit rows.length ∧
      ((out.flatMap rowsOfColumns).take limit).map some = chosen.map fun row => cellsOf tagNames row order [field] := by
  obtain ⟨chosen, hsub, hperm⟩ := rows_read h
  have hlen := chosen_length h hperm
  obtain ⟨out, h1, h2⟩ := limit_rows segment lt hirrefl htrans limit batchSize hlimit hbatch tagNames order [field] ha rows chosen hsub hrows
    htags (fun _ => files) (fun _ => events) (by simpa using h) (by simpa using hperm)
  refine ⟨out, chosen.take limit, h1, (List.take_sublist _ _).trans hsub, ?_, ?_⟩
  · have := hsub.length_le
    rw [List.length_take]
    omega
  · rw [List.map_take, h2, List.map_take]

/-- **C58** for queries that read any number of fields if no field has more segments than the query asks for rows: the first rows of the table
are returned. -/
theorem C58_all_read_partial {σ : Type} (segment : SegmentOf σ) (lt : List String → List String → Prop) (hirrefl : ∀ a, ¬ lt a a)
    (htrans : ∀ a b c, lt a b → lt b c → lt a c) (limit batchSize : Nat) (hlimit : 1 ≤ limit) (hbatch : 1 ≤ batchSize)
    (tagNames : List String) (order : List JoinColumn) (fields : List Nat) (ha : Answerable tagNames order fields)
    (rows : List TableRow) (hrows : rows.Pairwise fun r s => Before lt r.tags s.tags r.time s.time)
    (htags : ∀ row ∈ rows, row.tags.length = tagNames.length) (files : Nat → List (List σ)) (events : Nat → List (Event (List σ)))
    (h : ∀ i ∈ fields, ReadWithLimit segment lt limit batchSize rows i (files i) (events i))
    (hall : ∀ i ∈ fields, (files i).flatten.length ≤ limit) :
    ∃ out, ReadsAs (pollJoin tagNames order (pollGrid segment.points none (gridBatchSize (some limit) batchSize) pollEvents))
        (inputsOf fields events) out ∧
      ((out.flatMap rowsOfColumns).take limit).map some = (rows.take limit).map fun row => cellsOf tagNames row order fields := by
  obtain ⟨out, h1, h2⟩ := limit_rows segment lt hirrefl htrans limit batchSize hlimit hbatch tagNames order fields ha rows rows
    (List.Sublist.refl _) hrows htags files events h (fun i hi => by
      refine ((h i hi).read.flatMap_right _).trans ?_
      simp only [readSegments]
      rw [List.take_of_length_le (hall i hi)]
      exact (h i hi).contents)
  exact ⟨out, h1, by rw [List.map_take, h2, List.map_take]⟩

/-- Parts of a list whose elements have different keys are the same if they have the same keys. -/
theorem sublist_unique {ρ κ : Type} (key : ρ → κ) : ∀ {rows a b : List ρ}, (rows.map key).Nodup → a.Sublist rows → b.Sublist rows →
    (a.map key).Perm (b.map key) → a = b
  | [], a, b, _, ha, hb, _ => by rw [List.sublist_nil.mp ha, List.sublist_nil.mp hb]
  | r :: rows, _, _, hn, .cons _ ha, .cons _ hb, h => sublist_unique key (List.nodup_cons.mp hn).2 ha hb h
  | r :: rows, _, _, hn, .cons_cons _ ha, .cons_cons _ hb, h => by
    rw [sublist_unique key (List.nodup_cons.mp hn).2 ha hb (List.perm_cons _ |>.mp h)]
  | r :: rows, _, _, hn, .cons _ ha, .cons_cons _ hb, h =>
    absurd ((ha.map key).subset (h.mem_iff.mpr (by simp))) (List.nodup_cons.mp hn).1
  | r :: rows, _, _, hn, .cons_cons _ ha, .cons _ hb, h =>
    absurd ((hb.map key).subset (h.mem_iff.mp (by simp))) (List.nodup_cons.mp hn).1

/-- **C58** for queries that read any number of fields if the segments of the fields end at the same data points, in the order in which they are
stored: the rows that are kept are rows of the table, as many as the query asks for or as the table has. Not shown is the property if the
segments end at different data points, for these it is false of the code, see `C58_rows_mixed`. -/
theorem C58_same_ends_partial {σ : Type} (segment : SegmentOf σ) (lt : List String → List String → Prop) (hirrefl : ∀ a, ¬ lt a a)
    (htrans : ∀ a b c, lt a b → lt b c → lt a c) (limit batchSize : Nat) (hlimit : 1 ≤ limit) (hbatch : 1 ≤ batchSize)
    (tagNames : List String) (order : List JoinColumn) (fields : List Nat) (ha : Answerable tagNames order fields)
    (rows : List TableRow) (hrows : rows.Pairwise fun r s => Before lt r.tags s.tags r.time s.time)
    (htags : ∀ row ∈ rows, row.tags.length = tagNames.length) (files : Nat → List (List σ)) (events : Nat → List (Event (List σ)))
    (h : ∀ i ∈ fields, ReadWithLimit segment lt limit batchSize rows i (files i) (events i))
    (hends : ∀ i ∈ fields, ∀ j ∈ fields, ((files i).flatten.map fun s => (segment.points s).map fun p => (p.tags, p.time)) =
      (files j).flatten.map fun s => (segment.points s).map fun p => (p.tags, p.time)) :
    ∃ (out : List (List (List Cell))) (chosen : List TableRow), ReadsAs (pollJoin tagNames order (pollGrid segment.points none (gridBatchSize (some limit) batchSize) pollEvents))
        (inputsOf fields events) out ∧ chosen.Sublist rows ∧ chosen.length = min limit rows.length ∧
      ((out.flatMap rowsOfColumns).take limit).map some = chosen.map fun row => cellsOf tagNames row order fields := by
  obtain ⟨i, hi⟩ := List.exists_mem_of_ne_nil _ ha.inputs
  obtain ⟨chosen, hsub, hperm⟩ := rows_read (h i hi)
  have hnodup : (rows.map fun r => (r.tags, r.time)).Nodup := by
    refine List.pairwise_map.mpr (hrows.imp fun {r s} hb e => ?_)
    obtain ⟨e1, e2⟩ := Prod.mk.injEq .. ▸ e
    rcases hb with hb | ⟨_, hb⟩
    · exact hirrefl _ (e1 ▸ hb)
    · omega
  have hkeys : ∀ j ∈ fields, ∀ c : List TableRow, ((itemsOf (events j)).flatten.flatMap segment.points).Perm (c.map (TableRow.point j)) →
      (c.map fun r => (r.tags, r.time)).Perm
        ((((files j).flatten.map fun s => (segment.points s).map fun p => (p.tags, p.time)).take limit).flatten) := by
    intro j hj c hc
    have h1 := (hc.symm.trans ((h j hj).read.flatMap_right _)).map fun p : Point => (p.tags, p.time)
    rw [List.map_map] at h1
    refine h1.trans (List.Perm.of_eq ?_)
    rw [readSegments, ← List.map_take, List.map_flatMap, List.flatMap_def]
  have hsame : ∀ j ∈ fields, ((itemsOf (events j)).flatten.flatMap segment.points).Perm (chosen.map (TableRow.point j)) := by
    intro j hj
    obtain ⟨other, hsub', hperm'⟩ := rows_read (h j hj)
    have e : other = chosen := by
      refine sublist_unique (fun r => (r.tags, r.time)) hnodup hsub' hsub ((hkeys j hj other hperm').trans ?_)
      rw [hends j hj i hi]
      exact (hkeys i hi chosen hperm).symm
    exact e ▸ hperm'
  have hlen := chosen_length (h i hi) hperm
  obtain ⟨out, h1, h2⟩ := limit_rows segment lt hirrefl htrans limit batchSize hlimit hbatch tagNames order fields ha rows chosen hsub hrows
    htags files events h hsame
  refine ⟨out, chosen.take limit, h1, (List.take_sublist _ _).trans hsub, ?_, ?_⟩
  · have := hsub.length_le
    rw [List.length_take]
    omega
  · rw [List.map_take, h2, List.map_take]

/-! ### A query for which the conditions hold -/

/-- The rows with the times 1 and 2 were ingested after those with the times 3 and 4. -/
def twiceRows : List TableRow := [1, 2, 3, 4].map fun t => ⟨t, [], fun i => t.toNat * 100 + i⟩

/-- The files of two fields, in the order in which they were written. The segments of the second column are smaller. -/
def twiceFiles (i : Nat) : List (List ListSegment) :=
  if i = 1 then [[⟨[], (3, 301), []⟩, ⟨[], (4, 401), []⟩], [⟨[], (1, 101), [(2, 201)]⟩]]
  else [[⟨[], (3, 302), [(4, 402)]⟩], [⟨[], (1, 102), [(2, 202)]⟩]]

/-- The segments that are read for the query, sorted. -/
def twiceEvents (i : Nat) : List (Event (List ListSegment)) :=
  if i = 1 then [.item [⟨[], (3, 301), []⟩, ⟨[], (4, 401), []⟩]]
  else [.pending, .item [⟨[], (1, 102), [(2, 202)]⟩, ⟨[], (3, 302), [(4, 402)]⟩]]

theorem twiceRead (i : Nat) (hi : i = 1 ∨ i = 2) :
    ReadWithLimit listSegment tagsLt 2 8192 twiceRows i (twiceFiles i) (twiceEvents i) := by
  rcases hi with rfl | rfl
  · exact ⟨by decide, fun s hs => ListSegment.valid (by revert s; decide), by unfold SegmentOf.Disjoint; decide, by decide, by decide,
      by unfold NeverFails; decide, by unfold SegmentOf.Sorted; decide, by decide⟩
  · exact ⟨by decide, fun s hs => ListSegment.valid (by revert s; decide), by unfold SegmentOf.Disjoint; decide, by decide, by decide,
      by unfold NeverFails; decide, by unfold SegmentOf.Sorted; decide, by decide⟩

theorem twiceRows_sorted : twiceRows.Pairwise fun r s => Before tagsLt r.tags s.tags r.time s.time := by
  simp only [twiceRows, List.map_cons, List.map_nil, List.pairwise_cons, List.mem_cons, Before]
  simp

/-- `SELECT ts, a FROM t LIMIT 2` returns two of the four rows. -/
example : ∃ (out : List (List (List Cell))) (chosen : List TableRow), ReadsAs (pollJoin [] [.timestamp, .field] (pollGrid listSegment.points none (gridBatchSize (some 2) 8192) pollEvents))
      (inputsOf [1] fun _ => twiceEvents 1) out ∧ chosen.Sublist twiceRows ∧ chosen.length = 2 ∧
    ((out.flatMap rowsOfColumns).take 2).map some = chosen.map fun row => cellsOf [] row [.timestamp, .field] [1] :=
  C58_one_field_partial listSegment tagsLt (fun a h => List.lt_irrefl a h) (fun a b c h g => List.lt_trans h g) 2 8192 (by decide) (by decide)
    [] [.timestamp, .field] 1 ⟨by simp, by simp, by simp, by decide⟩ twiceRows twiceRows_sorted (by simp [twiceRows]) (twiceFiles 1)
    (twiceEvents 1) (twiceRead 1 (.inl rfl))

/-- The files of two fields whose segments end at the same data points. -/
def alikeFiles (i : Nat) : List (List ListSegment) :=
  [[⟨[], (3, 300 + i), []⟩, ⟨[], (4, 400 + i), []⟩], [⟨[], (1, 100 + i), [(2, 200 + i)]⟩]]

/-- The segments that are read for the query. -/
def alikeEvents (i : Nat) : List (Event (List ListSegment)) :=
  if i = 1 then [.item [⟨[], (3, 301), []⟩, ⟨[], (4, 401), []⟩]] else [.pending, .item [⟨[], (3, 302), []⟩, ⟨[], (4, 402), []⟩]]

theorem alikeRead (i : Nat) (hi : i = 1 ∨ i = 2) :
    ReadWithLimit listSegment tagsLt 2 8192 twiceRows i (alikeFiles i) (alikeEvents i) := by
  rcases hi with rfl | rfl
  · exact ⟨by decide, fun s hs => ListSegment.valid (by revert s; decide), by unfold SegmentOf.Disjoint; decide, by decide, by decide,
      by unfold NeverFails; decide, by unfold SegmentOf.Sorted; decide, by decide⟩
  · exact ⟨by decide, fun s hs => ListSegment.valid (by revert s; decide), by unfold SegmentOf.Disjoint; decide, by decide, by decide,
      by unfold NeverFails; decide, by unfold SegmentOf.Sorted; decide, by decide⟩

/-- `SELECT ts, a, b FROM t LIMIT 2` returns two of the four rows although the first field has three segments. -/
example : ∃ (out : List (List (List Cell))) (chosen : List TableRow), ReadsAs (pollJoin [] [.timestamp, .field, .field] (pollGrid listSegment.points none (gridBatchSize (some 2) 8192) pollEvents))
      (inputsOf [1, 2] alikeEvents) out ∧ chosen.Sublist twiceRows ∧ chosen.length = 2 ∧
    ((out.flatMap rowsOfColumns).take 2).map some = chosen.map fun row => cellsOf [] row [.timestamp, .field, .field] [1, 2] :=
  C58_same_ends_partial listSegment tagsLt (fun a h => List.lt_irrefl a h) (fun a b c h g => List.lt_trans h g) 2 8192 (by decide) (by decide)
    [] [.timestamp, .field, .field] [1, 2] ⟨by simp, by simp, by simp, by decide⟩ twiceRows twiceRows_sorted (by simp [twiceRows]) alikeFiles
    alikeEvents (fun i hi => alikeRead i (by simpa using hi)) (fun i _ j _ => rfl)

/-! ### Two fields -/

/-- **C58** is false of the code for queries that read two fields, although no data points overlap and the files of both fields were written
at the same times: the limit is applied to the segments of each field as they are stored, so other rows are read for each. The query
`SELECT ts, a, b FROM t LIMIT 2` returns a row with the timestamp and the first field of one row and the second field of another. -/
theorem C58_rows_mixed :
    (∀ i, i = 1 ∨ i = 2 → ReadWithLimit listSegment tagsLt 2 8192 twiceRows i (twiceFiles i) (twiceEvents i)) ∧
    twiceRows.Pairwise (fun r s => Before tagsLt r.tags s.tags r.time s.time) ∧
    ∃ out, drain (pollJoin [] [.timestamp, .field, .field] (pollGrid listSegment.points none (gridBatchSize (some 2) 8192) pollEvents)) 9
        (inputsOf [1, 2] twiceEvents) = (out, .finished) ∧
      (out.flatMap rowsOfColumns).take 2 = [[.time 3, .value 301, .value 102], [.time 4, .value 401, .value 202]] ∧
      ∀ row ∈ twiceRows, some [.time 3, .value 301, .value 102] ≠ cellsOf [] row [.timestamp, .field, .field] [1, 2] := by
  refine ⟨twiceRead, twiceRows_sorted, _, rfl, ?_, ?_⟩
  · decide +kernel
  · decide +kernel

end ModelarDB.Props
