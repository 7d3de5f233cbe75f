import Verif.Lemmas.EndToEnd
import Verif.Lemmas.FilterOrder
import Verif.Spec.EndToEndRows
import Verif.Props.C39
/-
Lemmas for ingesting rows and querying several fields of them.
-/
namespace ModelarDB.Lemmas.EndToEnd
open Model Model.Query Model.StoredTable Spec Spec.Storage Lemmas

variable {α ε : Type}

/-! ### The segments -/

/-- The segments of a field do not overlap if the buffers do not. -/
theorem storedSegments_disjoint {log2 : Log2} {m : TableDefinition.Metadata ε} {value : α → Nat → Nat} {field : Nat}
    (hfield : field ∈ m.fieldIndices) {R : Nat → Nat → Prop} {saved : List (Storage.Chunk α)}
    (h : ∀ c ∈ saved, c.table = m.name → ∃ l, compressField log2 m value field c = some l ∧ ChunkStored value field R c l)
    (hsep : Separated m.name saved) : ∃ stored, storedSegments log2 m value field saved = some stored ∧ segmentOf.Disjoint stored ∧
      ∀ s ∈ stored, ∃ c ∈ saved, c.table = m.name ∧ s.1 = c.tags ∧ s.2.startTime ∈ c.points.map Prod.fst ∧
        s.2.endTime ∈ c.points.map Prod.fst := by
  unfold storedSegments
  rw [if_pos hfield]
  induction saved with
  | nil => exact ⟨[], rfl, .nil, by simp⟩
  | cons c saved ih =>
    unfold Separated at hsep
    rw [List.pairwise_cons] at hsep
    obtain ⟨stored, h1, h2, h3⟩ := ih (fun x hx => h x (List.mem_cons_of_mem _ hx)) hsep.2
    obtain ⟨ls, hls, rfl⟩ := Option.map_eq_some_iff.mp h1
    by_cases ht : c.table = m.name
    · obtain ⟨l, h4, h5⟩ := h c (by simp) ht
      refine ⟨l ++ ls.flatten, ?_, ?_, ?_⟩
      · rw [List.filter_cons_of_pos (by simpa using ht), List.mapM_cons, h4, hls]
        rfl
      · unfold SegmentOf.Disjoint
        rw [List.pairwise_append]
        refine ⟨h5.ordered.imp fun h => Or.inr (Or.inl h), h2, ?_⟩
        intro a ha b hb
        obtain ⟨d, hd, hdt, hdtags, hds, hde⟩ := h3 b hb
        obtain ⟨hctags, hcs, hce⟩ := h5.within a ha
        obtain ⟨p1, hp1, e1⟩ := List.mem_map.mp hcs
        obtain ⟨p2, hp2, e2⟩ := List.mem_map.mp hce
        obtain ⟨q1, hq1, f1⟩ := List.mem_map.mp hds
        obtain ⟨q2, hq2, f2⟩ := List.mem_map.mp hde
        show a.1 ≠ b.1 ∨ a.2.endTime < b.2.startTime ∨ b.2.endTime < a.2.startTime
        by_cases htags : c.tags = d.tags
        swap
        · left
          rw [hctags, hdtags]
          exact htags
        rcases hsep.1 d hd ht hdt htags with hn | hn
        · right; left
          rw [← e2, ← f1]
          exact hn p2 hp2 q1 hq1
        · right; right
          rw [← e1, ← f2]
          exact hn p1 hp1 q2 hq2
      · intro s hs
        rcases List.mem_append.mp hs with hs | hs
        · exact ⟨c, by simp, ht, h5.within s hs⟩
        · obtain ⟨d, hd, h6⟩ := h3 s hs
          exact ⟨d, List.mem_cons_of_mem _ hd, h6⟩
    · refine ⟨ls.flatten, ?_, h2, ?_⟩
      · rw [List.filter_cons_of_neg (by simpa using ht), hls]
        rfl
      · intro s hs
        obtain ⟨d, hd, h6⟩ := h3 s hs
        exact ⟨d, List.mem_cons_of_mem _ hd, h6⟩

/-! ### The rows -/

/-- The rows that are read: each has the time and tags of a row and for each field the value of the data point at the same position. -/
def backRows (ingested : List (Storage.Row α)) (points : Nat → List Point) : List TableRow :=
  (List.range ingested.length).filterMap fun k => ingested[k]?.map fun r => ⟨r.ts, r.tags, fun i => ((points i)[k]?.map (·.value)).getD 0⟩

theorem backRows_getElem? (ingested : List (Storage.Row α)) (points : Nat → List Point) (k : Nat) :
    (backRows ingested points)[k]? =
      ingested[k]?.map fun r => (⟨r.ts, r.tags, fun i => ((points i)[k]?.map (·.value)).getD 0⟩ : TableRow) := by
  have : backRows ingested points = (List.range ingested.length).map fun k =>
      (⟨(ingested[k]?.map (·.ts)).getD 0, (ingested[k]?.map (·.tags)).getD [], fun i => ((points i)[k]?.map (·.value)).getD 0⟩ : TableRow) := by
    unfold backRows
    rw [← List.filterMap_eq_map]
    refine List.filterMap_congr fun k hk => ?_
    have hk := List.mem_range.mp hk
    simp [List.getElem?_eq_getElem hk]
  rw [this, List.getElem?_map]
  by_cases hk : k < ingested.length
  · simp [List.getElem?_eq_getElem hk, List.getElem?_range hk]
  · rw [List.getElem?_eq_none (by simpa using hk), List.getElem?_eq_none (l := ingested) (by simpa using hk)]
    rfl

theorem backRows_length (ingested : List (Storage.Row α)) (points : Nat → List Point) : (backRows ingested points).length = ingested.length := by
  apply Nat.le_antisymm
  · by_contra hlt
    have h := backRows_getElem? ingested points ingested.length
    rw [List.getElem?_eq_getElem (by omega), List.getElem?_eq_none (l := ingested) (by omega)] at h
    cases h
  · by_contra hlt
    have h := backRows_getElem? ingested points (backRows ingested points).length
    rw [List.getElem?_eq_none (by omega), List.getElem?_eq_getElem (l := ingested) (by omega)] at h
    cases h

variable {value : α → Nat → Nat} {R : Nat → Nat → Nat → Prop} {fields : List Nat} {ingested : List (Storage.Row α)} {points : Nat → List Point}

theorem backRows_read (h : ∀ i ∈ fields, List.Forall₂ (ReadFor value i (R i)) ingested (points i)) :
    List.Forall₂ (ReadRowFor value fields R) ingested (backRows ingested points) := by
  rw [List.forall₂_iff_get]
  refine ⟨(backRows_length ingested points).symm, fun k hk hk' => ?_⟩
  have hr := backRows_getElem? ingested points k
  rw [List.getElem?_eq_getElem hk', List.getElem?_eq_getElem hk] at hr
  simp only [Option.map_some, Option.some.injEq] at hr
  simp only [List.get_eq_getElem, hr]
  refine ⟨rfl, rfl, fun i hi => ?_⟩
  have hki : k < (points i).length := by rw [← (h i hi).length_eq]; exact hk
  have := (List.forall₂_iff_get.mp (h i hi)).2 k hk hki
  simp only [List.getElem?_eq_getElem hki, Option.map_some, Option.getD_some]
  exact this.value

theorem backRows_points (h : ∀ i ∈ fields, List.Forall₂ (ReadFor value i (R i)) ingested (points i)) {i : Nat} (hi : i ∈ fields) :
    (backRows ingested points).map (TableRow.point i) = points i := by
  apply List.ext_getElem?
  intro k
  rw [List.getElem?_map, backRows_getElem?]
  by_cases hk : k < ingested.length
  · have hki : k < (points i).length := by rw [← (h i hi).length_eq]; exact hk
    have := (List.forall₂_iff_get.mp (h i hi)).2 k hk hki
    rw [List.getElem?_eq_getElem hk, List.getElem?_eq_getElem hki]
    simp only [Option.map_some, TableRow.point, Option.some.injEq, List.getElem?_eq_getElem hki, Option.getD_some]
    rw [Point.mk.injEq]
    exact ⟨this.time.symm, rfl, this.tags.symm⟩
  · have hki : ¬ k < (points i).length := by rw [← (h i hi).length_eq]; exact hk
    rw [List.getElem?_eq_none (by omega), List.getElem?_eq_none (by omega)]
    rfl

/-- Rows with different tags or times can be sorted. -/
theorem exists_sorted {lt : List String → List String → Prop} (hlt : StrictOrder lt) (rows : List TableRow)
    (hkeys : (rows.map fun row => (row.tags, row.time)).Nodup) :
    ∃ sorted : List TableRow, sorted.Perm rows ∧ sorted.Pairwise fun r s => Before lt r.tags s.tags r.time s.time := by
  classical
  have htrichotomy : ∀ r s : TableRow, (r.tags, r.time) ≠ (s.tags, s.time) → Before lt r.tags s.tags r.time s.time ∨
      Before lt s.tags r.tags s.time r.time := by
    intro r s h
    by_cases ht : r.tags = s.tags
    · have : r.time ≠ s.time := fun h' => h (by rw [ht, h'])
      rcases lt_or_gt_of_ne this with h' | h'
      · exact Or.inl (Or.inr ⟨ht, h'⟩)
      · exact Or.inr (Or.inr ⟨ht.symm, h'⟩)
    · rcases hlt.total _ _ ht with h' | h'
      · exact Or.inl (Or.inl h')
      · exact Or.inr (Or.inl h')
  have htrans : ∀ a b c : TableRow, Before lt a.tags b.tags a.time b.time → Before lt b.tags c.tags b.time c.time →
      Before lt a.tags c.tags a.time c.time := by
    rintro a b c (h | ⟨h, h'⟩) (g | ⟨g, g'⟩)
    · exact Or.inl (hlt.trans _ _ _ h g)
    · exact Or.inl (g ▸ h)
    · exact Or.inl (h ▸ g)
    · exact Or.inr ⟨h.trans g, h'.trans g'⟩
  induction rows with
  | nil => exact ⟨[], .nil, .nil⟩
  | cons r rows ih =>
    rw [List.map_cons, List.nodup_cons] at hkeys
    obtain ⟨sorted, h1, h2⟩ := ih hkeys.2
    have hne : ∀ s ∈ sorted, (r.tags, r.time) ≠ (s.tags, s.time) := by
      intro s hs h
      exact hkeys.1 (h ▸ List.mem_map.mpr ⟨s, h1.mem_iff.mp hs, rfl⟩)
    clear ih hkeys
    suffices ∃ l : List TableRow, l.Perm (r :: sorted) ∧ l.Pairwise fun r s => Before lt r.tags s.tags r.time s.time by
      obtain ⟨l, g1, g2⟩ := this
      exact ⟨l, g1.trans (h1.cons r), g2⟩
    clear h1
    induction sorted with
    | nil => exact ⟨[r], .refl _, by simp⟩
    | cons s sorted ih =>
      rcases htrichotomy r s (hne s (by simp)) with h | h
      · refine ⟨r :: s :: sorted, .refl _, ?_⟩
        rw [List.pairwise_cons]
        refine ⟨fun t ht => ?_, h2⟩
        rcases List.mem_cons.mp ht with rfl | ht
        · exact h
        · exact htrans _ _ _ h ((List.pairwise_cons.mp h2).1 t ht)
      · obtain ⟨l, g1, g2⟩ := ih (List.pairwise_cons.mp h2).2 fun t ht => hne t (List.mem_cons_of_mem _ ht)
        refine ⟨s :: l, (g1.cons s).trans (.swap r s sorted), ?_⟩
        rw [List.pairwise_cons]
        refine ⟨fun t ht => ?_, g2⟩
        rcases List.mem_cons.mp (g1.mem_iff.mp ht) with rfl | ht
        · exact h
        · exact (List.pairwise_cons.mp h2).1 t ht

open TableDefinition Props

/-! ### The columns of a batch -/

theorem smallest_le : ∀ {batches : List (List Point)} {b : List Point}, b ∈ batches → smallest batches ≤ b.length
  | [b], _, h => by simp at h; subst h; exact Nat.le_refl _
  | b :: b' :: bs, c, h => by
    rw [smallest]
    · rcases List.mem_cons.mp h with rfl | h
      · exact Nat.min_le_left _ _
      · exact (Nat.min_le_right _ _).trans (smallest_le h)
    · simp

theorem mapM_option_length {α β : Type} {f : α → Option β} {l : List α} {r : List β} (h : l.mapM f = some r) : r.length = l.length := by
  have := congrArg List.length (mapM_option_eq_some.mp h)
  simpa using this.symm

theorem joinColumns_shape {tagNames : List String} {first : List Point} {n : Nat} (hfirst : first.length = n) :
    ∀ {order : List JoinColumn} {batches : List (List Point)} {columns : List (List Cell)}, (∀ b ∈ batches, b.length = n) →
      joinColumns tagNames first order batches = some columns → columns.length = order.length ∧ ∀ c ∈ columns, c.length = n
  | [], _, _, _, h => by
    simp only [joinColumns, Option.some.injEq] at h
    subst h
    simp
  | .timestamp :: order, batches, columns, hb, h => by
    simp only [joinColumns, Option.map_eq_some_iff] at h
    obtain ⟨rest, hrest, rfl⟩ := h
    obtain ⟨h1, h2⟩ := joinColumns_shape hfirst hb hrest
    simpa [h1, hfirst] using h2
  | .field :: order, [], columns, hb, h => by simp [joinColumns] at h
  | .field :: order, b :: batches, columns, hb, h => by
    simp only [joinColumns, Option.map_eq_some_iff] at h
    obtain ⟨rest, hrest, rfl⟩ := h
    obtain ⟨h1, h2⟩ := joinColumns_shape hfirst (fun b' hb' => hb b' (List.mem_cons_of_mem _ hb')) hrest
    simpa [h1, hb b (by simp)] using h2
  | .tag name :: order, batches, columns, hb, h => by
    simp only [joinColumns, Option.bind_eq_some_iff, Option.map_eq_some_iff] at h
    obtain ⟨column, hcolumn, rest, hrest, rfl⟩ := h
    obtain ⟨h1, h2⟩ := joinColumns_shape hfirst hb hrest
    have : column.length = n := by
      unfold tagColumn at hcolumn
      split at hcolumn <;> first | cases hcolumn | skip
      rw [mapM_option_length hcolumn, hfirst]
    simpa [h1, this] using h2

theorem sortedJoin_shape {tagNames : List String} {order : List JoinColumn} {batches : List (List Point)} {columns : List (List Cell)}
    (h : sortedJoin tagNames order (sliceToSmallest batches) = some columns) :
    columns.length = order.length ∧ ∃ n, ∀ c ∈ columns, c.length = n := by
  have hlen : ∀ b ∈ sliceToSmallest batches, b.length = smallest batches := by
    intro b hb
    obtain ⟨b', hb', rfl⟩ := List.mem_map.mp hb
    rw [List.length_take]
    exact Nat.min_eq_left (smallest_le hb')
  generalize sliceToSmallest batches = sliced at h hlen
  unfold sortedJoin at h
  split at h
  · cases h
  rename_i first rest
  split at h
  · cases h
  obtain ⟨h1, h2⟩ := joinColumns_shape (hlen first (by simp)) hlen h
  exact ⟨h1, _, h2⟩

theorem drain_mem {S α : Type} {poll : S → Option (Poll α × S)} : ∀ {n : Nat} {s : S} {a : α}, a ∈ (drain poll n s).1 →
    ∃ s₁ s₂, poll s₁ = some (.item a, s₂)
  | 0, _, _, h => by simp [drain] at h
  | n + 1, s, a, h => by
    rw [drain] at h
    split at h
    · simp at h
    · exact drain_mem h
    · rename_i b s' hp
      rcases List.mem_cons.mp h with rfl | h
      · exact ⟨_, _, hp⟩
      · exact drain_mem h
    · simp at h
    · simp at h

/-- All columns of a batch of the join have the same number of rows. -/
theorem drain_join_shape {S : Type} {tagNames : List String} {order : List JoinColumn} {poll : Poller S (List Point)} {n : Nat}
    {slots : List (Option (List Point) × S)} {out : List (List (List Cell))} {ending : Ending}
    (h : drain (pollJoin tagNames order poll) n slots = (out, ending)) (columns : List (List Cell)) (hc : columns ∈ out) :
    columns.length = order.length ∧ ∃ n, ∀ c ∈ columns, c.length = n := by
  obtain ⟨s₁, s₂, hp⟩ := drain_mem (a := columns) (by rw [h]; exact hc)
  unfold pollJoin at hp
  split at hp <;> try (simp at hp; done)
  simp only [bind, Option.bind_eq_some_iff, pure, Option.some.injEq, Prod.mk.injEq, Poll.item.injEq] at hp
  obtain ⟨batches, _, columns', hj, rfl, _⟩ := hp
  exact sortedJoin_shape hj

/-! ### The query -/

/-- The data points of all fields that are read and satisfy a filter are in the order of the rows. -/
def InLine (w : World ε StoredSegment) (fields : List Nat) (rows : List TableRow) : Prop :=
  ∀ (keep : StoredSegment → Bool) (f : Option (Int → List String → Bool)), ∀ i ∈ fields,
    (kept (onPoints f) ((itemsOf (w.read keep i)).flatten.flatMap pointsOf)).Perm ((keptRows f rows).map (TableRow.point i)) →
    kept (onPoints f) ((itemsOf (w.read keep i)).flatten.flatMap pointsOf) = (keptRows f rows).map (TableRow.point i)

/-- Sorted segments that do not overlap are in the order of the sorted rows. -/
theorem inLine_of_sorted {w : World ε StoredSegment} {fields : List Nat} {lt : List String → List String → Prop} (hlt : StrictOrder lt)
    {stored : Nat → List StoredSegment} (hreads : ReadsSortedSegments w lt fields stored)
    (hvalid : ∀ i ∈ fields, ∀ s ∈ stored i, segmentOf.Valid s) (hdisjoint : ∀ i ∈ fields, segmentOf.Disjoint (stored i))
    {rows : List TableRow} (hrows : rows.Pairwise fun r s => Before lt r.tags s.tags r.time s.time) : InLine w fields rows := by
  intro keep f i hi hperm
  obtain ⟨read, h1, h2, _⟩ := (hreads.stored i hi).contents keep
  refine points_aligned segmentOf lt hlt.irrefl hlt.trans f rows hrows _ ?_ ?_ (hreads.sorted i hi keep) i hperm
  · intro s hs
    exact hvalid i hi s (h2.subset (h1.mem_iff.mp hs))
  · refine (h1.pairwise_iff ?_).mpr ((hdisjoint i hi).sublist h2)
    rintro a b (h | h | h)
    · exact Or.inl fun h' => h h'.symm
    · exact Or.inr (Or.inr h)
    · exact Or.inr (Or.inl h)

/-- The batches of the join of a query that reads stored fields if the data points of all fields are read in the same order. -/
theorem join_of_order {env : Env ε} {w : World ε StoredSegment} (hbatch : 1 ≤ w.batchSize) {name : String}
    {qs : List Column} {bs : List ErrorBound} {gs : List (Option (Generated ε))} {m : Metadata ε} (hm : tryNew name qs bs gs = .ok m)
    (hunique : (qs.map (·.name)).Nodup) (hfree : ∀ tag ∈ tagNamesOf m, FreeName tag) {projection : List Nat}
    {plan : Plan ε} (hplan : planScan env w.hashOrder m projection = .ok plan) (hexec : plan.executable = true)
    (hfields : ∀ i ∈ plan.fields, i ∈ m.fieldIndices) {filters : List Expr} {parquet grid : Option Expr}
    (hfilters : planFilters m filters = .ok (parquet, grid)) (hrev : ∀ f ∈ filters, ¬ ReversedEquality m.schema f)
    (hfull : ∀ i ∈ m.fieldIndices,
      FullBatches pointsOf (grid.map fun e p => decide (e.eval w.interpretation (pointColumns m p) = .bool true)) w.batchSize
        (itemsOf (w.read (fun s => decide (Keeps w.interpretation parquet (segmentColumns w m s))) i)))
    {stored : Nat → List StoredSegment} (hreads : ∀ i ∈ m.fieldIndices, ReadsStoredSegments w i (stored i))
    (hvalid : ∀ i ∈ m.fieldIndices, ∀ s ∈ stored i, segmentOf.Valid s) {back sorted : List TableRow} (hperm : sorted.Perm back)
    (hline : InLine w m.fieldIndices sorted)
    (hpoints : ∀ i ∈ m.fieldIndices, back.map (TableRow.point i) = (stored i).flatMap pointsOf)
    (htags : ∀ row ∈ back, row.tags.length = m.tagIndices.length)
    (rows : TableRow → String → Value) (hrows : ∀ row ∈ back, ∀ i, RowOf m (row.point i) (rows row)) :
    ∃ (out : List (List (List Cell))) (returned : List TableRow) (n₀ : Nat),
      (∀ n, n₀ ≤ n → answer env w m projection filters n =
        .ok ⟨plan.result, out.map (finish (evaluateGenerated env w plan.joinSchema) plan), .finished⟩) ∧
      (∀ columns ∈ out, columns.length = plan.joinSchema.length ∧ ∃ n, ∀ c ∈ columns, c.length = n) ∧
      (out.flatMap rowsOfColumns).map (fun cells => cells.map some) =
        returned.map (fun row => plan.joinSchema.map fun c => storedCell m row c.name) ∧
      returned.Subperm back ∧
      (returned.filter fun row => Matches w.interpretation filters (rows row)).Perm
        (back.filter fun row => Matches w.interpretation filters (rows row)) := by
  have hc := consistent_of_tryNew hm
  have hlen : plan.order.length = plan.joinSchema.length := by
    simp only [Plan.executable, Bool.and_eq_true, decide_eq_true_eq] at hexec
    exact hexec.1
  obtain ⟨i₀, hi₀⟩ : ∃ i, i ∈ m.fieldIndices := by
    have hne : plan.fields ≠ [] := by
      obtain ⟨_, _, _, _, _, _, hpf⟩ := planScan_ok hplan
      rw [hpf]
      split
      · simp
      · rename_i h
        simpa [List.isEmpty_iff] using h
    obtain ⟨i, hi⟩ := List.exists_mem_of_ne_nil _ hne
    exact ⟨i, hfields i hi⟩
  have hseg := (hreads i₀ hi₀).segment
  obtain ⟨hkeepSeg, hgridSame⟩ := FilterOrder.grid_spec (σ := StoredSegment) hc w.interpretation hfilters hrev
  generalize hkeep : (fun s => decide (Keeps w.interpretation parquet (segmentColumns w m s))) = keep at hfull
  generalize hpred : (grid.map fun e (p : Point) => decide (e.eval w.interpretation (pointColumns m p) = .bool true)) = predicate at hfull
  -- The filter of data points as a filter of rows.
  obtain ⟨f, hf, hfk⟩ : ∃ f : Option (Int → List String → Bool), onPoints f = predicate ∧
      ∀ l : List Point, kept predicate l = l.filter fun p => decide (Keeps w.interpretation grid (pointColumns m p)) := by
    subst hpred
    refine ⟨grid.map fun e t tags => decide (e.eval w.interpretation (pointColumns m ⟨t, 0, tags⟩) = .bool true), ?_, ?_⟩
    · cases grid with
      | none => rfl
      | some e =>
        simp only [onPoints, Option.map_some, Option.some.injEq]
        funext p
        rw [decide_eq_decide]
        have h1 := hgridSame ⟨p.time, 0, p.tags⟩ p rfl rfl
        have h2 := hgridSame p ⟨p.time, 0, p.tags⟩ rfl rfl
        simp only [Keeps, Option.some.injEq, forall_eq'] at h1 h2
        exact ⟨h1, h2⟩
    · intro l
      cases grid with
      | none => simp [kept, Keeps]
      | some e => simp [kept, Keeps]
  have hst : Aligned m segmentOf.points f w.batchSize sorted (w.read keep) := by
    refine ⟨fun row hr => htags row (hperm.mem_iff.mp hr), fun i hi => (hreads i hi).neverFails keep, ?_, ?_⟩
    · intro i hi
      refine hline keep f i hi ?_
      obtain ⟨read, h1, h2, h3⟩ := (hreads i hi).contents keep
      rw [hf, hfk]
      refine (filter_between (points := pointsOf) h1 h2 h3 ?_).trans ?_
      · intro s hs p hp hq
        have htag : p.tags.length = m.tagIndices.length := by
          have : p ∈ (stored i).flatMap pointsOf := List.mem_flatMap.mpr ⟨s, hs, hp⟩
          rw [← hpoints i hi] at this
          obtain ⟨row, hr, rfl⟩ := List.mem_map.mp this
          exact htags row hr
        have := hkeepSeg segmentOf (w.rest s) s (hvalid i hi s hs) p hp htag (of_decide_eq_true hq)
        subst hkeep
        simp only [decide_eq_true_eq]
        unfold segmentColumns
        rw [hseg]
        exact this
      · rw [← hpoints i hi, ← hfk, ← hf, kept_onPoints]
        refine List.Perm.map _ ?_
        unfold keptRows
        split
        · exact hperm.symm.filter _
        · exact hperm.symm
    · intro i hi
      rw [hf]
      exact hfull i hi
  obtain ⟨out, ⟨n₀, hdrain⟩, h2⟩ := query_rows_aligned hm hunique hfree hplan hexec hfields segmentOf.points f w.batchSize hbatch sorted
    (w.read keep) hst
  have hkeptSub : (keptRows f sorted).Subperm back := by
    refine List.Subperm.trans (List.Sublist.subperm ?_) hperm.subperm
    unfold keptRows
    split
    · exact List.filter_sublist
    · exact List.Sublist.refl _
  refine ⟨out, keptRows f sorted, n₀, ?_, ?_, h2, hkeptSub, ?_⟩
  · intro n hn
    unfold answer
    simp only [hplan, hfilters, hkeep, hpred, hseg]
    show Except.ok (Answer.mk plan.result _ _) = _
    have := hdrain n hn
    rw [hf] at this
    unfold inputsOf at this
    rw [this]
    simp only [checkedBatches, if_pos hlen]
  · intro columns hcolumns
    have := drain_join_shape (hdrain n₀ (Nat.le_refl _)) columns hcolumns
    rwa [hlen] at this
  · have hmatch : ∀ row ∈ back, Matches w.interpretation filters (rows row) = true → ∀ g, f = some g → g row.time row.tags = true := by
      intro row hr hq g hg
      have hp : row.point i₀ ∈ (stored i₀).flatMap pointsOf := by
        rw [← hpoints i₀ hi₀]
        exact List.mem_map_of_mem hr
      obtain ⟨s, hs, hps⟩ := List.mem_flatMap.mp hp
      have := keeps_of_match hc w.interpretation hfilters hrev segmentOf (w.rest s) (hvalid i₀ hi₀ s hs) hps (hrows row hr i₀)
        (by simpa [Matches] using hq)
      have h3 : (row.point i₀) ∈ kept predicate [row.point i₀] := by
        rw [hfk]
        exact List.mem_filter.mpr ⟨by simp, decide_eq_true this.2⟩
      rw [← hf, hg] at h3
      simpa [onPoints, kept, TableRow.point] using h3
    refine List.Perm.trans (List.Perm.of_eq ?_) (hperm.filter _)
    unfold keptRows
    split
    · rename_i g
      rw [List.filter_filter]
      refine List.filter_congr fun row hr => ?_
      rw [Bool.eq_iff_iff, Bool.and_eq_true]
      exact ⟨fun h => h.1, fun h => ⟨h, hmatch row (hperm.mem_iff.mp hr) h g rfl⟩⟩
    · rfl

/-- The batches of the join of a query that reads stored fields. -/
theorem join_of_rows {env : Env ε} {w : World ε StoredSegment} (hbatch : 1 ≤ w.batchSize) {name : String}
    {qs : List Column} {bs : List ErrorBound} {gs : List (Option (Generated ε))} {m : Metadata ε} (hm : tryNew name qs bs gs = .ok m)
    (hunique : (qs.map (·.name)).Nodup) (hfree : ∀ tag ∈ tagNamesOf m, FreeName tag) {projection : List Nat}
    {plan : Plan ε} (hplan : planScan env w.hashOrder m projection = .ok plan) (hexec : plan.executable = true)
    (hfields : ∀ i ∈ plan.fields, i ∈ m.fieldIndices) {filters : List Expr} {parquet grid : Option Expr}
    (hfilters : planFilters m filters = .ok (parquet, grid)) (hrev : ∀ f ∈ filters, ¬ ReversedEquality m.schema f)
    (hfull : ∀ i ∈ m.fieldIndices,
      FullBatches pointsOf (grid.map fun e p => decide (e.eval w.interpretation (pointColumns m p) = .bool true)) w.batchSize
        (itemsOf (w.read (fun s => decide (Keeps w.interpretation parquet (segmentColumns w m s))) i)))
    {lt : List String → List String → Prop} (hlt : StrictOrder lt) {stored : Nat → List StoredSegment}
    (hreads : ReadsSortedSegments w lt m.fieldIndices stored) (hvalid : ∀ i ∈ m.fieldIndices, ∀ s ∈ stored i, segmentOf.Valid s)
    (hdisjoint : ∀ i ∈ m.fieldIndices, segmentOf.Disjoint (stored i)) {back : List TableRow}
    (hpoints : ∀ i ∈ m.fieldIndices, back.map (TableRow.point i) = (stored i).flatMap pointsOf)
    (hkeys : (back.map fun row => (row.tags, row.time)).Nodup) (htags : ∀ row ∈ back, row.tags.length = m.tagIndices.length)
    (rows : TableRow → String → Value) (hrows : ∀ row ∈ back, ∀ i, RowOf m (row.point i) (rows row)) :
    ∃ (out : List (List (List Cell))) (returned : List TableRow) (n₀ : Nat),
      (∀ n, n₀ ≤ n → answer env w m projection filters n =
        .ok ⟨plan.result, out.map (finish (evaluateGenerated env w plan.joinSchema) plan), .finished⟩) ∧
      (∀ columns ∈ out, columns.length = plan.joinSchema.length ∧ ∃ n, ∀ c ∈ columns, c.length = n) ∧
      (out.flatMap rowsOfColumns).map (fun cells => cells.map some) =
        returned.map (fun row => plan.joinSchema.map fun c => storedCell m row c.name) ∧
      returned.Subperm back ∧
      (returned.filter fun row => Matches w.interpretation filters (rows row)).Perm
        (back.filter fun row => Matches w.interpretation filters (rows row)) := by
  obtain ⟨sorted, hperm, hsorted⟩ := exists_sorted hlt back hkeys
  exact join_of_order hbatch hm hunique hfree hplan hexec hfields hfilters hrev hfull hreads.stored hvalid hperm
    (inLine_of_sorted hlt hreads hvalid hdisjoint hsorted) hpoints htags rows hrows

/-- The answer of a query that reads stored fields and no generated columns if the data points of all fields are read in the same order.
-/
theorem answer_of_order {env : Env ε} {w : World ε StoredSegment} (horder : AnyOrder w.hashOrder) (hbatch : 1 ≤ w.batchSize) {name : String}
    {qs : List Column} {bs : List ErrorBound} {gs : List (Option (Generated ε))} {m : Metadata ε} (hm : tryNew name qs bs gs = .ok m)
    (hunique : (qs.map (·.name)).Nodup) (hfree : ∀ tag ∈ tagNamesOf m, FreeName tag) {projection : List Nat} (hne : projection ≠ [])
    (hstored : ∀ i ∈ projection, m.generated[i]? = some none) {plan : Plan ε} (hplan : planScan env w.hashOrder m projection = .ok plan)
    (hfields : ∀ i ∈ plan.fields, i ∈ m.fieldIndices) {filters : List Expr} {parquet grid : Option Expr}
    (hfilters : planFilters m filters = .ok (parquet, grid)) (hrev : ∀ f ∈ filters, ¬ ReversedEquality m.schema f)
    (hfull : ∀ i ∈ m.fieldIndices,
      FullBatches pointsOf (grid.map fun e p => decide (e.eval w.interpretation (pointColumns m p) = .bool true)) w.batchSize
        (itemsOf (w.read (fun s => decide (Keeps w.interpretation parquet (segmentColumns w m s))) i)))
    {stored : Nat → List StoredSegment} (hreads : ∀ i ∈ m.fieldIndices, ReadsStoredSegments w i (stored i))
    (hvalid : ∀ i ∈ m.fieldIndices, ∀ s ∈ stored i, segmentOf.Valid s) {back sorted : List TableRow} (hperm : sorted.Perm back)
    (hline : InLine w m.fieldIndices sorted)
    (hpoints : ∀ i ∈ m.fieldIndices, back.map (TableRow.point i) = (stored i).flatMap pointsOf)
    (htags : ∀ row ∈ back, row.tags.length = m.tagIndices.length)
    (rows : TableRow → String → Value) (hrows : ∀ row ∈ back, ∀ i, RowOf m (row.point i) (rows row)) :
    ∃ (batches : List (List (List Cell))) (returned : List TableRow) (n₀ : Nat),
      (∀ n, n₀ ≤ n → answer env w m projection filters n = .ok ⟨plan.result, batches.map .ok, .finished⟩) ∧
      (batches.flatMap rowsOfColumns).map (fun cells => cells.map some) =
        returned.map (fun row => plan.result.map fun c => storedCell m row c.name) ∧
      returned.Subperm back ∧
      (returned.filter fun row => Matches w.interpretation filters (rows row)).Perm
        (back.filter fun row => Matches w.interpretation filters (rows row)) := by
  obtain ⟨hgen, hresult, hexec⟩ := stored_plan horder hm hunique hne hstored hplan
  obtain ⟨out, returned, n₀, a1, _, a3, a4, a5⟩ := join_of_order hbatch hm hunique hfree hplan hexec hfields hfilters hrev hfull hreads hvalid
    hperm hline hpoints htags rows hrows
  refine ⟨out, returned, n₀, fun n hn => ?_, by rw [a3, hresult], a4, a5⟩
  rw [a1 n hn]
  congr 2
  refine List.map_congr_left fun b _ => ?_
  unfold finish
  rw [hgen]
  rfl

/-- The answer of a query that reads stored fields and no generated columns. -/
theorem answer_of_rows {env : Env ε} {w : World ε StoredSegment} (horder : AnyOrder w.hashOrder) (hbatch : 1 ≤ w.batchSize) {name : String}
    {qs : List Column} {bs : List ErrorBound} {gs : List (Option (Generated ε))} {m : Metadata ε} (hm : tryNew name qs bs gs = .ok m)
    (hunique : (qs.map (·.name)).Nodup) (hfree : ∀ tag ∈ tagNamesOf m, FreeName tag) {projection : List Nat} (hne : projection ≠ [])
    (hstored : ∀ i ∈ projection, m.generated[i]? = some none) {plan : Plan ε} (hplan : planScan env w.hashOrder m projection = .ok plan)
    (hfields : ∀ i ∈ plan.fields, i ∈ m.fieldIndices) {filters : List Expr} {parquet grid : Option Expr}
    (hfilters : planFilters m filters = .ok (parquet, grid)) (hrev : ∀ f ∈ filters, ¬ ReversedEquality m.schema f)
    (hfull : ∀ i ∈ m.fieldIndices,
      FullBatches pointsOf (grid.map fun e p => decide (e.eval w.interpretation (pointColumns m p) = .bool true)) w.batchSize
        (itemsOf (w.read (fun s => decide (Keeps w.interpretation parquet (segmentColumns w m s))) i)))
    {lt : List String → List String → Prop} (hlt : StrictOrder lt) {stored : Nat → List StoredSegment}
    (hreads : ReadsSortedSegments w lt m.fieldIndices stored) (hvalid : ∀ i ∈ m.fieldIndices, ∀ s ∈ stored i, segmentOf.Valid s)
    (hdisjoint : ∀ i ∈ m.fieldIndices, segmentOf.Disjoint (stored i)) {back : List TableRow}
    (hpoints : ∀ i ∈ m.fieldIndices, back.map (TableRow.point i) = (stored i).flatMap pointsOf)
    (hkeys : (back.map fun row => (row.tags, row.time)).Nodup) (htags : ∀ row ∈ back, row.tags.length = m.tagIndices.length)
    (rows : TableRow → String → Value) (hrows : ∀ row ∈ back, ∀ i, RowOf m (row.point i) (rows row)) :
    ∃ (batches : List (List (List Cell))) (returned : List TableRow) (n₀ : Nat),
      (∀ n, n₀ ≤ n → answer env w m projection filters n = .ok ⟨plan.result, batches.map .ok, .finished⟩) ∧
      (batches.flatMap rowsOfColumns).map (fun cells => cells.map some) =
        returned.map (fun row => plan.result.map fun c => storedCell m row c.name) ∧
      returned.Subperm back ∧
      (returned.filter fun row => Matches w.interpretation filters (rows row)).Perm
        (back.filter fun row => Matches w.interpretation filters (rows row)) := by
  obtain ⟨sorted, hperm, hsorted⟩ := exists_sorted hlt back hkeys
  exact answer_of_order horder hbatch hm hunique hfree hne hstored hplan hfields hfilters hrev hfull hreads.stored hvalid hperm
    (inLine_of_sorted hlt hreads hvalid hdisjoint hsorted) hpoints htags rows hrows

end ModelarDB.Lemmas.EndToEnd
