import Verif.Lemmas.Aggregates
import Verif.Lemmas.QueryStream
import Verif.Lemmas.StorageFlush
import Verif.Spec.EndToEnd
import Verif.Props.C09
import Verif.Props.C22
import Verif.Props.C23
import Verif.Props.C34
import Verif.Props.C57
/-
Lemmas for ingesting rows and querying them.
-/
namespace ModelarDB.Lemmas.EndToEnd
open Model Model.Query Model.StoredTable Spec Spec.Storage Lemmas

/-! ### The storage engine -/

variable {α : Type}

open Model.Storage in
/-- What is known of the segments that were saved. -/
theorem saved_spec {env : Storage.Env α} (hs : Sorts env) (hcap : 2 ≤ env.capacity) {i u c : Nat} {ops : List (Storage.Op α)}
    (hio : ∀ op ∈ ops, Op.ioOk op) {e : Engine α} (hrun : (Engine.new i u c).run env ops = some e) (hg : Good env e.received) :
    (savedRows e).Subperm e.received ∧ ∀ x ∈ e.c.saved, x.points ≠ [] ∧ x.points.length ≤ env.capacity ∧
      StrictlyIncreasing (x.points.map Prod.fst) := by
  have hperm := Props.C22_exact_partial hs hcap hio hrun hg
  have hsub : (savedRows e).Subperm e.received := by
    refine List.Subperm.trans (List.Sublist.subperm ?_) hperm.subperm
    unfold allRows
    simp only [List.append_assoc]
    exact List.sublist_append_left _ _
  refine ⟨hsub, fun x hx => ?_⟩
  have h := Lemmas.Storage.inv_run hs hcap ops hio (fun _ => Lemmas.Storage.inv_new i u c) hrun hg
  have hok := h.chunks x (by simp [Lemmas.Storage.chunksOf, hx])
  refine ⟨hok.nonempty, hok.len, ?_⟩
  have hnodup : ((savedRows e).map key).Nodup := by
    obtain ⟨l, h1, h2⟩ := hsub
    exact ((h1.map key).nodup_iff).mp (hg.keys.sublist (h2.map key))
  have hx' : ((chunkRows x).map key).Nodup := by
    refine hnodup.sublist (List.Sublist.map _ ?_)
    obtain ⟨s, t, hst⟩ := List.append_of_mem hx
    unfold savedRows
    rw [hst, List.flatMap_append, List.flatMap_cons]
    exact (List.sublist_append_left _ _).trans (List.sublist_append_right _ _)
  have hts : (x.points.map Prod.fst).Nodup := by
    have : (chunkRows x).map key = (x.points.map Prod.fst).map fun t => (x.table, x.tags, t) := by
      simp [chunkRows, rowsOf, key, Function.comp_def]
    rw [this] at hx'
    exact hx'.of_map _
  unfold StrictlyIncreasing
  have hsorted : (x.points.map Prod.fst).Pairwise (· ≤ ·) := List.pairwise_map.mpr hok.sorted
  exact (hsorted.and hts).imp fun h => lt_of_le_of_ne h.1 h.2

/-! ### The segments -/

theorem gridAll_cons {s : Segment} {l : List Segment} {ts : List Int} {vs : List Nat} (h : gridAll (s :: l) = some (ts, vs)) :
    ∃ t v t' v', grid s = some (t, v) ∧ gridAll l = some (t', v') ∧ ts = t ++ t' ∧ vs = v ++ v' := by
  rw [gridAll, List.foldr_cons] at h
  split at h
  · rename_i a t v t' v' h1 h2
    simp only [Option.some.injEq, Prod.mk.injEq] at h
    exact ⟨t, v, t', v', h1, h2, h.1.symm, h.2.symm⟩
  · cases h

/-- The data points of the segments of a series. -/
theorem points_of_gridAll (tags : List String) : ∀ {l : List Segment} {ts : List Int} {vs : List Nat}, gridAll l = some (ts, vs) →
    (l.map fun s => (tags, s)).flatMap pointsOf = List.zipWith (fun t v => ⟨t, v, tags⟩) ts vs
  | [], ts, vs, h => by
    simp only [gridAll, List.foldr_nil, Option.some.injEq, Prod.mk.injEq] at h
    obtain ⟨rfl, rfl⟩ := h
    rfl
  | s :: l, ts, vs, h => by
    obtain ⟨t, v, t', v', h1, h2, rfl, rfl⟩ := gridAll_cons h
    rw [List.map_cons, List.flatMap_cons, points_of_gridAll tags h2, List.zipWith_append (by rw [(grid_length h1).2])]
    congr 1
    simp only [pointsOf, h1]

/-- A segment that stores a part of a series is valid. -/
theorem valid_of_part {s : Segment} {part : List Int} (h : Props.StoresPart s part) (hinc : StrictlyIncreasing part) (tags : List String) :
    segmentOf.Valid (tags, s) := by
  obtain ⟨hne, hstart, hend, hts, _, _⟩ := h
  obtain ⟨a, rest, rfl⟩ := List.exists_cons_of_ne_nil hne
  have hle : ∀ t ∈ a :: rest, a ≤ t ∧ t ≤ (a :: rest).getLastD 0 := by
    intro t ht
    constructor
    · rcases List.mem_cons.mp ht with rfl | ht
      · exact le_refl _
      · exact le_of_lt ((List.pairwise_cons.mp hinc).1 t ht)
    · rw [List.getLastD_eq_getLast?, List.getLast?_eq_some_getLast hne, Option.getD_some]
      have := hinc.imp (S := (· ≤ ·)) le_of_lt
      rw [← List.dropLast_append_getLast hne] at this ht
      rw [List.pairwise_append] at this
      rcases List.mem_append.mp ht with ht | ht
      · exact this.2.2 t ht _ (by simp)
      · rw [List.mem_singleton.mp ht]
  have hpoints : ∀ p ∈ pointsOf (tags, s), p.tags = tags ∧ p.time ∈ a :: rest := by
    intro p hp
    unfold pointsOf at hp
    split at hp
    · rename_i ts vs hg
      have h1 := (grid_length hg).1
      rw [hts] at h1
      cases h1
      obtain ⟨i, hi, rfl⟩ := List.getElem_of_mem hp
      rw [List.getElem_zipWith]
      exact ⟨rfl, List.getElem_mem _⟩
    · cases hp
  refine ⟨fun p hp => (hpoints p hp).1, fun p hp => ?_, ?_, ?_⟩
  · have := hle _ (hpoints p hp).2
    exact ⟨by show s.startTime ≤ _; rw [hstart]; exact this.1, by show _ ≤ s.endTime; rw [hend]; exact this.2⟩
  · show (pointsOf (tags, s)).Pairwise _
    unfold pointsOf
    split
    · rename_i ts vs hg
      have h1 := (grid_length hg).1
      rw [hts] at h1
      cases h1
      rw [List.pairwise_iff_getElem]
      intro i j hi hj hij
      rw [List.getElem_zipWith, List.getElem_zipWith]
      exact List.pairwise_iff_getElem.mp hinc i j _ _ hij
    · exact .nil
  · show s.startTime ≤ s.endTime
    rw [hstart, hend]
    exact (hle a (by simp)).2

/-- What is stored for the data points of a buffer. -/
structure ChunkStored (value : α → Nat → Nat) (field : Nat) (R : Nat → Nat → Prop) (chunk : Storage.Chunk α) (l : List StoredSegment) : Prop where
  valid : ∀ s ∈ l, segmentOf.Valid s
  points : List.Forall₂ (ReadFor value field R) (chunkRows chunk) (l.flatMap pointsOf)
  ordered : l.Pairwise fun a b => a.2.endTime < b.2.startTime
  within : ∀ s ∈ l, s.1 = chunk.tags ∧ s.2.startTime ∈ chunk.points.map Prod.fst ∧ s.2.endTime ∈ chunk.points.map Prod.fst

/-- The parts of a series follow each other in time. -/
theorem parts_ordered {segments : List Segment} {parts : List (List Int)} (h : List.Forall₂ Props.StoresPart segments parts)
    (hinc : StrictlyIncreasing parts.flatten) (tags : List String) :
    ((segments.map fun s => (tags, s)).Pairwise fun a b => a.2.endTime < b.2.startTime) ∧
      ∀ s ∈ segments, s.startTime ∈ parts.flatten ∧ s.endTime ∈ parts.flatten := by
  have hends : ∀ {s : Segment} {part : List Int}, Props.StoresPart s part → s.startTime ∈ part ∧ s.endTime ∈ part := by
    rintro s part ⟨hne, h1, h2, _⟩
    obtain ⟨a, l, rfl⟩ := List.exists_cons_of_ne_nil hne
    refine ⟨by rw [h1]; simp, ?_⟩
    rw [h2, List.getLastD_eq_getLast?, List.getLast?_eq_some_getLast hne, Option.getD_some]
    exact List.getLast_mem hne
  induction h with
  | nil => exact ⟨.nil, by simp⟩
  | cons hs _ ih =>
    unfold StrictlyIncreasing at hinc
    rw [List.flatten_cons, List.pairwise_append] at hinc
    obtain ⟨ih1, ih2⟩ := ih hinc.2.1
    refine ⟨?_, ?_⟩
    · rw [List.map_cons, List.pairwise_cons]
      refine ⟨?_, ih1⟩
      intro b hb
      obtain ⟨b, hb', rfl⟩ := List.mem_map.mp hb
      exact hinc.2.2 _ (hends hs).2 _ (ih2 b hb').1
    · intro s' hs'
      rw [List.flatten_cons, List.mem_append, List.mem_append]
      rcases List.mem_cons.mp hs' with rfl | hs'
      · exact ⟨Or.inl (hends hs).1, Or.inl (hends hs).2⟩
      · exact ⟨Or.inr (ih2 s' hs').1, Or.inr (ih2 s' hs').2⟩

theorem compressField_spec {ε : Type} {log2 : Log2} {m : TableDefinition.Metadata ε} {value : α → Nat → Nat} {field : Nat} {eb : ErrorBound}
    (heb : m.errorBounds[field]? = some eb) {R : Nat → Nat → Prop} {chunk : Storage.Chunk α} (hne : chunk.points ≠ [])
    (hinc : StrictlyIncreasing (chunk.points.map Prod.fst)) (hsize : chunk.points.length < 2 ^ 63)
    (hrange : ∀ p ∈ chunk.points, IsI64 p.1)
    (hread : ∃ segments ws, tryCompressUnivariate log2 eb (chunk.points.map Prod.fst) (chunk.points.map fun p => value p.2 field) =
      .segments segments ∧ gridAll segments = some (chunk.points.map Prod.fst, ws) ∧
      List.Forall₂ R (chunk.points.map fun p => value p.2 field) ws) :
    ∃ l, compressField log2 m value field chunk = some l ∧ ChunkStored value field R chunk l := by
  obtain ⟨segments, ws, h1, h2, h3⟩ := hread
  obtain ⟨segments', parts, h4, h5, h6⟩ := Props.C09_compression_partitions_series log2 eb (chunk.points.map Prod.fst)
    (chunk.points.map fun p => value p.2 field) (by simp) (by simpa using hne)
    (by intro t ht; obtain ⟨p, hp, rfl⟩ := List.mem_map.mp ht; exact hrange p hp) hinc (by simpa using hsize)
  rw [h1] at h4
  cases h4
  obtain ⟨h7, h8⟩ := parts_ordered h6 (by rw [h5]; exact hinc) chunk.tags
  refine ⟨segments.map fun s => (chunk.tags, s), ?_, ?_, ?_, h7, ?_⟩
  · unfold compressField
    rw [heb]
    simp only [h1]
  · intro s hs
    obtain ⟨s, hs', rfl⟩ := List.mem_map.mp hs
    obtain ⟨i, hi, rfl⟩ := List.getElem_of_mem hs'
    have hi' : i < parts.length := by rw [← h6.length_eq]; exact hi
    refine valid_of_part (List.forall₂_iff_get.mp h6 |>.2 i hi hi') ?_ _
    refine List.Pairwise.sublist (List.sublist_flatten_of_mem (List.getElem_mem hi')) ?_
    rw [h5]
    exact hinc
  · rw [points_of_gridAll _ h2]
    have hlen := h3.length_eq
    clear h1 h2 hinc hsize hrange hne h5 h6 h7 h8
    revert hlen h3
    unfold chunkRows rowsOf
    generalize chunk.points = l
    induction l generalizing ws with
    | nil => intro _ _; exact .nil
    | cons p l ih =>
      intro h3 hlen
      cases h3 with
      | cons h h3 => exact .cons ⟨rfl, rfl, h⟩ (ih _ h3 h3.length_eq)
  · intro s hs
    obtain ⟨s, hs', rfl⟩ := List.mem_map.mp hs
    rw [← h5]
    exact ⟨rfl, h8 s hs'⟩

theorem storedSegments_spec {ε : Type} {log2 : Log2} {m : TableDefinition.Metadata ε} {value : α → Nat → Nat} {field : Nat}
    (hfield : field ∈ m.fieldIndices) {R : Nat → Nat → Prop} {saved : List (Storage.Chunk α)}
    (h : ∀ c ∈ saved, c.table = m.name → ∃ l, compressField log2 m value field c = some l ∧ ChunkStored value field R c l) :
    ∃ stored, storedSegments log2 m value field saved = some stored ∧ (∀ s ∈ stored, segmentOf.Valid s) ∧
      List.Forall₂ (ReadFor value field R) (rowsOfTable m.name (saved.flatMap chunkRows)) (stored.flatMap pointsOf) := by
  unfold storedSegments
  rw [if_pos hfield]
  induction saved with
  | nil => exact ⟨[], rfl, by simp, .nil⟩
  | cons c saved ih =>
    obtain ⟨stored, h1, h2, h3⟩ := ih fun x hx => h x (List.mem_cons_of_mem _ hx)
    have hrows : rowsOfTable m.name ((c :: saved).flatMap chunkRows) =
        (if c.table = m.name then chunkRows c else []) ++ rowsOfTable m.name (saved.flatMap chunkRows) := by
      unfold rowsOfTable
      rw [List.flatMap_cons, List.filter_append]
      congr 1
      split
      · rename_i ht
        rw [List.filter_eq_self]
        intro r hr
        simp only [chunkRows, rowsOf, List.mem_map] at hr
        obtain ⟨p, _, rfl⟩ := hr
        simpa using ht
      · rename_i ht
        rw [List.filter_eq_nil_iff]
        intro r hr
        simp only [chunkRows, rowsOf, List.mem_map] at hr
        obtain ⟨p, _, rfl⟩ := hr
        simpa using ht
    rw [hrows]
    obtain ⟨ls, hls, rfl⟩ := Option.map_eq_some_iff.mp h1
    by_cases ht : c.table = m.name
    · obtain ⟨l, h4, h5⟩ := h c (by simp) ht
      refine ⟨l ++ ls.flatten, ?_, ?_, ?_⟩
      · rw [List.filter_cons_of_pos (by simpa using ht), List.mapM_cons, h4, hls]
        rfl
      · intro s hs
        rcases List.mem_append.mp hs with hs | hs
        · exact h5.valid s hs
        · exact h2 s hs
      · rw [if_pos ht, List.flatMap_append]
        exact List.rel_append h5.points h3
    · refine ⟨ls.flatten, ?_, h2, ?_⟩
      · rw [List.filter_cons_of_neg (by simpa using ht), hls]
        rfl
      · rw [if_neg ht]
        exact h3

/-! ### The query -/

/-- Reading one field: the join returns a row for each data point that is kept. -/
theorem one_field {σ : Type} (points : σ → List Point) (predicate : Option (Point → Bool)) (batchSize : Nat) (hbatch : 1 ≤ batchSize)
    (tagNames : List String) (order : List JoinColumn) (field : Nat) (ha : Answerable tagNames order [field]) (events : List (Event (List σ)))
    (hok : NeverFails events)
    (htags : ∀ p ∈ kept predicate ((itemsOf events).flatten.flatMap points), p.tags.length = tagNames.length) :
    ∃ out, ReadsAs (pollJoin tagNames order (pollGrid points predicate batchSize pollEvents)) [(none, .new events)] out ∧
      (out.flatMap rowsOfColumns).map some =
        (kept predicate ((itemsOf events).flatten.flatMap points)).map fun p => cellsOf tagNames (rowOfPoint p) order [field] := by
  obtain ⟨k, items, hy, hf, _⟩ := grid_yields points predicate _ hbatch events hok (.new events) rfl (by cases predicate <;> rfl)
  have hf : items.flatten = kept predicate ((itemsOf events).flatten.flatMap points) := hf
  have hmap : (items.map (List.map rowOfPoint)).map (List.map (TableRow.point field)) = items := by
    rw [List.map_map]
    conv_rhs => rw [← List.map_id items]
    refine List.map_congr_left fun b _ => ?_
    rw [Function.comp_apply, List.map_map]
    conv_rhs => rw [id_eq, ← List.map_id b]
    exact List.map_congr_left fun p _ => rfl
  have hflat : (items.map (List.map rowOfPoint)).flatten = (kept predicate ((itemsOf events).flatten.flatMap points)).map rowOfPoint := by
    rw [← hf, List.map_flatten]
  obtain ⟨out, h1, h2⟩ := join_reads ha (items.map (List.map rowOfPoint))
    (by
      rw [hflat]
      intro row hr
      obtain ⟨p, hp, rfl⟩ := List.mem_map.mp hr
      exact htags p hp)
    [(none, GridStream.new events)] [(k, items)] [0] rfl (.cons (.none hy) .nil)
    (by simp only [List.map_cons, List.map_nil, List.zipWith_cons_cons, List.zipWith_nil_left, itemsFor, List.replicate_zero, List.append_nil,
      hmap])
  refine ⟨out, h1, ?_⟩
  rw [h2, hflat, List.map_map]
  rfl

theorem sublist_flatMap {σ τ : Type} {l l' : List σ} (h : l.Sublist l') (f : σ → List τ) : (l.flatMap f).Sublist (l'.flatMap f) := by
  induction h with
  | slnil => exact List.Sublist.refl _
  | cons a _ ih =>
    rw [List.flatMap_cons]
    exact ih.trans (List.sublist_append_right _ _)
  | cons_cons a _ ih =>
    rw [List.flatMap_cons, List.flatMap_cons]
    exact (List.Sublist.refl _).append ih

/-- A part of the segments is read that has all segments with data points that match. -/
theorem filter_between {σ : Type} {points : σ → List Point} {keep : σ → Bool} {q : Point → Bool} {stored read items : List σ}
    (hperm : items.Perm read) (h1 : read.Sublist stored) (h2 : (stored.filter keep).Sublist read)
    (hkeep : ∀ s ∈ stored, ∀ p ∈ points s, q p = true → keep s = true) :
    ((items.flatMap points).filter q).Perm ((stored.flatMap points).filter q) := by
  refine ((hperm.flatMap_right points).filter q).trans (List.Perm.of_eq ?_)
  have hall : ((stored.filter keep).flatMap points).filter q = (stored.flatMap points).filter q := by
    clear h1 h2
    induction stored with
    | nil => rfl
    | cons s stored ih =>
      have ih := ih fun s' hs' => hkeep s' (List.mem_cons_of_mem _ hs')
      rw [List.flatMap_cons, List.filter_append, ← ih]
      by_cases hk : keep s = true
      · rw [List.filter_cons_of_pos hk, List.flatMap_cons, List.filter_append]
      · rw [List.filter_cons_of_neg hk]
        have : (points s).filter q = [] := by
          rw [List.filter_eq_nil_iff]
          exact fun p hp hq => hk (hkeep s (by simp) p hp hq)
        rw [this, List.nil_append]
  have s1 : ((read.flatMap points).filter q).Sublist ((stored.flatMap points).filter q) := (sublist_flatMap h1 points).filter q
  have s2 : (((stored.filter keep).flatMap points).filter q).Sublist ((read.flatMap points).filter q) := (sublist_flatMap h2 points).filter q
  rw [hall] at s2
  exact s1.eq_of_length_le s2.length_le

open TableDefinition Props

/-- The plan of a query for stored columns can be executed, returns the columns of the join and generates no columns. -/
theorem stored_plan {ε σ : Type} {env : Env ε} {w : World ε σ} (horder : AnyOrder w.hashOrder) {name : String}
    {qs : List Column} {bs : List ErrorBound} {gs : List (Option (Generated ε))} {m : Metadata ε} (hm : tryNew name qs bs gs = .ok m)
    (hunique : (qs.map (·.name)).Nodup) {projection : List Nat} (hne : projection ≠ [])
    (hstored : ∀ i ∈ projection, m.generated[i]? = some none) {plan : Plan ε} (hplan : planScan env w.hashOrder m projection = .ok plan) :
    plan.generate = [] ∧ plan.joinSchema = plan.result ∧ plan.executable = true := by
  obtain ⟨fallback, fields, hres, hjoin, hcols, _, hpf⟩ := planScan_ok hplan
  have hmq : m.querySchema = qs := by obtain ⟨_, _, _, _, _, _, _, h8⟩ := tryNew_ok.mp hm; rw [h8]
  have hmg : m.generated = gs := by obtain ⟨_, _, _, _, _, _, _, h8⟩ := tryNew_ok.mp hm; rw [h8]
  have hc := consistent_of_tryNew hm
  have hc' := hc
  have hn := schema_nodup hc hunique
  rw [← hmq, ← hmg] at hc
  have hsources : addSources projection (w.hashOrder (sourcesOf m projection)) = projection := by
    have h1 : sourcesOf m projection = [] := by
      unfold sourcesOf
      rw [List.flatMap_eq_nil_iff]
      intro i hi
      rw [hstored i hi]
    have h2 : w.hashOrder [] = [] := by
      rw [List.eq_nil_iff_forall_not_mem]
      intro i hi
      exact absurd ((horder _ _).mp hi) (by simp)
    rw [h1, h2]
    rfl
  rw [hsources] at hcols hjoin
  have hgf : GeneratedFieldsIn m projection := by
    intro i hi g c hg
    rw [hstored i hi] at hg
    cases hg
  have hvalidIdx := (planColumns_generate hgf hcols).2.1
  have hstoredOf : storedOf m projection = projection := by
    unfold storedOf
    rw [List.filter_eq_self]
    intro i hi
    unfold isGen
    rw [hstored i hi]
    rfl
  have hgen : plan.generate = [] := by
    rw [(planColumns_generate hgf hcols).1]
    have : ∀ (l : List Nat) (k : Nat), (∀ i ∈ l, m.generated[i]? = some none) → genList m k l = [] := by
      intro l
      induction l with
      | nil => intro _ _; rfl
      | cons i l ih =>
        intro k h
        rw [genList, h i (by simp)]
        exact ih _ fun j hj => h j (List.mem_cons_of_mem _ hj)
    exact this _ _ hstored
  have hresult : plan.joinSchema = plan.result := by
    rw [hjoin, joinSchema_eq hvalidIdx, hstoredOf]
    have := mapM_option_eq_some.mp hres
    have : ∀ (l : List Nat) (r : List Column), (l.map fun i => m.querySchema[i]?) = r.map some → (l.filterMap fun i => m.querySchema[i]?) = r := by
      intro l
      induction l with
      | nil => intro r h; cases r <;> simp at h ⊢
      | cons i l ih =>
        intro r h
        cases r with
        | nil => simp at h
        | cons c r =>
          simp only [List.map_cons, List.cons.injEq] at h
          rw [List.filterMap_cons_some (b := c) h.1, ih r h.2]
    exact this _ _ (mapM_option_eq_some.mp hres)
  obtain ⟨i, hi⟩ := List.exists_mem_of_ne_nil _ hne
  exact ⟨hgen, hresult, (planScan_executable horder hm hunique hplan).mpr ⟨hgf, i, hi, Or.inl (hstored i hi)⟩⟩

/-- The answer of a query that reads one field and no generated columns. -/
theorem answer_of_stored {ε : Type} {env : Env ε} {w : World ε StoredSegment} (horder : AnyOrder w.hashOrder) (hbatch : 1 ≤ w.batchSize) {name : String}
    {qs : List Column} {bs : List ErrorBound} {gs : List (Option (Generated ε))} {m : Metadata ε} (hm : tryNew name qs bs gs = .ok m)
    (hunique : (qs.map (·.name)).Nodup) (hfree : ∀ tag ∈ tagNamesOf m, FreeName tag) {projection : List Nat} (hne : projection ≠ [])
    (hstored : ∀ i ∈ projection, m.generated[i]? = some none) {plan : Plan ε} (hplan : planScan env w.hashOrder m projection = .ok plan)
    {field : Nat} (hfield : plan.fields = [field]) {filters : List Expr} {parquet grid : Option Expr}
    (hfilters : planFilters m filters = .ok (parquet, grid)) (hrev : ∀ f ∈ filters, ¬ ReversedEquality m.schema f)
    {stored : List StoredSegment} (hvalid : ∀ s ∈ stored, segmentOf.Valid s)
    (htags : ∀ p ∈ stored.flatMap pointsOf, p.tags.length = m.tagIndices.length) (hreads : ReadsStoredSegments w field stored)
    (rows : Point → String → Value) (hrows : ∀ p ∈ stored.flatMap pointsOf, RowOf m p (rows p)) :
    ∃ (batches : List (List (List Cell))) (returned : List Point) (n₀ : Nat),
      (∀ n, n₀ ≤ n → answer env w m projection filters n = .ok ⟨plan.result, batches.map .ok, .finished⟩) ∧
      (batches.flatMap rowsOfColumns).map (fun cells => cells.map some) =
        returned.map (fun p => plan.result.map fun c => storedCell m (rowOfPoint p) c.name) ∧
      returned.Subperm (stored.flatMap pointsOf) ∧
      (returned.filter fun p => filters.all fun f => f.eval w.interpretation (rows p) = .bool true).Perm
        ((stored.flatMap pointsOf).filter fun p => filters.all fun f => f.eval w.interpretation (rows p) = .bool true) := by
  obtain ⟨fallback, fields, hres, hjoin, hcols, _, hpf⟩ := planScan_ok hplan
  have hmq : m.querySchema = qs := by obtain ⟨_, _, _, _, _, _, _, h8⟩ := tryNew_ok.mp hm; rw [h8]
  have hmg : m.generated = gs := by obtain ⟨_, _, _, _, _, _, _, h8⟩ := tryNew_ok.mp hm; rw [h8]
  have hc := consistent_of_tryNew hm
  have hc' := hc
  have hn := schema_nodup hc hunique
  rw [← hmq, ← hmg] at hc
  have hsources : addSources projection (w.hashOrder (sourcesOf m projection)) = projection := by
    have h1 : sourcesOf m projection = [] := by
      unfold sourcesOf
      rw [List.flatMap_eq_nil_iff]
      intro i hi
      rw [hstored i hi]
    have h2 : w.hashOrder [] = [] := by
      rw [List.eq_nil_iff_forall_not_mem]
      intro i hi
      exact absurd ((horder _ _).mp hi) (by simp)
    rw [h1, h2]
    rfl
  rw [hsources] at hcols hjoin
  have hgf : GeneratedFieldsIn m projection := by
    intro i hi g c hg
    rw [hstored i hi] at hg
    cases hg
  have hvalidIdx := (planColumns_generate hgf hcols).2.1
  have hstoredOf : storedOf m projection = projection := by
    unfold storedOf
    rw [List.filter_eq_self]
    intro i hi
    unfold isGen
    rw [hstored i hi]
    rfl
  obtain ⟨hgen, hresult, hexec⟩ := stored_plan horder hm hunique hne hstored hplan
  have hlen : plan.order.length = plan.joinSchema.length := by
    simp only [Plan.executable, Bool.and_eq_true, decide_eq_true_eq] at hexec
    exact hexec.1
  obtain ⟨ha1, ha2, _, _⟩ := planColumns_answerable hc hn hgf hcols
  have hextra : ∃ extra, plan.fields = fields ++ extra := by
    rw [hpf]
    split
    · rename_i h
      rw [List.isEmpty_iff] at h
      exact ⟨[fallback], by rw [h]; rfl⟩
    · exact ⟨[], by simp⟩
  obtain ⟨extra, hextra⟩ := hextra
  have hans : Answerable (tagNamesOf m) plan.order [field] := by
    refine ⟨?_, by simp, fun tag htag => ⟨ha1 tag htag, hfree tag (ha1 tag htag)⟩, ?_⟩
    · intro h
      rw [h, hresult] at hlen
      have h2 := congrArg List.length (mapM_option_eq_some.mp hres)
      simp only [List.length_map] at h2
      exact hne (List.eq_nil_of_length_eq_zero (by rw [h2, ← hlen]; rfl))
    · rw [ha2, ← hfield, hextra, List.length_append]
      omega
  obtain ⟨hseg, hok, hcont⟩ := hreads
  obtain ⟨read, hperm, hsub, hkept⟩ := hcont fun s => decide (Keeps w.interpretation parquet (segmentColumns w m s))
  have hok := hok fun s => decide (Keeps w.interpretation parquet (segmentColumns w m s))
  generalize hevents : w.read (fun s => decide (Keeps w.interpretation parquet (segmentColumns w m s))) field = events at hok hperm
  generalize hpred : (grid.map fun e (p : Point) => decide (e.eval w.interpretation (pointColumns m p) = .bool true)) = predicate
  have hmem : ∀ p ∈ (itemsOf events).flatten.flatMap pointsOf, p ∈ stored.flatMap pointsOf := by
    intro p hp
    exact (sublist_flatMap hsub pointsOf).subset (((hperm.flatMap_right pointsOf).mem_iff).mp hp)
  have hkeptSub : (kept predicate ((itemsOf events).flatten.flatMap pointsOf)).Sublist ((itemsOf events).flatten.flatMap pointsOf) := by
    unfold kept
    split
    · exact List.filter_sublist
    · exact List.Sublist.refl _
  obtain ⟨out, h1, h2⟩ := one_field pointsOf predicate w.batchSize hbatch (tagNamesOf m) plan.order field hans events hok
    (fun p hp => by rw [tagNames_length hc]; exact htags p (hmem p (hkeptSub.subset hp)))
  obtain ⟨n₀, hdrain⟩ := h1
  refine ⟨out, kept predicate ((itemsOf events).flatten.flatMap pointsOf), n₀, ?_, ?_, ?_, ?_⟩
  · intro n hn
    unfold answer
    simp only [hplan, hfilters, hfield, List.map_cons, List.map_nil, hevents, hpred, hseg]
    show Except.ok (Answer.mk plan.result _ _) = _
    rw [show segmentOf.points = pointsOf from rfl, hdrain n hn]
    simp only [checkedBatches, if_pos hlen]
    congr 2
    refine List.map_congr_left fun b _ => ?_
    unfold finish
    rw [hgen]
    rfl
  · have hcells : ∀ p ∈ kept predicate ((itemsOf events).flatten.flatMap pointsOf), ∃ cells,
        cellsOf (tagNamesOf m) (rowOfPoint p) plan.order [field] = some cells ∧
          (plan.result.map fun c => storedCell m (rowOfPoint p) c.name) = cells.map some := by
      intro p hp
      obtain ⟨cells, g1, g2⟩ := planColumns_cells hc hn (rowOfPoint p) (htags p (hmem p (hkeptSub.subset hp))) extra hgf hcols
      refine ⟨cells, by rw [← hfield, hextra]; exact g1, ?_⟩
      rw [← g2, hstoredOf]
      have h3 := mapM_option_eq_some.mp hres
      have : (projection.map fun i => (m.querySchema[i]?).bind fun c => storedCell m (rowOfPoint p) c.name) =
          (projection.map fun i => m.querySchema[i]?).map fun c => c.bind fun c => storedCell m (rowOfPoint p) c.name := by
        rw [List.map_map]
        rfl
      rw [this, h3, List.map_map]
      rfl
    generalize out.flatMap rowsOfColumns = result at h2 ⊢
    generalize kept predicate ((itemsOf events).flatten.flatMap pointsOf) = points at h2 hcells ⊢
    clear hkeptSub hdrain
    induction points generalizing result with
    | nil =>
      cases result with
      | nil => rfl
      | cons _ _ => simp at h2
    | cons p points ih =>
      cases result with
      | nil => simp at h2
      | cons cells result =>
        simp only [List.map_cons, List.cons.injEq] at h2
        obtain ⟨c, g1, g2⟩ := hcells p (by simp)
        rw [g1] at h2
        obtain ⟨h2, h3⟩ := h2
        cases h2
        rw [List.map_cons, List.map_cons, g2, ih result h3 fun r hr => hcells r (List.mem_cons_of_mem _ hr)]
  · exact hkeptSub.subperm.trans ((hperm.flatMap_right pointsOf).subperm.trans (sublist_flatMap hsub pointsOf).subperm)
  · have hmatch : ∀ s ∈ stored, ∀ p ∈ pointsOf s, (filters.all fun f => f.eval w.interpretation (rows p) = .bool true) = true →
        Keeps w.interpretation parquet (segmentColumns w m s) ∧ Keeps w.interpretation grid (pointColumns m p) := by
      intro s hs p hp hq
      have := keeps_of_match hc' w.interpretation hfilters hrev segmentOf (w.rest s) (hvalid s hs) hp
        (hrows p (List.mem_flatMap.mpr ⟨s, hs, hp⟩)) (by simpa using hq)
      unfold segmentColumns
      rw [hseg]
      exact this
    have hstep : (kept predicate ((itemsOf events).flatten.flatMap pointsOf)).filter
        (fun p => filters.all fun f => f.eval w.interpretation (rows p) = .bool true) =
        ((itemsOf events).flatten.flatMap pointsOf).filter fun p => filters.all fun f => f.eval w.interpretation (rows p) = .bool true := by
      subst hpred
      unfold kept
      cases grid with
      | none => rfl
      | some e =>
        simp only [Option.map_some]
        rw [List.filter_filter]
        refine List.filter_congr fun p hp => ?_
        obtain ⟨s, hs, hps⟩ := List.mem_flatMap.mp (hmem p hp)
        rw [Bool.eq_iff_iff, Bool.and_eq_true]
        refine ⟨fun h => h.1, fun h => ⟨h, ?_⟩⟩
        have := (hmatch s hs p hps h).2
        simpa [Keeps] using this
    rw [hstep]
    exact filter_between hperm hsub hkept fun s hs p hp hq => by simpa using (hmatch s hs p hp hq).1

/-- All steps before, at and after a request. -/
theorem run_request {store : Storage.Env α} {before after : List (Storage.Op α)} {request : Storage.Op α} (hreq : Op.isRequest request)
    (hio : ∀ op ∈ before ++ after, Op.ioOk op) {e₀ e₁ e₂ e : Storage.Engine α} (h1 : e₀.run store before = some e₁)
    (h2 : e₁.step store request = some e₂) (h3 : e₂.run store after = some e) :
    e₀.run store (before ++ request :: after) = some e ∧ ∀ op ∈ before ++ request :: after, Op.ioOk op := by
  have : ∀ (l l' : List (Storage.Op α)) (e : Storage.Engine α),
      e.run store (l ++ l') = (e.run store l).bind fun e => e.run store l' := by
    intro l
    induction l with
    | nil => intro l' e; rfl
    | cons op l ih =>
      intro l' e
      simp only [List.cons_append, Storage.Engine.run, Option.bind_assoc]
      exact Option.bind_congr fun e' _ => ih l' e'
  constructor
  · rw [this, h1]
    simp [Storage.Engine.run, h2, h3]
  · intro op hop
    rw [List.mem_append, List.mem_cons] at hop
    rcases hop with hop | rfl | hop
    · exact hio op (List.mem_append_left _ hop)
    · cases op <;> trivial
    · exact hio op (List.mem_append_right _ hop)

/-- The segments of a field that are stored for each batch that was saved. -/
theorem saved_stored {ε : Type} {store : Storage.Env α} (hmax : store.capacity < 2 ^ 63) {saved : List (Storage.Chunk α)}
    {received : List (Storage.Row α)} (hsub : ∀ r ∈ saved.flatMap chunkRows, r ∈ received) (hchunks : ∀ x ∈ saved, x.points ≠ [] ∧ x.points.length ≤ store.capacity ∧
      StrictlyIncreasing (x.points.map Prod.fst))
    {m : TableDefinition.Metadata ε} {value : α → Nat → Nat} {field : Nat} {eb : ErrorBound} (heb : m.errorBounds[field]? = some eb)
    (hrows : ∀ r ∈ rowsOfTable m.name received, WellFormed m.tagIndices.length value field r) (log2 : Log2) (R : Nat → Nat → Prop)
    (hread : ∀ (ts : List Int) (vs : List Nat), ts.length = vs.length → ts ≠ [] → (∀ t ∈ ts, IsI64 t) → StrictlyIncreasing ts →
      ts.length < 2 ^ 63 → (∀ v ∈ vs, v < 2 ^ 32) → (∀ v ∈ vs, (FVal.ofBits32 v).isNan = false) →
      (∀ v ∈ vs, ∃ r ∈ rowsOfTable m.name received, v = value r.val field) → LinearFaithful R eb ts vs →
      ∃ segments ws, tryCompressUnivariate log2 eb ts vs = .segments segments ∧ gridAll segments = some (ts, ws) ∧ List.Forall₂ R vs ws)
    (hlinear : ∀ x ∈ saved, x.table = m.name → LinearFaithful R eb (x.points.map Prod.fst) (x.points.map fun p => value p.2 field)) :
    ∀ x ∈ saved, x.table = m.name → ∃ l, compressField log2 m value field x = some l ∧ ChunkStored value field R x l := by
  intro x hx hxn
  have hmem : ∀ p ∈ x.points, ⟨x.table, x.tags, p.1, p.2⟩ ∈ rowsOfTable m.name received := by
    intro p hp
    have : (⟨x.table, x.tags, p.1, p.2⟩ : Storage.Row α) ∈ saved.flatMap chunkRows := by
      exact List.mem_flatMap.mpr ⟨x, hx, List.mem_map.mpr ⟨p, hp, rfl⟩⟩
    exact List.mem_filter.mpr ⟨hsub _ this, by simpa using hxn⟩
  obtain ⟨c1, c2, c3⟩ := hchunks x hx
  have hvs : ∀ v ∈ x.points.map (fun p => value p.2 field), ∃ r ∈ rowsOfTable m.name received, v = value r.val field := by
    intro v hv
    obtain ⟨p, hp, rfl⟩ := List.mem_map.mp hv
    exact ⟨_, hmem p hp, rfl⟩
  have hts : ∀ p ∈ x.points, IsI64 p.1 := fun p hp => (hrows _ (hmem p hp)).time
  refine compressField_spec heb c1 c3 (by omega) hts ?_
  refine hread _ _ (by simp) (by simpa using c1) ?_ c3 (by simp only [List.length_map]; omega) ?_ ?_ hvs (hlinear x hx hxn)
  · intro t ht
    obtain ⟨p, hp, rfl⟩ := List.mem_map.mp ht
    exact hts p hp
  · intro v hv
    obtain ⟨r, hr, rfl⟩ := hvs v hv
    exact (hrows r hr).bits
  · intro v hv
    obtain ⟨r, hr, rfl⟩ := hvs v hv
    exact (hrows r hr).number

/-- The segments of a field that are stored for each batch that was saved. -/
theorem chunks_stored {ε : Type} {store : Storage.Env α} (hmax : store.capacity < 2 ^ 63) {e : Storage.Engine α}
    (hsub : (savedRows e).Subperm e.received) (hchunks : ∀ x ∈ e.c.saved, x.points ≠ [] ∧ x.points.length ≤ store.capacity ∧
      StrictlyIncreasing (x.points.map Prod.fst))
    {m : TableDefinition.Metadata ε} {value : α → Nat → Nat} {field : Nat} {eb : ErrorBound} (heb : m.errorBounds[field]? = some eb)
    (hrows : ∀ r ∈ rowsOfTable m.name e.received, WellFormed m.tagIndices.length value field r) (log2 : Log2) (R : Nat → Nat → Prop)
    (hread : ∀ (ts : List Int) (vs : List Nat), ts.length = vs.length → ts ≠ [] → (∀ t ∈ ts, IsI64 t) → StrictlyIncreasing ts →
      ts.length < 2 ^ 63 → (∀ v ∈ vs, v < 2 ^ 32) → (∀ v ∈ vs, (FVal.ofBits32 v).isNan = false) →
      (∀ v ∈ vs, ∃ r ∈ rowsOfTable m.name e.received, v = value r.val field) → LinearFaithful R eb ts vs →
      ∃ segments ws, tryCompressUnivariate log2 eb ts vs = .segments segments ∧ gridAll segments = some (ts, ws) ∧ List.Forall₂ R vs ws)
    (hlinear : ∀ x ∈ e.c.saved, x.table = m.name → LinearFaithful R eb (x.points.map Prod.fst) (x.points.map fun p => value p.2 field)) :
    ∀ x ∈ e.c.saved, x.table = m.name → ∃ l, compressField log2 m value field x = some l ∧ ChunkStored value field R x l :=
  saved_stored hmax (fun _ hr => hsub.subset hr) hchunks heb hrows log2 R hread hlinear

end ModelarDB.Lemmas.EndToEnd
