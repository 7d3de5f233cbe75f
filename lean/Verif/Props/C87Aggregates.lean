import Verif.Props.C87
import Verif.Props.C86Restarts
/-
C87: aggregates of a table in the cloud.
-/
namespace ModelarDB.Props
open Model Model.Aggregates Model.TableDefinition Model.StoredTable Model.Restarts Model.EdgeNode Spec Spec.Storage Spec.Restarts Spec.EdgeNode Lemmas
  Lemmas.StoredRows

variable {α ε : Type}

/-- **C87** for aggregates in the cloud: any number of nodes transfer a table to the same data folder and nothing interferes with the transfers. Then
COUNT is the number of rows that have been transferred, whatever their values are, and MIN and MAX are those of their values up to the error bound if
the rows that were sent have a scale. If everything has been transferred these are the rows that are saved by all nodes. Missing: the histories of C26,
rows without a scale, and SUM and AVG (`C86_restarts_partial`). -/
theorem C87_aggregates_partial {store : Model.Storage.Env α} (hs : Sorts store) (hcap : 2 ≤ store.capacity) (hmax : store.capacity < 2 ^ 63)
    {md : Metadata ε} {nodes : List (Node α)} (hn : ∀ n ∈ nodes, CalmlyReached md.name store n ∧ Good store (rowsIn n.server.log))
    {cloud : List (Model.Storage.Chunk α)} (hcloud : cloud.Perm (nodes.flatMap transferred))
    {value : α → Nat → Nat} {field : Nat} (hfield : field ∈ md.fieldIndices) {eb : ErrorBound} (heb : md.errorBounds[field]? = some eb)
    (htime : ∀ r ∈ rowsOfTable md.name (sentRows nodes), IsI64 r.ts) (log2 : Log2)
    (hcount : (rowsOfTable md.name (sentRows nodes)).length < 2 ^ 63) :
    ∃ stored, storedSegments log2 md value field cloud = some stored ∧
      ((∀ n ∈ nodes, AllTransferred n) →
        (nodes.flatMap transferredRows).Perm (nodes.flatMap fun n => rowsOfTable md.name (inTables n.server))) ∧
      ∀ partitions, partitions.flatten.Perm (stored.map Prod.snd) →
        execute .count partitions = some (.int (nodes.flatMap transferredRows).length) ∧
        (nodes.flatMap transferredRows ≠ [] → ProvedBound eb → Log2Accurate log2 →
          (∀ r ∈ rowsOfTable md.name (sentRows nodes), WellFormed md.tagIndices.length value field r) →
          (∀ r ∈ rowsOfTable md.name (sentRows nodes), XorGuard eb (FVal.ofBits32 (value r.val field))) →
          ∀ m M G T D, RowsScale eb store.capacity value field (rowsOfTable md.name (sentRows nodes)) m M G T D →
          ∀ f, (f = .min ∨ f = .max) → ∃ ingested r, ingested.Perm (nodes.flatMap transferredRows) ∧ execute f partitions = some r ∧
            AggregateDeviates eb (rowsError M T D) 0 f (valuesOfRows value field ingested) r) := by
  have hn' : ∀ n ∈ nodes, Reached md.name store n ∧ Good store (rowsIn n.server.log) := fun n h => ⟨EdgeNode.calmly_reached (hn n h).1, (hn n h).2⟩
  obtain ⟨-, htable, hchunks⟩ := cloud_chunks hs hcap hn' hcloud
  have hsub := cloud_subperm hs hcap hn hcloud
  have hperm : (cloud.flatMap chunkRows).Perm (nodes.flatMap transferredRows) := by
    have := hcloud.flatMap_right chunkRows
    rw [List.flatMap_assoc] at this
    exact this
  have htwice : rowsOfTable md.name (rowsOfTable md.name (sentRows nodes)) = rowsOfTable md.name (sentRows nodes) := by
    simp [rowsOfTable, List.filter_filter]
  have hself := rowsOfTable_self htable
  obtain ⟨stored, k1, k2⟩ := count_saved log2 (value := value) hfield heb hmax hsub hchunks (by rw [htwice]; exact htime) (by rw [htwice]; exact hcount)
  refine ⟨stored, k1, fun hall => List.Perm.flatMap_left _ fun n hnn => (C87_one_place_partial (hn n hnn).1).2 (hall n hnn), fun partitions hp => ⟨?_, ?_⟩⟩
  · rw [k2 partitions hp, hself, hperm.length_eq]
  · intro hsome hproved hlog hrows hguard m M G T D hscale f hf
    have hne : rowsOfTable md.name (cloud.flatMap chunkRows) ≠ [] := by
      rw [hself]
      intro h
      rw [h] at hperm
      exact hsome hperm.symm.eq_nil
    obtain ⟨stored', series, g1, g2, g3, g4, g5, g6⟩ := stored_chunks hcap hmax hsub hchunks hfield heb hproved (by rw [htwice]; exact hrows)
      (by rw [htwice]; exact hguard) (by rw [htwice]; exact hscale) log2 hlog hne
    have hsame : stored' = stored := Option.some.inj (g1.symm.trans k1)
    subst hsame
    obtain ⟨⟨a, ha, ha'⟩, ⟨b, hb, hb'⟩⟩ := C84_min_max_partial log2 eb series partitions (g4 partitions hp) g3 (rowsError M T D)
      fun p hp => ⟨3 * M, T, D, (g6 p hp).2, le_refl _⟩
    rw [g2, hself] at ha' hb'
    rcases hf with rfl | rfl
    · exact ⟨_, _, hperm, ha, a, rfl, ha'⟩
    · exact ⟨_, _, hperm, hb, b, rfl, hb'⟩

/-- The two nodes of the examples above: COUNT is four in the cloud, and MIN and MAX are those of the four values. -/
example : ∃ stored, storedSegments exactLog2 dayMetadata (fun v _ => v) 2 (transferred secondNode ++ transferred firstNode) = some stored ∧
    execute .count [stored.map Prod.snd] = some (.int 4) ∧
    ∀ f, (f = .min ∨ f = .max) → ∃ ingested r, ingested.Perm ([firstNode, secondNode].flatMap transferredRows) ∧
      execute f [stored.map Prod.snd] = some r ∧
      AggregateDeviates .lossless (rowsError 2 3 1) 0 f (valuesOfRows (fun v _ => v) 2 ingested) r := by
  have hrows : ∀ r ∈ rowsOfTable "t" (sentRows [firstNode, secondNode]), WellFormed dayMetadata.tagIndices.length (fun v _ => v) 2 r := by
    have : ∀ r ∈ rowsOfTable "t" (sentRows [firstNode, secondNode]), (r.tags.length = 1 ∧ (-2 ^ 63 ≤ r.ts ∧ r.ts < 2 ^ 63)) ∧
        r.val < 2 ^ 32 ∧ (FVal.ofBits32 r.val).isNan = false := by decide +kernel
    exact fun r hr => ⟨(this r hr).1.1, (this r hr).1.2, (this r hr).2.1, (this r hr).2.2⟩
  have hn : ∀ n ∈ [firstNode, secondNode], CalmlyReached dayMetadata.name (smallEnv 4) n ∧ Good (smallEnv 4) (rowsIn n.server.log) := by
    intro n hn
    simp only [List.mem_cons, List.not_mem_nil, or_false] at hn
    rcases hn with rfl | rfl
    · exact ⟨firstNode_reached, by decide +kernel⟩
    · exact ⟨secondNode_reached, by decide +kernel⟩
  obtain ⟨stored, g1, _, g3⟩ := C87_aggregates_partial (md := dayMetadata) (smallEnv_sorts 4) (by decide) (by decide) hn
    (cloud := transferred secondNode ++ transferred firstNode) (by simpa using List.perm_append_comm) (value := fun v _ => v) (field := 2) (by decide)
    (eb := .lossless) (by decide +kernel) (fun r hr => (hrows r hr).time) exactLog2 (by decide +kernel)
  obtain ⟨k1, k2⟩ := g3 [stored.map Prod.snd] (by simp)
  refine ⟨stored, g1, ?_, k2 (by decide +kernel) ⟨.inl rfl, by simp⟩ exactLog2_accurate hrows ?_ 1 2 3 3 1 nodes_scale⟩
  · rw [k1]
    have : ([firstNode, secondNode].flatMap transferredRows).length = 4 := by decide +kernel
    rw [this]
    rfl
  · intro r _
    simp [XorGuard]

end ModelarDB.Props
