import Verif.Spec.BulkLoader
import Mathlib.Tactic.Tauto
/-
Lemmas for C67.
-/
namespace ModelarDB.Lemmas.BulkLoader
open Model.BulkLoader Spec.BulkLoader

variable {ν : Type}

theorem find_append (f : Folder ν) (name n : String) (rows : List (List (Value ν))) :
    (f.append name rows).find n = if n = name then (f.find n).map (Table.append rows) else f.find n := by
  obtain ⟨tables, orphans⟩ := f
  simp only [Folder.append, Folder.find]
  induction tables with
  | nil => simp
  | cons t rest ih =>
    obtain ⟨m, t⟩ := t
    by_cases hm : m = n
    · subst hm
      by_cases hn : m = name <;> simp [hn]
    · have h1 : (m == n) = false := by simp [hm]
      rw [List.map_cons, List.find?_cons, List.find?_cons]
      by_cases hn : m = name
      · simp only [hn, beq_self_eq_true, if_true]
        rw [hn] at h1
        simpa [h1] using ih
      · have h2 : (m == name) = false := by simp [hn]
        simpa [h1, h2] using ih

theorem unchanged_of_tables {f f' : Folder ν} (h : f'.tables = f.tables) : Unchanged f f' := by
  intro n; simp [contents, Folder.find, h]

theorem added_append (f : Folder ν) (name : String) (rows : List (List (Value ν))) {t : Table ν} (h : f.find name = some t) :
    Added f (f.append name rows) name rows := by
  refine ⟨fun other ho => by simp [contents, find_append, ho], ?_⟩
  cases t with
  | normal schema old => exact ⟨schema, old, by simp [contents, h], by simp [contents, find_append, h, Table.append]⟩
  | timeSeries schema segments old => exact ⟨schema, old, by simp [contents, h], by simp [contents, find_append, h, Table.append]⟩

/-- A commit adds all rows or none. -/
theorem commit_cases (f : Folder ν) (name : String) (faults : Faults) (written : List (List (Value ν))) :
    ((f.commit name faults written).1.tables = f.tables ∧ (f.commit name faults written).2 = .error) ∨
    ((f.commit name faults written).1 = f.append name written ∧ (faults.commit = .ok ∧ (f.commit name faults written).2 = .ok ∨
      faults.commit = .after ∧ (f.commit name faults written).2 = .error)) := by
  rcases hc : faults.commit <;> simp [Folder.commit, hc, Folder.orphan]
  split <;> rfl

theorem rollback_tables (f : Folder ν) (faults : Faults) (written : List (List (Value ν))) :
    (f.rollback faults written).1.tables = f.tables ∧ (f.rollback faults written).2 = .error := by
  simp [Folder.rollback, Folder.orphan]; split <;> rfl

theorem writeNormal_cases (f : Folder ν) (name : String) (faults : Faults) (schema : List Column) (input : List (Option (Batch ν))) (i : Nat)
    (written : List (List (Value ν))) :
    ((writeNormal f name faults schema i written input).1.tables = f.tables ∧ (writeNormal f name faults schema i written input).2 = .error) ∨
    ((∀ x ∈ input, ∃ b, x = some b ∧ b.schema = schema) ∧
      (writeNormal f name faults schema i written input).1 = f.append name (written ++ inputRows input) ∧
      (faults.commit = .ok ∧ (writeNormal f name faults schema i written input).2 = .ok ∨
        faults.commit = .after ∧ (writeNormal f name faults schema i written input).2 = .error)) := by
  induction input generalizing i written with
  | nil => simpa [writeNormal, inputRows] using commit_cases f name faults written
  | cons x rest ih =>
    cases x with
    | none => left; simp [writeNormal, Folder.orphan]
    | some b =>
      rw [writeNormal]
      by_cases h : b.schema = schema ∧ faults.write i = false
      · rw [if_pos h]
        rcases ih (i + 1) (written ++ b.rows) with h' | ⟨h1, h2, h3⟩
        · exact .inl h'
        · refine .inr ⟨?_, ?_, h3⟩
          · intro x hx
            rcases List.mem_cons.1 hx with rfl | hx
            · exact ⟨b, rfl, h.1⟩
            · exact h1 x hx
          · simpa [inputRows, List.append_assoc] using h2
      · rw [if_neg h]; exact .inl (rollback_tables f faults written)

theorem writeNormal_works (f : Folder ν) (name : String) (faults : Faults) (hf : Works faults) (schema : List Column) (input : List (Option (Batch ν)))
    (h : ∀ x ∈ input, ∃ b, x = some b ∧ b.schema = schema) (i : Nat) (written : List (List (Value ν))) :
    (writeNormal f name faults schema i written input).2 = .ok := by
  induction input generalizing i written with
  | nil => simp [writeNormal, Folder.commit, hf.2.2.2]
  | cons x rest ih =>
    obtain ⟨b, rfl, hb⟩ := h _ (List.mem_cons_self ..)
    rw [writeNormal, if_pos ⟨hb, hf.2.1 i⟩]
    exact ih (fun x hx => h x (List.mem_cons_of_mem _ hx)) _ _

theorem castBatch_length {narrow : ν → ν} {double : Bool} {b b' : Batch ν} (h : castBatch narrow double b = some b') : b'.rows.length = b.rows.length := by
  simp only [castBatch] at h
  split at h
  · rw [← Option.some.inj h]; simp
  · simp at h

theorem compress_length {zero : ν} {schema : List Column} {batches : List (Batch ν)} {rows : List (List (Value ν))}
    (h : compress zero schema batches = .rows rows) : rows.length = (batches.flatMap (·.rows)).length := by
  unfold compress at h
  split at h
  · cases h; simp
  · repeat' split at h
    all_goals first | (cases h; done) | (injection h with h; rw [← h]; simp)

/-- A time series table has all rows or none. -/
theorem writeTimeSeries_cases (f : Folder ν) (name : String) (faults : Faults) (zero : ν) (narrow : ν → ν) (double : Bool) (full : Nat → Bool)
    (schema : List Column) (input : List (Option (Batch ν))) (i : Nat) (current : List (Batch ν)) (written : List (List (Value ν))) :
    let r := writeTimeSeries f name faults zero narrow double full schema i current written input
    (r.1.tables = f.tables ∧ r.2 ≠ .ok) ∨
    ((∀ x ∈ input, ∃ b, x = some b) ∧ ∃ rows, rows.length = written.length + (current.flatMap (·.rows)).length + (inputRows input).length ∧
      r.1 = f.append name rows ∧ (faults.commit = .ok ∧ r.2 = .ok ∨ faults.commit = .after ∧ r.2 = .error)) := by
  have rb : ∀ w : List (List (Value ν)), (f.rollback faults w).1.tables = f.tables ∧ (f.rollback faults w).2 ≠ .ok := fun w =>
    ⟨(rollback_tables f faults w).1, by rw [(rollback_tables f faults w).2]; simp⟩
  have cm : ∀ w : List (List (Value ν)), (((f.commit name faults w).1.tables = f.tables ∧ (f.commit name faults w).2 ≠ .ok) ∨
      ((f.commit name faults w).1 = f.append name w ∧ (faults.commit = .ok ∧ (f.commit name faults w).2 = .ok ∨
      faults.commit = .after ∧ (f.commit name faults w).2 = .error))) := fun w => by
    rcases commit_cases f name faults w with ⟨h1, h2⟩ | h
    · exact .inl ⟨h1, by rw [h2]; simp⟩
    · exact .inr h
  induction input generalizing i current written with
  | nil =>
    intro r
    simp only [r, writeTimeSeries]
    split
    · rename_i hc
      rcases cm written with h | ⟨h1, h2⟩
      · exact .inl h
      · exact .inr ⟨by simp, written, by simp [hc, inputRows], h1, h2⟩
    · split
      · left; simp [Folder.orphan]
      · exact .inl (rb _)
      · rename_i rows hr
        split
        · exact .inl (rb _)
        · rcases cm (written ++ rows) with h | ⟨h1, h2⟩
          · exact .inl h
          · exact .inr ⟨by simp, _, by simp [inputRows, compress_length hr], h1, h2⟩
  | cons x rest ih =>
    cases x with
    | none => left; simp [writeTimeSeries, Folder.orphan]
    | some b =>
      intro r
      simp only [r, writeTimeSeries]
      split
      · left; simp [Folder.orphan]
      · rename_i b' hb
        have hl := castBatch_length hb
        have step : ∀ (c : List (Batch ν)) (w : List (List (Value ν))),
            w.length + (c.flatMap (·.rows)).length = written.length + (current.flatMap (·.rows)).length + b.rows.length →
            let r := writeTimeSeries f name faults zero narrow double full schema (i + 1) c w rest
            (r.1.tables = f.tables ∧ r.2 ≠ .ok) ∨
            ((∀ x ∈ some b :: rest, ∃ b, x = some b) ∧
              ∃ rows, rows.length = written.length + (current.flatMap (·.rows)).length + (inputRows (some b :: rest)).length ∧
              r.1 = f.append name rows ∧ (faults.commit = .ok ∧ r.2 = .ok ∨ faults.commit = .after ∧ r.2 = .error)) := by
          intro c w hw
          rcases ih (i + 1) c w with h | ⟨h1, rows, h2, h3⟩
          · exact .inl h
          · refine .inr ⟨?_, rows, ?_, h3⟩
            · intro x hx
              rcases List.mem_cons.1 hx with rfl | hx
              · exact ⟨b, rfl⟩
              · exact h1 x hx
            · have : (inputRows (some b :: rest)).length = b.rows.length + (inputRows rest).length := by simp [inputRows]
              omega
        split
        · split
          · left; simp [Folder.orphan]
          · exact .inl (rb _)
          · rename_i rows hr
            split
            · exact .inl (rb _)
            · refine step _ _ ?_
              have := compress_length hr
              simp only [List.flatMap_append, List.flatMap_cons, List.flatMap_nil, List.append_nil, List.length_append, List.length_nil] at this ⊢
              omega
        · refine step _ _ ?_
          simp only [List.flatMap_append, List.flatMap_cons, List.flatMap_nil, List.append_nil, List.length_append]
          omega

/-- What a row of a batch is stored as. -/
def storedRow (zero : ν) (narrow : ν → ν) (double : Bool) (schema : List Column) (b : Batch ν) (row : List (Value ν)) : List (Value ν) :=
  (schema.zip ((b.schema.zip row).map fun (c, v) => castValue narrow double c.type v)).map fun (c, v) => unNull zero c.type v

theorem castable_castType {double : Bool} {a b : ColumnType} (h : Castable double a b) : castType double a = b := by
  cases h <;> simp_all [castType]

theorem cast_time (narrow : ν → ν) (double : Bool) {u : Model.BulkLoader.Unit} {b : ColumnType} (h : Castable double (.timestamp u) b) {t : Int}
    (hv : Typed (ν := ν) (.timestamp u) (.time t)) :
    ∃ t', castValue narrow double (.timestamp u) (.time t) = .time t' ∧ t * nanoseconds u = t' * nanoseconds .microsecond := by
  cases h <;> simp only [Typed, nanoseconds] at hv
  · exact ⟨t * 1000000, by simp only [castValue, checked]; rw [if_pos ⟨by omega, by omega⟩], by simp only [nanoseconds]; omega⟩
  · exact ⟨t * 1000, by simp only [castValue, checked]; rw [if_pos ⟨by omega, by omega⟩], by simp only [nanoseconds]; omega⟩
  · exact ⟨t, rfl, rfl⟩

/-- A value that is cast is not null. -/
theorem cast_not_null (narrow : ν → ν) (double : Bool) {a b : ColumnType} (h : Castable double a b) {v : Value ν} (hv : Typed a v) :
    castValue narrow double a v ≠ .null := by
  cases v with
  | time t =>
    cases a with
    | timestamp u => obtain ⟨t', h', -⟩ := cast_time narrow double h hv; rw [h']; simp
    | _ => simp [Typed] at hv
  | _ => cases h <;> simp_all [Typed, castValue]

/-- A value that is cast means the same. -/
theorem cast_means (zero : ν) (narrow : ν → ν) (double : Bool) {a b : ColumnType} (h : Castable double a b) {v : Value ν} (hv : Typed a v) :
    Means narrow a v (unNull zero b (castValue narrow double a v)) := by
  cases v with
  | time t =>
    cases a with
    | timestamp u =>
      obtain ⟨t', h', ht⟩ := cast_time narrow double h hv
      have hb : b = .timestamp .microsecond := by cases h <;> rfl
      rw [h', hb]; simpa [unNull, Means] using ht
    | _ => simp [Typed] at hv
  | _ => cases h <;> simp_all [Typed, castValue, unNull, Means]

/-- A batch that fits is cast to the types of the table. -/
theorem castBatch_fits (narrow : ν → ν) {double : Bool} {schema : List Column} {b : Batch ν} (h : Fits double schema b) :
    ∃ b', castBatch narrow double b = some b' ∧ b'.schema.map (·.type) = schema.map (·.type) ∧
      b'.rows = b.rows.map (fun row => (b.schema.zip row).map fun (c, v) => castValue narrow double c.type v) := by
  obtain ⟨hc, -, hv⟩ := h
  refine ⟨⟨b.schema.map fun c => if castType double c.type = c.type then c else ⟨c.name, castType double c.type, false⟩,
    b.rows.map (fun row => (b.schema.zip row).map fun (c, v) => castValue narrow double c.type v)⟩, ?_, ?_, rfl⟩
  · simp only [castBatch]
    rw [if_pos]
    simp only [List.all_map, List.all_eq_true]
    intro row hrow
    simp only [Function.comp, List.all_eq_true]
    have key : ∀ (l : List Column) (ts : List Column) (vs : List (Value ν)),
        List.Forall₂ (fun c t => c.name = t.name ∧ Castable double c.type t.type) l ts → List.Forall₂ (fun c v => Typed c.type v) l vs →
        ∀ v ∈ (l.zip vs).map (fun (c, v) => castValue narrow double c.type v), v ≠ .null := by
      intro l
      induction l with
      | nil => simp
      | cons c l ih =>
        intro ts vs h1 h2
        cases h1 with
        | cons hct h1 =>
          cases h2 with
          | cons hcv h2 =>
            intro v hv
            simp only [List.zip_cons_cons, List.map_cons, List.mem_cons] at hv
            rcases hv with rfl | hv
            · exact cast_not_null narrow double hct.2 hcv
            · exact ih _ _ h1 h2 v hv
    intro p hp
    have := key _ _ _ hc (hv row hrow) p.2 (List.of_mem_zip hp).2
    cases hp2 : p.2 <;> simp_all
  · clear hv
    simp only []
    generalize b.schema = source at hc ⊢
    induction hc with
    | nil => rfl
    | cons h _ ih =>
      have ht := castable_castType h.2
      simp only [List.map_cons, List.map_map] at ih ⊢
      rw [ih]; congr 1
      split
      · rw [← ht]; symm; assumption
      · exact ht

/-- Batches that were cast are stored. -/
theorem compress_fits (zero : ν) (schema : List Column) (batches : List (Batch ν))
    (h : ∀ b ∈ batches, b.schema.map (·.type) = schema.map (·.type) ∧ b.rows ≠ []) :
    compress zero schema batches = .rows ((batches.flatMap (·.rows)).map fun row => (schema.zip row).map fun (c, v) => unNull zero c.type v) := by
  cases batches with
  | nil => simp [compress]
  | cons b rest =>
    have hb := h b (List.mem_cons_self ..)
    have hl : b.schema.length = schema.length := by simpa using congrArg List.length hb.1
    rw [compress, if_neg, if_neg, if_neg]
    · simp [hb.2]
    · rw [← hl, List.take_length, hb.1]; simp
    · simp only [List.any_eq_true, not_exists, not_and]
      intro b' hb'
      rw [hb.1, (h b' hb').1]; simp

/-- Without failures all rows of batches that fit are stored. -/
theorem writeTimeSeries_works (f : Folder ν) (name : String) (faults : Faults) (hf : Works faults) (zero : ν) (narrow : ν → ν) (double : Bool)
    (full : Nat → Bool) (schema : List Column) (batches : List (Batch ν)) (h : ∀ b ∈ batches, Fits double schema b) (i : Nat) (current : List (Batch ν))
    (hcur : ∀ b ∈ current, b.schema.map (·.type) = schema.map (·.type) ∧ b.rows ≠ []) (written : List (List (Value ν))) :
    writeTimeSeries f name faults zero narrow double full schema i current written (batches.map some) =
      (f.append name (written ++ ((current.flatMap (·.rows)).map fun row => (schema.zip row).map fun (c, v) => unNull zero c.type v) ++
        batches.flatMap fun b => b.rows.map (storedRow zero narrow double schema b)), .ok) := by
  induction batches generalizing i current written with
  | nil =>
    simp only [List.map_nil, writeTimeSeries]
    split
    · rename_i hc; simp [hc, Folder.commit, hf.2.2.2]
    · rw [compress_fits zero schema current hcur]; simp [hf.2.1, Folder.commit, hf.2.2.2]
  | cons b rest ih =>
    obtain ⟨b', hb, ht, hr⟩ := castBatch_fits narrow (h b (List.mem_cons_self ..))
    have hb' : b'.schema.map (·.type) = schema.map (·.type) ∧ b'.rows ≠ [] := ⟨ht, by rw [hr]; simpa using (h b (List.mem_cons_self ..)).rows⟩
    have hcur' : ∀ x ∈ current ++ [b'], x.schema.map (·.type) = schema.map (·.type) ∧ x.rows ≠ [] := by
      intro x hx
      rcases List.mem_append.1 hx with hx | hx
      · exact hcur x hx
      · rw [List.mem_singleton.1 hx]; exact hb'
    have hrest : ∀ b ∈ rest, Fits double schema b := fun b hb => h b (List.mem_cons_of_mem _ hb)
    have hst : (b'.rows.map fun row => (schema.zip row).map fun (c, v) => unNull zero c.type v) = b.rows.map (storedRow zero narrow double schema b) := by
      rw [hr, List.map_map]; rfl
    simp only [List.map_cons, writeTimeSeries, hb]
    split
    · rw [compress_fits zero schema _ hcur']
      simp only [hf.2.1, Bool.false_eq_true, if_false]
      rw [ih hrest _ _ (by simp)]
      simp [hst, List.append_assoc]
    · rw [ih hrest _ _ hcur']
      simp [hst, List.append_assoc]

/-- A row that is stored has the values of the row by name. -/
theorem storedRow_same (zero : ν) (narrow : ν → ν) (double : Bool) (schema : List Column) (b : Batch ν)
    (hc : List.Forall₂ (fun c t => c.name = t.name ∧ Castable double c.type t.type) b.schema schema) (row : List (Value ν))
    (hv : List.Forall₂ (fun c v => Typed c.type v) b.schema row) :
    SameByName narrow b.schema schema row (storedRow zero narrow double schema b row) := by
  unfold storedRow
  generalize b.schema = source at hc hv
  induction hc generalizing row with
  | nil => simp [SameByName]
  | @cons s t ss ts hst hrest ih =>
    cases hv with
    | @cons _ v _ vs hsv hvs =>
      intro c hcm
      by_cases hn : t.name = c.name
      · refine ⟨(s, v), (t, unNull zero t.type (castValue narrow double s.type v)), by simp [named, hst.1, hn], by simp [named, hn],
          cast_means zero narrow double hst.2 hsv⟩
      · have hcm' : c ∈ ts := by
          rcases List.mem_cons.1 hcm with rfl | h
          · exact absurd rfl hn
          · exact h
        obtain ⟨p, q, h1, h2, h3⟩ := ih vs hvs c hcm'
        refine ⟨p, q, ?_, ?_, h3⟩
        · rw [← h1]; simp [named, hst.1, hn]
        · rw [← h2]; simp [named, hn]

/-- Only `define` adds something to a session, which is not a table of the data folder. -/
theorem executeAll_local (sql : List (Sql ν)) (s s' : Session ν) (hs : ∀ p ∈ s, ∃ schema rows, p.2 = .local schema rows)
    (h : s.executeAll sql = some s') :
    (∀ p ∈ s', ∃ schema rows, p.2 = .local schema rows) ∧ ∀ p ∈ s', p ∈ s ∨ Defines sql p.1 := by
  induction sql generalizing s with
  | nil => cases h; exact ⟨hs, fun p hp => .inl hp⟩
  | cons x rest ih =>
    rw [Session.executeAll, Option.bind_eq_some_iff] at h
    obtain ⟨s1, h1, h2⟩ := h
    have hx : (∀ p ∈ s1, ∃ schema rows, p.2 = .local schema rows) ∧ ∀ p ∈ s1, p ∈ s ∨ Defines (x :: rest) p.1 := by
      cases x with
      | modelardb => simp [Session.execute] at h1
      | define name replace schema rows =>
        simp only [Session.execute] at h1
        split at h1
        · simp at h1
        · cases h1
          constructor
          · intro p hp
            rcases List.mem_append.1 hp with hp | hp
            · exact hs p (List.mem_filter.1 hp).1
            · rw [List.mem_singleton.1 hp]; exact ⟨_, _, rfl⟩
          · intro p hp
            rcases List.mem_append.1 hp with hp | hp
            · exact .inl (List.mem_filter.1 hp).1
            · rw [List.mem_singleton.1 hp]; exact .inr ⟨replace, schema, rows, List.mem_cons_self ..⟩
      | drop name ifExists =>
        simp only [Session.execute] at h1
        split at h1
        · cases h1
          exact ⟨fun p hp => hs p (List.mem_filter.1 hp).1, fun p hp => .inl (List.mem_filter.1 hp).1⟩
        · split at h1
          · cases h1; exact ⟨hs, fun p hp => .inl hp⟩
          · simp at h1
      | insert name =>
        simp only [Session.execute] at h1
        split at h1
        · cases h1; exact ⟨hs, fun p hp => .inl hp⟩
        · simp at h1
      | select name =>
        simp only [Session.execute] at h1
        split at h1
        · cases h1; exact ⟨hs, fun p hp => .inl hp⟩
        · simp at h1
    obtain ⟨h3, h4⟩ := ih s1 hx.1 h2
    refine ⟨h3, fun p hp => ?_⟩
    rcases h4 p hp with h | ⟨r, sc, ro, h⟩
    · exact hx.2 p h
    · exact .inr ⟨r, sc, ro, List.mem_cons_of_mem _ h⟩

/-- No SQL makes a time series table known to a session without tables of the data folder. -/
theorem not_registered (f : Folder ν) (sql : List (Sql ν)) (s' : Session ν) (name : String) (h : (openSession f).executeAll sql = some s') :
    registeredTimeSeriesTable f s' name = none := by
  have hl := (executeAll_local sql _ s' (by simp [openSession]) h).1
  unfold registeredTimeSeriesTable
  split
  · rename_i a t hf
    obtain ⟨_, _, h⟩ := hl _ (List.mem_of_find?_eq_some hf)
    simp at h
  · rfl

end ModelarDB.Lemmas.BulkLoader
