import Verif.Lemmas.Insert
/-
C71: INSERT stores the given rows.
-/
namespace ModelarDB.Props
open Model Model.TableDefinition Model.Query Model.Insert Spec Lemmas Lemmas.Insert

variable {ε : Type}

/-- **C71**, for time series tables and statements that succeed: the rows that are stored are the rows that were stored before and the given
rows, in order, each value is in the column it is given for whatever order the columns are listed in and wherever the generated columns are,
no value is missing, and the number of rows is returned. Missing: values of generated columns, see `C71_generated`, and that earlier rows
are replaced if the statement says so, see `C71_overwrite`. -/
theorem C71_stored_partial (name : String) (qs : List Column) (bs : List ErrorBound) (gs : List (Option (Generated ε))) (m : Metadata ε)
    (hm : tryNew name qs bs gs = .ok m) (checked : List Nat) (faults : Nat → Fault) (s : Statement) (stored after : List Row) (n : Nat)
    (h : execute (.timeSeries m) checked faults s stored = (after, some n)) :
    (columnsOf qs s).Nodup ∧ (∀ b ∈ s.batches, b ≠ none) ∧ ∃ new, after = stored ++ new ∧ n = new.length ∧
      List.Forall₂ (fun given row => StoredAs m.schema (columnsOf qs s) given row ∧ NoNull m.schema row) (rowsOf s.batches) new := by
  have hcon := consistent_of_tryNew hm
  obtain ⟨-, -, -, -, -, -, -, hme⟩ := tryNew_ok.mp hm
  have hqs : m.querySchema = qs := by rw [hme]
  unfold execute at h
  change (match plan m.querySchema s with | none => _ | some input => _) = _ at h
  rw [hqs] at h
  split at h
  · cases h
  · rename_i input hplan
    obtain ⟨hn, -, -, hp⟩ := plan_planned hplan
    obtain ⟨j, new, hj, hres, hsome, hnew, hok, -⟩ := writeTimeSeries_written hcon (checked := checked) (faults := faults) hp 0 stored 0
    change writeTimeSeries m checked faults 0 input stored 0 = _ at h
    rw [h] at hres hok
    obtain ⟨rfl, hcount⟩ := hok n rfl
    rw [List.take_length] at hsome hnew
    exact ⟨hn, hsome, new, hres, by omega, hnew.imp fun _ _ h => ⟨h.1, h.2 trivial⟩⟩

/-- **C71**, for time series tables and statements that fail: only rows of the first batches are stored, and not those of all batches unless
the storage engine failed after it had stored them. Missing: nothing is stored, see `C71_not_atomic`. -/
theorem C71_failed_partial (name : String) (qs : List Column) (bs : List ErrorBound) (gs : List (Option (Generated ε))) (m : Metadata ε)
    (hm : tryNew name qs bs gs = .ok m) (checked : List Nat) (faults : Nat → Fault) (s : Statement) (stored after : List Row)
    (h : execute (.timeSeries m) checked faults s stored = (after, none)) :
    ∃ (j : Nat) (new : List Row), j ≤ s.batches.length ∧ after = stored ++ new ∧ (∀ b ∈ s.batches.take j, b ≠ none) ∧
      List.Forall₂ (fun given row => StoredAs m.schema (columnsOf qs s) given row ∧ NoNull m.schema row) (rowsOf (s.batches.take j)) new ∧
      ((∀ i, faults i ≠ .after) → s.batches ≠ [] → j < s.batches.length) := by
  have hcon := consistent_of_tryNew hm
  obtain ⟨-, -, -, -, -, -, -, hme⟩ := tryNew_ok.mp hm
  have hqs : m.querySchema = qs := by rw [hme]
  unfold execute at h
  change (match plan m.querySchema s with | none => _ | some input => _) = _ at h
  rw [hqs] at h
  split at h
  · cases h
    exact ⟨0, [], by simp, by simp, by simp, by simp [rowsOf], fun _ hb => List.length_pos_of_ne_nil hb⟩
  · rename_i input hplan
    obtain ⟨hn, -, -, hp⟩ := plan_planned hplan
    obtain ⟨j, new, hj, hres, hsome, hnew, -, herr⟩ := writeTimeSeries_written hcon (checked := checked) (faults := faults) hp 0 stored 0
    change writeTimeSeries m checked faults 0 input stored 0 = _ at h
    rw [h] at hres herr
    exact ⟨j, new, hj, hres, hsome, hnew.imp fun _ _ h => ⟨h.1, h.2 trivial⟩, fun hf _ => herr rfl hf⟩

/-- **C71**, for VALUES: the rows are one batch, so all or none of them are stored unless the storage engine fails after it has stored
them. -/
theorem C71_values_atomic (name : String) (qs : List Column) (bs : List ErrorBound) (gs : List (Option (Generated ε))) (m : Metadata ε)
    (hm : tryNew name qs bs gs = .ok m) (checked : List Nat) (faults : Nat → Fault) (hf : ∀ i, faults i ≠ .after) (s : Statement)
    (rows : List Row) (hs : s.batches = [some rows]) (stored after : List Row)
    (h : execute (.timeSeries m) checked faults s stored = (after, none)) : after = stored := by
  obtain ⟨j, new, -, rfl, -, hnew, hj⟩ := C71_failed_partial name qs bs gs m hm checked faults s stored after h
  have hj := hj hf (by simp [hs])
  rw [hs] at hj
  have : j = 0 := by simpa using hj
  subst this
  rw [List.take_zero] at hnew
  cases hnew
  simp

/-- **C71**, for statements that are fine: rows with a value that fits each stored column, and with a value in the columns that are checked for
null, are inserted if the query that gives them and the storage engine do not fail. -/
theorem C71_succeeds (name : String) (qs : List Column) (bs : List ErrorBound) (gs : List (Option (Generated ε))) (m : Metadata ε)
    (hm : tryNew name qs bs gs = .ok m) (checked : List Nat) (faults : Nat → Fault) (hf : ∀ i, faults i = .none) (s : Statement)
    (hn : (columnsOf qs s).Nodup) (hc : ∀ name ∈ columnsOf qs s, name ∈ qs.map (·.name)) (hb : ∀ b ∈ s.batches, b ≠ none)
    (hrows : ∀ row ∈ rowsOf s.batches, Acceptable m checked (columnsOf qs s) row) (stored : List Row) :
    (execute (.timeSeries m) checked faults s stored).2 = some (rowsOf s.batches).length := by
  have hcon := consistent_of_tryNew hm
  obtain ⟨-, -, -, -, -, -, -, hme⟩ := tryNew_ok.mp hm
  have hqs : m.querySchema = qs := by rw [hme]
  obtain ⟨input, hplan⟩ := plan_defined hn hc fun row hrow => (hrows row hrow).length
  obtain ⟨-, -, -, hp⟩ := plan_planned hplan
  obtain ⟨c, hok⟩ := writeTimeSeries_ok hcon hqs hn hf hp hb hrows 0 stored 0
  have hex : execute (.timeSeries m) checked faults s stored = writeTimeSeries m checked faults 0 input stored 0 := by
    unfold execute
    change (match plan m.querySchema s with | none => _ | some input => _) = _
    rw [hqs, hplan]
    rfl
  obtain ⟨-, -, new, -, hlen, hnew⟩ := C71_stored_partial name qs bs gs m hm checked faults s stored
    (execute (.timeSeries m) checked faults s stored).1 c (by rw [hex, ← hok])
  rw [hex, hok, hlen, hnew.length_eq]

/-- **C71**, for columns that are not listed: a statement without a stored column that does not allow null stores nothing and fails if it has
rows. -/
theorem C71_missing_column (name : String) (qs : List Column) (bs : List ErrorBound) (gs : List (Option (Generated ε))) (m : Metadata ε)
    (hm : tryNew name qs bs gs = .ok m) (checked : List Nat) (faults : Nat → Fault) (s : Statement) (c : Column) (hc : c ∈ m.schema)
    (hnull : c.nullable = false) (hlist : c.name ∉ columnsOf qs s) (stored : List Row) :
    (execute (.timeSeries m) checked faults s stored).1 = stored ∧
      (rowsOf s.batches ≠ [] → (execute (.timeSeries m) checked faults s stored).2 = none) := by
  have key : ∀ {given row}, StoredAs m.schema (columnsOf qs s) given row ∧ NoNull m.schema row → False := by
    rintro given row ⟨hs, hn⟩
    obtain ⟨j, hj⟩ := List.getElem?_of_mem hc
    obtain ⟨v, hv, ⟨i, hi, -⟩ | ⟨-, rfl⟩⟩ := hs.values j c hj
    · exact hlist (List.mem_of_getElem? hi)
    · exact hn j c hj hnull hv
  have nil : ∀ {rows new : List Row}, List.Forall₂ (fun given row => StoredAs m.schema (columnsOf qs s) given row ∧ NoNull m.schema row) rows new →
      rows = [] ∧ new = [] := by
    intro rows new h
    cases h with
    | nil => exact ⟨rfl, rfl⟩
    | cons h _ => exact (key h).elim
  cases hr : execute (.timeSeries m) checked faults s stored with
  | mk after result =>
    cases result with
    | none =>
      obtain ⟨j, new, -, rfl, -, hnew, -⟩ := C71_failed_partial name qs bs gs m hm checked faults s stored after hr
      rw [(nil hnew).2]
      simp
    | some n =>
      obtain ⟨-, -, new, rfl, -, hnew⟩ := C71_stored_partial name qs bs gs m hm checked faults s stored after n hr
      rw [(nil hnew).2]
      simp [(nil hnew).1]

/-- **C71**, for normal tables: the same, also for columns that allow null. -/
theorem C71_normal_partial (schema : List Column) (checked : List Nat) (faults : Nat → Fault) (s : Statement) (stored : List Row) :
    ∃ (j : Nat) (new : List Row), j ≤ s.batches.length ∧ (execute (ε := ε) (.normal schema) checked faults s stored).1 = stored ++ new ∧
      (∀ b ∈ s.batches.take j, b ≠ none) ∧ List.Forall₂ (StoredAs schema (columnsOf schema s)) (rowsOf (s.batches.take j)) new ∧
      (∀ n, (execute (ε := ε) (.normal schema) checked faults s stored).2 = some n → j = s.batches.length ∧ n = new.length ∧
        (columnsOf schema s).Nodup) ∧
      ((execute (ε := ε) (.normal schema) checked faults s stored).2 = none → (∀ i, faults i ≠ .after) → s.batches ≠ [] →
        j < s.batches.length) := by
  cases hplan : plan schema s with
  | none =>
    have hex : execute (ε := ε) (.normal schema) checked faults s stored = (stored, none) := by
      unfold execute
      change (match plan schema s with | none => _ | some input => _) = _
      rw [hplan]
    rw [hex]
    exact ⟨0, [], by simp, by simp, by simp, by simp [rowsOf], by simp, fun _ _ hb => List.length_pos_of_ne_nil hb⟩
  | some input =>
    have hex : execute (ε := ε) (.normal schema) checked faults s stored = writeNormal checked faults 0 input stored 0 := by
      unfold execute
      change (match plan schema s with | none => _ | some input => _) = _
      rw [hplan]
      rfl
    rw [hex]
    obtain ⟨hn, -, -, hp⟩ := plan_planned hplan
    obtain ⟨j, new, hj, hres, hsome, hnew, hok, herr⟩ := writeNormal_written (checked := checked) (faults := faults) hp 0 stored 0
    refine ⟨j, new, hj, hres, hsome, hnew.imp fun _ _ h => h.1, fun n hr => ?_, fun hr hf _ => herr hr hf⟩
    obtain ⟨h1, h2⟩ := hok n hr
    exact ⟨h1, by omega, hn⟩

/-- **C71**, for tables that rows cannot be inserted in: the statement always fails and changes nothing. -/
theorem C71_refused (schema : List Column) (checked : List Nat) (faults : Nat → Fault) (s : Statement) (stored : List Row) :
    execute (ε := ε) (.metadata schema) checked faults s stored = (stored, none) ∧
      execute (ε := ε) (.embedded schema) checked faults s stored = (stored, none) := by
  unfold execute
  constructor <;> (split <;> rfl)

/-- **C71**, for reading the rows: a query of the table returns a row that was inserted with all columns exactly as it was given if the values
that are given for the generated columns are those of their expressions. Missing: statements with other values fail, see `C71_generated`. -/
theorem C71_read_partial (name : String) (qs : List Column) (bs : List ErrorBound) (gs : List (Option (Generated ε))) (m : Metadata ε)
    (hm : tryNew name qs bs gs = .ok m) (hn : (qs.map (·.name)).Nodup) (value : ε → (String → Option Value) → Option Value) (given row : Row)
    (hlen : given.length = qs.length) (hs : StoredAs m.schema (qs.map (·.name)) given row) (hg : GeneratedAgree m value given) (i : Nat)
    (hi : i < qs.length) : expected m value (lookup m.schema row) i = given[i]? := by
  have hcon := consistent_of_tryNew hm
  obtain ⟨-, hl2, -, -, -, -, -, hme⟩ := tryNew_ok.mp hm
  have hqs : m.querySchema = qs := by rw [hme]
  have hgs : m.generated = gs := by rw [hme]
  have hc := List.getElem?_eq_getElem hi
  have hsame : ∀ nm, lookup m.schema row nm = givenStored m given nm := by
    intro nm
    unfold givenStored
    split
    · rename_i hmem
      obtain ⟨c, hcm, rfl⟩ := List.mem_map.mp hmem
      obtain ⟨j, hj⟩ := List.getElem?_of_mem hcm
      have hjl : j < m.querySchemaToSchema.length := by rw [← hcon.length.1]; exact (List.getElem?_eq_some_iff.mp hj).1
      have hq := List.getElem?_eq_getElem hjl
      obtain ⟨hlt, hcol, -⟩ := hcon.column j _ hq
      rw [hj] at hcol
      have h1 : indexOf m.schema c.name = some j := by
        refine indexOf_nodup ?_ hj
        rw [List.nodup_iff_getElem?_ne_getElem?]
        intro a b hab hb heq
        rw [List.length_map] at hb
        have ha' : a < m.querySchemaToSchema.length := by rw [← hcon.length.1]; omega
        have hb' : b < m.querySchemaToSchema.length := by rw [← hcon.length.1]; omega
        obtain ⟨_, ha1, -⟩ := hcon.column a _ (List.getElem?_eq_getElem ha')
        obtain ⟨hbl, hb1, -⟩ := hcon.column b _ (List.getElem?_eq_getElem hb')
        have hlt := List.pairwise_iff_getElem.mp hcon.increasing a b ha' hb' hab
        rw [List.getElem?_map, List.getElem?_map, ha1, hb1, ← List.getElem?_map, ← List.getElem?_map] at heq
        have := (List.getElem?_inj (by rw [List.length_map]; omega) hn).mp heq
        omega
      have h2 : indexOf m.querySchema c.name = some m.querySchemaToSchema[j] := by
        rw [hqs]
        exact indexOf_nodup hn hcol.symm
      unfold lookup
      rw [h1, h2]
      have hgiven : Given (qs.map (·.name)) given c.name (given[m.querySchemaToSchema[j]]'(by omega)) :=
        ⟨m.querySchemaToSchema[j], by rw [List.getElem?_map, ← hcol]; rfl, List.getElem?_eq_getElem _⟩
      simp only
      rw [storedAs_unique hn hs hj hgiven, List.getElem?_eq_getElem (by omega)]
    · rename_i hmem
      unfold lookup
      have : indexOf m.schema nm = none := by
        unfold indexOf
        rw [List.findIdx?_eq_none_iff]
        intro c hc
        simp only [decide_eq_false_iff_not]
        intro he
        exact hmem (List.mem_map.mpr ⟨c, hc, he⟩)
      rw [this]
  have hgl : i < gs.length := by omega
  unfold expected
  rw [hqs, hgs, hc, List.getElem?_eq_getElem hgl]
  cases hgi : gs[i] with
  | none =>
    simp only
    have hmem : i ∈ m.querySchemaToSchema := (hcon.positions i).mpr (by rw [List.getElem?_eq_getElem hgl, hgi])
    obtain ⟨j, hj⟩ := List.getElem?_of_mem hmem
    obtain ⟨-, hcol, -⟩ := hcon.column j i hj
    rw [hsame]
    unfold givenStored
    rw [if_pos (List.mem_map.mpr ⟨qs[i], List.mem_of_getElem? (hcol.trans hc), rfl⟩)]
    unfold lookup
    rw [hqs, indexOf_nodup hn hc]
    simp [List.getElem?_eq_getElem (hlen ▸ hi : i < given.length)]
  | some g =>
    simp only
    rw [hg i g (by rw [hgs, List.getElem?_eq_getElem hgl, hgi])]
    congr 1
    funext nm
    rw [hsame]

/-- A table with a generated column between the stored columns. The expression is a name. -/
def insertColumns : List Column := [⟨"ts", .timestamp, false⟩, ⟨"double", .value, false⟩, ⟨"v", .value, false⟩]

def insertMetadata : Except Failure (Metadata String) :=
  tryNew "t" insertColumns [.lossless, .lossless, .lossless] [none, some ⟨"v * 2", [2]⟩, none]

/-- The values of the expressions: twice the value of a column. -/
def doubled (_ : String) (columns : String → Option Value) : Option Value :=
  match columns "v" with
  | some (.number v) => some (.number (2 * v))
  | _ => some .null

/-- A statement with the columns in another order. The values are stored in their columns and read as they were given. -/
example : ∃ m, insertMetadata = .ok m ∧
    execute (.timeSeries m) [0] (fun _ => .none) ⟨.append, some ["v", "ts", "double"], [some [[.number 4, .time 9, .number 8]]]⟩
      [[.time 1, .number 7]] = ([[.time 1, .number 7], [.time 9, .number 4]], some 1) ∧
    Acceptable m [0] ["v", "ts", "double"] [.number 4, .time 9, .number 8] ∧
    GeneratedAgree m doubled [.time 9, .number 8, .number 4] ∧ StoredAs m.schema (insertColumns.map (·.name)) [.time 9, .number 8, .number 4]
      [.time 9, .number 4] ∧
    (List.range 3).map (expected m doubled (lookup m.schema [.time 9, .number 4])) = [some (.time 9), some (.number 8), some (.number 4)] := by
  refine ⟨_, rfl, by decide +kernel, ⟨rfl, ?_, ?_⟩, ?_, ⟨rfl, ?_⟩, by decide +kernel⟩
  · intro c hc
    simp at hc
    rcases hc with rfl | rfl
    · exact ⟨.time 9, ⟨1, rfl, rfl⟩, rfl⟩
    · exact ⟨.number 4, ⟨0, rfl, rfl⟩, rfl⟩
  · intro i hi c hc
    simp at hi
    subst hi
    cases hc
    exact ⟨.time 9, ⟨1, rfl, rfl⟩, by decide⟩
  · intro i g hg
    match i, hg with
    | 1, hg => cases hg; decide +kernel
    | 2, hg => cases hg
    | i + 3, hg => cases hg
  · intro j c hc
    match j, hc with
    | 0, hc => cases hc; exact ⟨_, rfl, .inl ⟨0, rfl, rfl⟩⟩
    | 1, hc => cases hc; exact ⟨_, rfl, .inl ⟨2, rfl, rfl⟩⟩
    | j + 2, hc => cases hc

/-- **C71 is false for OVERWRITE.** The operation has no effect, so rows that should be replaced are kept. -/
theorem C71_overwrite : (∀ (table : Table ε) (checked : List Nat) (faults : Nat → Fault) (op : Insert.Op) (columns : Option (List String))
      (batches : List (Option (List Row))) (stored : List Row),
      execute table checked faults ⟨op, columns, batches⟩ stored = execute table checked faults ⟨.append, columns, batches⟩ stored) ∧
    execute (ε := ε) (.normal [⟨"a", .value, true⟩]) [] (fun _ => .none) ⟨.overwrite, none, [some [[.number 2]]]⟩ [[.number 1]] =
      ([[.number 1], [.number 2]], some 1) := by
  refine ⟨fun table checked faults op columns batches stored => rfl, rfl⟩

/-- **C71 is false for generated columns.** The values that are given for them are dropped. The statement succeeds and a query returns other
values than those that were inserted. -/
theorem C71_generated : ∃ m, insertMetadata = .ok m ∧
    execute (.timeSeries m) [0] (fun _ => .none) ⟨.append, none, [some [[.time 9, .number 5, .number 4]]]⟩ [] = ([[.time 9, .number 4]], some 1) ∧
    expected m doubled (lookup m.schema [.time 9, .number 4]) 1 = some (.number 8) :=
  ⟨_, rfl, by decide +kernel, by decide +kernel⟩

/-- **C71 is false for statements that fail.** The rows of the first batch have been stored when the query that gives the rows fails, when a
value is null and when the storage engine fails, and the storage engine can fail after it has stored the rows. If the statement is executed
again, the rows are stored twice. -/
theorem C71_not_atomic : ∃ m, insertMetadata = .ok m ∧
    execute (.timeSeries m) [] (fun _ => .none) ⟨.append, none, [some [[.time 9, .number 8, .number 4]], none]⟩ [] =
      ([[.time 9, .number 4]], none) ∧
    execute (.timeSeries m) [] (fun _ => .none) ⟨.append, none, [some [[.time 9, .number 8, .number 4]], some [[.time 10, .number 0, .null]]]⟩ [] =
      ([[.time 9, .number 4]], none) ∧
    execute (.timeSeries m) [] (fun k => if k = 1 then .before else .none)
      ⟨.append, none, [some [[.time 9, .number 8, .number 4]], some [[.time 10, .number 0, .number 0]]]⟩ [] = ([[.time 9, .number 4]], none) ∧
    execute (.timeSeries m) [] (fun _ => .after) ⟨.append, none, [some [[.time 9, .number 8, .number 4]]]⟩ [] =
      ([[.time 9, .number 4]], none) :=
  ⟨_, rfl, by decide +kernel, by decide +kernel, by decide +kernel, by decide +kernel⟩

/-- A statement that does not list the column `v` stores nothing. -/
example : ∃ m, insertMetadata = .ok m ∧ (⟨"v", .value, false⟩ : Column) ∈ m.schema ∧ "v" ∉ ["ts", "double"] ∧
    execute (.timeSeries m) [] (fun _ => .none) ⟨.append, some ["ts", "double"], [some [[.time 9, .number 5]]]⟩ [] = ([], none) :=
  ⟨_, rfl, by decide +kernel, by decide +kernel, by decide +kernel⟩

end ModelarDB.Props
