import Verif.Lemmas.BulkLoader
/-
C67: the bulk loader imports all rows of the files into a table, or none, and exports the rows of a table.
-/
namespace ModelarDB.Props
open Model.BulkLoader Spec.BulkLoader Lemmas.BulkLoader

variable {ν : Type}

/-- **C67**: whatever fails and whatever is registered, an import adds one row for each row of the input or changes no table, and it adds them if it succeeds. -/
theorem C67_all_or_nothing (s : Session ν) (f : Folder ν) (zero : ν) (narrow : ν → ν) (full : Nat → Bool) (faults : Faults) (o : Options ν)
    (input : List (Option (Batch ν))) (hf : f.find o.name ≠ none) :
    let r := importWith s f zero narrow full faults o input
    (Unchanged f r.1 ∧ r.2 ≠ .ok) ∨
    ((∀ x ∈ input, x ≠ none) ∧ ∃ rows, rows.length = (inputRows input).length ∧ Added f r.1 o.name rows) := by
  obtain ⟨t, ht⟩ := Option.ne_none_iff_exists'.1 hf
  intro r
  have main : ∀ x : Folder ν × Outcome, ((x.1.tables = f.tables ∧ x.2 ≠ .ok) ∨
      ((∀ y ∈ input, ∃ b, y = some b) ∧ ∃ rows, rows.length = (inputRows input).length ∧ x.1 = f.append o.name rows)) → ∀ e : Bool,
      let y := match x with
        | (f', .ok) => if e = true then (f', Outcome.ok) else (f', Outcome.error)
        | z => z
      (Unchanged f y.1 ∧ y.2 ≠ .ok) ∨ ((∀ x ∈ input, x ≠ none) ∧ ∃ rows, rows.length = (inputRows input).length ∧ Added f y.1 o.name rows) := by
    rintro ⟨f', out⟩ hx e
    rcases hx with ⟨h1, h2⟩ | ⟨h1, rows, h2, h3⟩
    · left
      cases out with
      | ok => exact absurd rfl h2
      | _ => exact ⟨unchanged_of_tables h1, h2⟩
    · right
      refine ⟨fun x hx => by obtain ⟨b, rfl⟩ := h1 x hx; simp, rows, h2, ?_⟩
      have h3 : f' = f.append o.name rows := h3
      rw [h3]
      cases out <;> cases e <;> exact added_append f o.name rows ht
  simp only [r, importWith]
  split
  · exact .inl ⟨fun _ => rfl, by simp⟩
  · rename_i s' hs
    refine main _ ?_ (s'.executeAll o.postSql).isSome
    split
    · rename_i schema hr
      rcases writeTimeSeries_cases f o.name faults zero narrow o.double full schema input 0 [] [] with h | ⟨h1, rows, h2, h3, -⟩
      · exact .inl h
      · exact .inr ⟨h1, rows, by simpa using h2, h3⟩
    · split
      · exact .inl ⟨rfl, by simp⟩
      · simp only [importNormal, ht]
        rcases writeNormal_cases f o.name faults t.deltaSchema input 0 [] with h | ⟨h1, h2, -⟩
        · exact .inl ⟨h.1, by rw [h.2]; simp⟩
        · exact .inr ⟨fun y hy => by obtain ⟨b, hb, -⟩ := h1 y hy; exact ⟨b, hb⟩, inputRows input, rfl, by simpa using h2⟩

/-- What `import` does with a table, without the SQL. -/
theorem import_not_registered (f : Folder ν) (zero : ν) (narrow : ν → ν) (full : Nat → Bool) (faults : Faults) (o : Options ν)
    (input : List (Option (Batch ν))) {t : Table ν} (ht : f.find o.name = some t) :
    import_ f zero narrow full faults o input = (f, .error) ∨
    (o.double = false ∧ ∃ s', (openSession f).executeAll o.preSql = some s' ∧
      (import_ f zero narrow full faults o input).1 = (writeNormal f o.name faults t.deltaSchema 0 [] input).1 ∧
      (import_ f zero narrow full faults o input).2 =
        if (s'.executeAll o.postSql).isSome then (writeNormal f o.name faults t.deltaSchema 0 [] input).2
        else match (writeNormal f o.name faults t.deltaSchema 0 [] input).2 with
          | .ok => .error
          | x => x) := by
  simp only [import_, importWith]
  split
  · exact .inl rfl
  · rename_i s' hs
    rw [not_registered f _ s' o.name hs]
    cases hd : o.double
    · right
      refine ⟨rfl, s', by assumption, ?_⟩
      simp only [Bool.false_eq_true, if_false, importNormal, ht]
      rcases writeNormal f o.name faults t.deltaSchema 0 [] input with ⟨f', _ | _ | _⟩ <;> cases (s'.executeAll o.postSql).isSome <;> simp
    · left; simp

/-- **C67**: importing into a table that does not exist is an error and changes nothing. -/
theorem C67_no_table (f : Folder ν) (zero : ν) (narrow : ν → ν) (full : Nat → Bool) (faults : Faults) (o : Options ν)
    (input : List (Option (Batch ν))) (hf : f.find o.name = none) :
    import_ f zero narrow full faults o input = (f, .error) := by
  simp only [import_, importWith]
  split
  · rfl
  · next s' hs =>
    simp only [not_registered f _ s' o.name hs, importNormal, hf]
    cases o.double <;> rfl

/-- **C67** (partial): a successful import into a normal table adds exactly the rows of the files, whose schemas are that of the table.
Missing: time series tables (`C67_import_time_series_never`). -/
theorem C67_import_normal_partial (f : Folder ν) (zero : ν) (narrow : ν → ν) (full : Nat → Bool) (faults : Faults) (o : Options ν)
    (input : List (Option (Batch ν))) (schema : List Column) (old : List (List (Value ν))) (ht : IsNormalTable f o.name schema old)
    (h : (import_ f zero narrow full faults o input).2 = .ok) :
    Added f (import_ f zero narrow full faults o input).1 o.name (inputRows input) ∧ ∀ x ∈ input, ∃ b, x = some b ∧ b.schema = schema := by
  rcases import_not_registered f zero narrow full faults o input ht with hi | ⟨-, s', -, h1, h2⟩
  · rw [hi] at h; simp at h
  · rcases writeNormal_cases f o.name faults schema input 0 [] with ⟨-, h4⟩ | ⟨h3, h4, -⟩
    · rw [h2, show (Table.normal schema old).deltaSchema = schema from rfl, h4] at h
      split at h <;> simp at h
    · refine ⟨?_, h3⟩
      rw [h1]
      change Added f (writeNormal f o.name faults schema 0 [] input).1 o.name _
      rw [h4]
      exact added_append f o.name _ ht

/-- **C67** (partial): an import into a normal table succeeds if the files have its schema, nothing fails and the SQL can be executed in the session. -/
theorem C67_import_normal_succeeds_partial (f : Folder ν) (zero : ν) (narrow : ν → ν) (full : Nat → Bool) (faults : Faults) (hf : Works faults)
    (o : Options ν) (hd : o.double = false) (hsql : ((openSession f).executeAll (o.preSql ++ o.postSql)).isSome) (input : List (Option (Batch ν)))
    (schema : List Column) (old : List (List (Value ν))) (ht : IsNormalTable f o.name schema old) (hi : ∀ x ∈ input, ∃ b, x = some b ∧ b.schema = schema) :
    (import_ f zero narrow full faults o input).2 = .ok := by
  have split_ : ∀ (a b : List (Sql ν)) (s : Session ν), s.executeAll (a ++ b) = (s.executeAll a).bind fun s' => s'.executeAll b := by
    intro a b
    induction a with
    | nil => simp [Session.executeAll]
    | cons x a ih => intro s; cases hx : s.execute x <;> simp [Session.executeAll, hx, ih]
  rw [split_] at hsql
  have hw := writeNormal_works f o.name faults hf schema input hi 0 []
  have ht' : f.find o.name = some (.normal schema old) := ht
  simp only [import_, importWith]
  split
  · rename_i hn; simp [hn] at hsql
  · rename_i s' hs
    rw [hs] at hsql
    simp only [Option.bind_some] at hsql
    rw [not_registered f _ s' o.name hs]
    simp only [hd, Bool.false_eq_true, if_false, importNormal, ht', Table.deltaSchema]
    rcases hr : writeNormal f o.name faults schema 0 [] input with ⟨f', out⟩
    rw [hr] at hw
    have hw : out = .ok := hw
    simp [hw, hsql]

/-- **C67** refuted for time series tables: whatever the SQL is, an import of anything but compressed segments is an error and stores nothing. -/
theorem C67_import_time_series_never (f : Folder ν) (zero : ν) (narrow : ν → ν) (full : Nat → Bool) (faults : Faults) (o : Options ν)
    (input : List (Option (Batch ν))) (segments : List Column) (ht : IsTimeSeriesTable f o.name segments)
    (hi : ∃ x ∈ input, ∀ b, x = some b → b.schema ≠ segments) :
    (import_ f zero narrow full faults o input).2 = .error ∧ Unchanged f (import_ f zero narrow full faults o input).1 := by
  obtain ⟨schema, rows, ht⟩ := ht
  rcases import_not_registered f zero narrow full faults o input ht with hi' | ⟨-, s', -, h1, h2⟩
  · rw [hi']; exact ⟨rfl, fun _ => rfl⟩
  · rcases writeNormal_cases f o.name faults segments input 0 [] with ⟨h3, h4⟩ | ⟨h3, -⟩
    · refine ⟨?_, ?_⟩
      · rw [h2, show (Table.timeSeries schema segments rows).deltaSchema = segments from rfl, h4]
        split <;> rfl
      · rw [h1]; exact unchanged_of_tables h3
    · obtain ⟨x, hx, hb⟩ := hi
      obtain ⟨b, rfl, hs⟩ := h3 x hx
      exact absurd hs (hb b rfl)

/-- **C67** refuted for time series tables: doubles can never be cast to floats, which is only for time series tables. -/
theorem C67_cast_never (f : Folder ν) (zero : ν) (narrow : ν → ν) (full : Nat → Bool) (faults : Faults) (o : Options ν)
    (input : List (Option (Batch ν))) (hd : o.double = true) : import_ f zero narrow full faults o input = (f, .error) := by
  simp only [import_, importWith]
  split
  · rfl
  · rename_i s' hs
    rw [not_registered f _ s' o.name hs]; simp [hd]

/-- **C67** refuted: SQL that only ModelarDB has, e.g. the documented CREATE TIME SERIES TABLE, is an error before anything is imported. -/
theorem C67_create_never (f : Folder ν) (zero : ν) (narrow : ν → ν) (full : Nat → Bool) (faults : Faults) (o : Options ν)
    (input : List (Option (Batch ν))) (h : Sql.modelardb ∈ o.preSql) : import_ f zero narrow full faults o input = (f, .error) := by
  have key : ∀ (l : List (Sql ν)) (s : Session ν), Sql.modelardb ∈ l → s.executeAll l = none := by
    intro l
    induction l with
    | nil => simp
    | cons x l ih =>
      intro s hl
      rw [Session.executeAll]
      rcases List.mem_cons.1 hl with rfl | hl
      · rfl
      · cases s.execute x with
        | none => rfl
        | some s' => exact ih s' hl
  simp only [import_, importWith, key _ _ h]

/-- **C67** refuted: a table is never exported. Only what the SQL before the export defines in the session under the name of a normal table is exported. -/
theorem C67_export_never (f : Folder ν) (faults : Faults) (o : Options ν) (output : Option (Exported ν)) (h : ¬ Defines o.preSql o.name) :
    (export_ f faults o output).2 = .error := by
  simp only [export_, exportWith]
  split
  · rfl
  · rename_i s' hs
    have hl := executeAll_local o.preSql _ s' (by simp [openSession]) hs
    have hr : rowsOf f s' o.name = none := by
      unfold rowsOf
      have : s'.find? (·.1 == o.name) = none := by
        rw [List.find?_eq_none]
        intro p hp hn
        rcases hl.2 p hp with h' | h'
        · simp [openSession] at h'
        · rw [beq_iff_eq.1 hn] at h'; exact h h'
      rw [this]
    rw [hr]
    split <;> rfl

/-- **C67** refuted: a time series table is never exported whatever the SQL before the export is, and nothing is created. -/
theorem C67_export_time_series_never (f : Folder ν) (faults : Faults) (o : Options ν) (output : Option (Exported ν)) (segments : List Column)
    (ht : IsTimeSeriesTable f o.name segments) : export_ f faults o output = (output, .error) := by
  obtain ⟨schema, rows, ht⟩ := ht
  simp only [export_, exportWith]
  split
  · rfl
  · rename_i s' hs
    simp [schemaOf, not_registered f _ s' o.name hs, ht]

/-- **C67** refuted: a failed export of a normal table leaves a table without rows at the path, and then no export to the path succeeds, also if tables are
registered. -/
theorem C67_export_left (f : Folder ν) (faults : Faults) (o : Options ν) (schema : List Column) (rows : List (List (Value ν)))
    (ht : IsNormalTable f o.name schema rows) (h : ¬ Defines o.preSql o.name) (hp : ((openSession f).executeAll o.preSql).isSome) :
    export_ f faults o none = (some ⟨schema, [], []⟩, .error) ∧
    ∀ (s : Session ν) (f' : Folder ν) (faults' : Faults) (o' : Options ν), exportWith s f' faults' o' (some ⟨schema, [], []⟩) = (some ⟨schema, [], []⟩, .error) := by
  constructor
  · have ht' : f.find o.name = some (.normal schema rows) := ht
    simp only [export_, exportWith]
    split
    · rename_i hn; simp [hn] at hp
    · rename_i s' hs
      have hl := executeAll_local o.preSql _ s' (by simp [openSession]) hs
      have hr : rowsOf f s' o.name = none := by
        unfold rowsOf
        have : s'.find? (·.1 == o.name) = none := by
          rw [List.find?_eq_none]
          intro p hp hn
          rcases hl.2 p hp with h' | h'
          · simp [openSession] at h'
          · rw [beq_iff_eq.1 hn] at h'; exact h h'
        rw [this]
      simp [schemaOf, not_registered f _ s' o.name hs, ht', hr]
  · intro s f' faults' o'
    simp only [exportWith]
    split
    · rfl
    · split <;> simp_all

/-- **C67** (partial): if the tables were registered, a time series table would have all rows of the files by name. Missing: `import` does not register them, files with
other columns or another order (`C67_swapped`), nulls, and failures (`C67_all_or_nothing`). -/
theorem C67_registered_partial (f : Folder ν) (zero : ν) (narrow : ν → ν) (full : Nat → Bool) (faults : Faults) (hf : Works faults) (o : Options ν)
    (hsql : o.preSql = [] ∧ o.postSql = []) (schema segments : List Column) (old : List (List (Value ν)))
    (ht : f.find o.name = some (.timeSeries schema segments old)) (batches : List (Batch ν)) (hb : ∀ b ∈ batches, Fits o.double schema b) :
    ∃ stored : List (List (List (Value ν))),
      List.Forall₂ (fun b rows => List.Forall₂ (SameByName narrow b.schema schema) b.rows rows) batches stored ∧
      Added f (importWith (registerTables f) f zero narrow full faults o (batches.map some)).1 o.name stored.flatten ∧
      (importWith (registerTables f) f zero narrow full faults o (batches.map some)).2 = .ok := by
  have hreg : registeredTimeSeriesTable f (registerTables f) o.name = some schema := by
    have : (registerTables f).find? (·.1 == o.name) = some (o.name, .table o.name) := by
      obtain ⟨tables, orphans⟩ := f
      simp only [registerTables, Folder.find, Option.map_eq_some_iff] at ht ⊢
      obtain ⟨p, hp, -⟩ := ht
      rw [List.find?_map]
      have hn : p.1 = o.name := by simpa using List.find?_some hp
      have : ((fun x : String × Provider ν => x.1 == o.name) ∘ fun t : String × Table ν => (t.1, Provider.table t.1)) = fun t => t.1 == o.name := rfl
      rw [this, hp]; simp [hn]
    simp [registeredTimeSeriesTable, this, ht]
  have hw := writeTimeSeries_works f o.name faults hf zero narrow o.double full schema batches hb 0 [] (by simp) []
  simp only [List.flatMap_nil, List.map_nil, List.append_nil, List.nil_append] at hw
  refine ⟨batches.map fun b => b.rows.map (storedRow zero narrow o.double schema b), ?_, ?_⟩
  · rw [List.forall₂_map_right_iff, List.forall₂_same]
    intro b hbm
    rw [List.forall₂_map_right_iff, List.forall₂_same]
    intro row hrow
    exact storedRow_same zero narrow o.double schema b (hb b hbm).columns row ((hb b hbm).values row hrow)
  · simp only [importWith, hsql, Session.executeAll, hreg, hw, Option.isSome_some, if_true]
    refine ⟨?_, trivial⟩
    rw [← List.flatMap_def]
    exact added_append f o.name _ ht

/-! Witnesses and examples. -/

namespace BulkLoader

/-- A schema with the time, two fields and a tag. -/
def schema : List Column := [⟨"time", .timestamp .microsecond, false⟩, ⟨"a", .float32, false⟩, ⟨"b", .float32, false⟩, ⟨"tag", .utf8View, false⟩]

/-- The schema of segments, shortened. -/
def segments : List Column := [⟨"model", .other "UInt8", false⟩, ⟨"start_time", .timestamp .microsecond, false⟩]

/-- A time series table and a normal table. -/
def folder : Folder Int := ⟨[("wind", .timeSeries schema segments []), ("site", .normal [⟨"x", .float64, true⟩] [[.number 1]])], []⟩

def works : Faults := ⟨false, fun _ => false, false, .ok⟩

def batch : Batch Int := ⟨[⟨"time", .timestamp .second, false⟩, ⟨"a", .float64, true⟩, ⟨"b", .float32, false⟩, ⟨"tag", .utf8View, false⟩],
  [[.time 5, .number 1, .number 2, .text "x"]]⟩

/-- The fields in another order. -/
def swapped : Batch Int := ⟨[⟨"time", .timestamp .second, false⟩, ⟨"b", .float32, false⟩, ⟨"a", .float32, false⟩, ⟨"tag", .utf8View, false⟩],
  [[.time 5, .number 2, .number 1, .text "x"]]⟩

def wind : Options Int := ⟨"wind", [], [], false⟩
def site : Options Int := ⟨"site", [], [], false⟩

def siteBatch : Batch Int := ⟨[⟨"x", .float64, true⟩], [[.number 2], [.null]]⟩

theorem batch_fits : Fits true schema batch where
  columns := by
    refine .cons ⟨rfl, .second⟩ (.cons ⟨rfl, .double rfl⟩ (.cons ⟨rfl, .single⟩ (.cons ⟨rfl, .text⟩ .nil)))
  rows := by simp [batch]
  values := by
    intro row h
    rw [List.mem_singleton.1 h]
    exact .cons ⟨by decide, by decide⟩ (.cons trivial (.cons trivial (.cons trivial .nil)))

end BulkLoader

open BulkLoader

/-- **C67** refuted also if tables were registered: fields in another order are stored under the wrong names without an error. -/
theorem C67_swapped : (importWith (registerTables folder) folder 0 id (fun _ => false) works wind [some swapped]).2 = .ok ∧
    contents (importWith (registerTables folder) folder 0 id (fun _ => false) works wind [some swapped]).1 "wind" =
      some (schema, [[.time 5000000, .number 2, .number 1, .text "x"]]) ∧
    ¬ SameByName id swapped.schema schema [.time 5, .number (2 : Int), .number 1, .text "x"] [.time 5000000, .number 2, .number 1, .text "x"] := by
  refine ⟨by decide +kernel, by decide +kernel, fun h => ?_⟩
  obtain ⟨p, q, h1, h2, h3⟩ := h ⟨"a", .float32, false⟩ (by decide)
  have e1 : named swapped.schema [Value.time 5, .number (2 : Int), .number 1, .text "x"] "a" = some (⟨"a", .float32, false⟩, .number 1) := by decide +kernel
  have e2 : named schema [Value.time 5000000, .number (2 : Int), .number 1, .text "x"] "a" = some (⟨"a", .float32, false⟩, .number 2) := by decide +kernel
  cases e1.symm.trans h1
  cases e2.symm.trans h2
  simp [Means] at h3

example : folder.find "win" = none ∧ import_ folder 0 id (fun _ => false) works ⟨"win", [], [], false⟩ [some siteBatch] = (folder, .error) := by
  constructor <;> decide +kernel

/-- A row with nulls. -/
def BulkLoader.nulls : Batch Int :=
  ⟨[⟨"time", .timestamp .second, false⟩, ⟨"a", .float32, true⟩, ⟨"b", .float32, true⟩, ⟨"tag", .utf8View, true⟩], [[.time 5, .null, .number 1, .null]]⟩

/-- **C67** refuted also if tables were registered: nulls of fields and tags are stored as zeros and empty texts without an error. -/
theorem C67_nulls : (importWith (registerTables folder) folder 0 id (fun _ => false) works wind [some nulls]).2 = .ok ∧
    contents (importWith (registerTables folder) folder 0 id (fun _ => false) works wind [some nulls]).1 "wind" =
      some (schema, [[.time 5000000, .number 0, .number 1, .text ""]]) := by
  constructor <;> decide +kernel

/-- **C67** refuted: an import whose SQL afterwards fails, e.g. the DROP TABLE that is documented for exports, is an error although the rows are stored, so importing
again stores them twice. -/
theorem C67_error_after_import : (import_ folder 0 id (fun _ => false) works ⟨"site", [], [.drop "site" false], false⟩ [some siteBatch]).2 = .error ∧
    contents (import_ folder 0 id (fun _ => false) works ⟨"site", [], [.drop "site" false], false⟩ [some siteBatch]).1 "site" =
      some ([⟨"x", .float64, true⟩], [[.number 1], [.number 2], [.null]]) := by
  constructor <;> decide +kernel

/-- **C67** refuted: an error when reading the second file leaves the written rows in files that are not part of the table. -/
theorem C67_files_left : (import_ folder 0 id (fun _ => false) works site [some siteBatch, none]).2 = .error ∧
    (import_ folder 0 id (fun _ => false) works site [some siteBatch, none]).1.orphans = siteBatch.rows := by
  constructor <;> decide +kernel

/-- **C67** refuted: if the SQL before an export defines a table with the name of a normal table, the rows of the former are exported. -/
theorem C67_export_other : export_ folder works ⟨"site", [.define "site" false [⟨"x", .float64, true⟩] [[.number 9]]], [], false⟩ none =
    (some ⟨[⟨"x", .float64, true⟩], [[.number 9]], []⟩, .ok) := by decide +kernel

/-- If tables were registered, a normal table would be exported. -/
example : exportWith (registerTables folder) folder works site none = (some ⟨[⟨"x", .float64, true⟩], [[.number 1]], []⟩, .ok) := by decide +kernel

example : (import_ folder 0 id (fun _ => false) works site [some siteBatch]).2 = .ok :=
  C67_import_normal_succeeds_partial folder 0 id _ works ⟨rfl, fun _ => rfl, rfl, rfl⟩ site rfl rfl _ [⟨"x", .float64, true⟩] [[.number 1]] (by rfl)
    (by simp [siteBatch])

example : Added folder (import_ folder 0 id (fun _ => false) works site [some siteBatch]).1 "site" siteBatch.rows :=
  (C67_import_normal_partial folder 0 id (fun _ => false) works site [some siteBatch] _ [[.number 1]] (by rfl) (by decide +kernel)).1

example : (import_ folder 0 id (fun _ => false) works wind [some batch]).2 = .error :=
  (C67_import_time_series_never folder 0 id _ works wind [some batch] segments ⟨schema, [], by rfl⟩ ⟨_, List.mem_cons_self .., by rintro _ ⟨⟩; decide⟩).1

example : (export_ folder works wind none).2 = .error := C67_export_never _ _ _ _ (by rintro ⟨_, _, _, h⟩; simp [wind] at h)

example : export_ folder works wind none = (none, .error) := C67_export_time_series_never _ _ _ _ segments ⟨schema, [], by rfl⟩

example : export_ folder works site none = (some ⟨[⟨"x", .float64, true⟩], [], []⟩, .error) :=
  (C67_export_left folder works site _ [[.number 1]] (by rfl) (by rintro ⟨_, _, _, h⟩; simp [site] at h) rfl).1

example : import_ folder 0 id (fun _ => false) works ⟨"wind", [.modelardb], [], false⟩ [some batch] = (folder, .error) :=
  C67_create_never _ _ _ _ _ _ _ (by simp)

example : import_ folder 0 id (fun _ => false) works ⟨"wind", [], [], true⟩ [some batch] = (folder, .error) := C67_cast_never _ _ _ _ _ _ _ rfl

example :=
  C67_registered_partial folder 0 id (fun i => i == 0) works ⟨rfl, fun _ => rfl, rfl, rfl⟩ ⟨"wind", [], [], true⟩ ⟨rfl, rfl⟩ schema segments [] (by rfl)
    [batch, batch] (by simp [batch_fits])

example := C67_all_or_nothing [] folder 0 id (fun _ => false) ⟨false, fun i => i == 1, true, .ok⟩ site [some siteBatch, some siteBatch] (by decide +kernel)

end ModelarDB.Props
