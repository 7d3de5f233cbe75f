import Verif.Props.C30
/-
C31: Creating a table is atomic.
-/
namespace ModelarDB.Props
open Model Model.TableDefinition Model.DataFolder Spec Lemmas

/-- **C31**, partial, for time series tables. After any requests, a crash at any point while a table is created leaves a folder with
which a server starts with all other tables as they were. If the crash is after the first two changes the new table exists and is the
one that was requested, without the error bounds and expressions of the columns whose rows were not written. Missing: the crash can
leave a part of the definition, or a name that cannot be used, see below. -/
theorem C31_crash_in_create_partial {ε : Type} (env env' : Env ε) (henv : ∀ e, (env.refs e).Perm (env'.refs e))
    (ops : List (FolderOp ε)) (d : Disk ε) (hrun : folderRun emptyFolder ops = some d) (hs : ∀ m ∈ created ops, Storable env m)
    (hn : ∀ t ∈ createdNormal ops, SelfName t.toList)
    (m : Metadata ε) (hm : Storable env m) (bounds : List ErrorBound)
    (hacc : tryNew m.name m.querySchema bounds m.generated = .ok m) (es : List (Effect ε))
    (he : createTimeSeriesTable d m = some es) (k : Nat) :
    (k < 2 → ∃ ts, start env' (d.applyAll (es.take k)) = .ok (normalTablesAfter [] ops, ts) ∧
      List.Forall₂ SameDefinition (tablesAfter [] ops) ts) ∧
    (2 ≤ k → ∃ n m₀ m' ts, n ≤ m.querySchema.length ∧
      (m.querySchema.take n).countP (fun c => c.type = .value) = min (k - 2) (m.querySchema.countP fun c => c.type = .value) ∧
      tryNew m.name m.querySchema (boundsUpTo n bounds) (generatedUpTo n m.generated) = .ok m₀ ∧ SameDefinition m₀ m' ∧
      start env' (d.applyAll (es.take k)) = .ok (normalTablesAfter [] ops, ts ++ [m']) ∧
      List.Forall₂ SameDefinition (tablesAfter [] ops) ts) := by
  have hok := folderOk_empty.run hrun
  have hs' : ∀ m ∈ tablesAfter [] ops, Storable env m := by
    intro m hm
    rcases mem_tablesAfter hm with h | h
    · simp at h
    · exact hs m h
  have hself : ∀ t ∈ normalTablesAfter [] ops, SelfName t.toList := by
    intro t ht
    rcases mem_normalTablesAfter ht with h | h
    · simp at h
    · exact hn t h
  constructor
  · intro hk
    rcases (by omega : k = 0 ∨ k = 1) with rfl | rfl
    · exact hok.start henv hs' hself
    · unfold createTimeSeriesTable at he
      split at he
      · cases he
      · injection he with he
        subst he
        exact hok.crash_before henv hs' hself m.name true
  · intro hk
    obtain ⟨k, rfl⟩ := Nat.exists_eq_add_of_le' hk
    exact hok.crash_after henv hs' hself hm hacc he k

/-- **C31**, partial, for normal tables: after a crash while a normal table is created the server starts with all other tables as they
were. The table exists if both changes were made. -/
theorem C31_crash_in_create_normal_partial {ε : Type} (env env' : Env ε) (henv : ∀ e, (env.refs e).Perm (env'.refs e))
    (ops : List (FolderOp ε)) (d : Disk ε) (hrun : folderRun emptyFolder ops = some d) (hs : ∀ m ∈ created ops, Storable env m)
    (hn : ∀ t ∈ createdNormal ops, SelfName t.toList)
    (table : String) (ht : SelfName table.toList) (es : List (Effect ε)) (he : createNormalTable d table = some es) (k : Nat) :
    ∃ ts, start env' (d.applyAll (es.take k)) = .ok (normalTablesAfter [] ops ++ (if k < 2 then [] else [table]), ts) ∧
      List.Forall₂ SameDefinition (tablesAfter [] ops) ts := by
  have hok := folderOk_empty.run hrun
  have hs' : ∀ m ∈ tablesAfter [] ops, Storable env m := by
    intro m hm
    rcases mem_tablesAfter hm with h | h
    · simp at h
    · exact hs m h
  have hself : ∀ t ∈ normalTablesAfter [] ops, SelfName t.toList := by
    intro t ht
    rcases mem_normalTablesAfter ht with h | h
    · simp at h
    · exact hn t h
  have hall := hok.createNormal he
  unfold createNormalTable at he
  split at he
  · cases he
  · injection he with he
    subst he
    rcases (by omega : k = 0 ∨ k = 1 ∨ 2 ≤ k) with rfl | rfl | hk
    · simpa [Disk.applyAll] using hok.start henv hs' hself
    · simpa [Disk.applyAll] using hok.crash_before henv hs' hself table false
    · rw [List.take_of_length_le (by simpa using hk), if_neg (by omega)]
      refine hall.start henv hs' ?_
      intro u hu
      rcases List.mem_append.mp hu with hu | hu
      · exact hself u hu
      · rw [List.mem_singleton.mp hu]; exact ht

/-- **C31** for dropping, partial: after a crash while a table is dropped the server starts with all other tables as they were. The table
is gone as soon as one change was made. -/
theorem C31_crash_in_drop_partial {ε : Type} (env env' : Env ε) (henv : ∀ e, (env.refs e).Perm (env'.refs e))
    (ops : List (FolderOp ε)) (d : Disk ε) (hrun : folderRun emptyFolder ops = some d) (hs : ∀ m ∈ created ops, Storable env m)
    (hn : ∀ t ∈ createdNormal ops, SelfName t.toList)
    (table : String) (es : List (Effect ε)) (he : dropTable d table = some es) (k : Nat) (hk : 0 < k) :
    ∃ ts, start env' (d.applyAll (es.take k)) = .ok ((normalTablesAfter [] ops).filter (· ≠ table), ts) ∧
      List.Forall₂ SameDefinition ((tablesAfter [] ops).filter (·.name ≠ table)) ts := by
  have hok := folderOk_empty.run hrun
  have hs' : ∀ m ∈ tablesAfter [] ops, Storable env m := by
    intro m hm
    rcases mem_tablesAfter hm with h | h
    · simp at h
    · exact hs m h
  have hself : ∀ t ∈ normalTablesAfter [] ops, SelfName t.toList := by
    intro t ht
    rcases mem_normalTablesAfter ht with h | h
    · simp at h
    · exact hn t h
  obtain ⟨k, rfl⟩ := Nat.exists_eq_add_of_le' hk
  exact hok.crash_drop henv hs' hself he k

/-! ### Names that cannot be used -/

/-- No request can use a name: the table does not exist for the server, so it cannot be dropped, and it cannot be created. -/
def Unusable {ε : Type} (registered : List String) (d : Disk ε) (table : String) : Prop :=
  table ∉ registered ∧ serverDrop registered d table = none ∧ serverCreateNormal registered d table = none ∧
    ∀ m : Metadata ε, m.name = table → serverCreate registered d m = none

theorem unusable_of_delta {ε : Type} {registered : List String} {d : Disk ε} {table : String} (hr : table ∉ registered)
    (hd : d.deltaTables.any (·.1 = table) = true) : Unusable registered d table := by
  refine ⟨hr, ?_, ?_, ?_⟩
  · simp [serverDrop, hr]
  · simp [serverCreateNormal, hr, createNormalTable, hd]
  · rintro m rfl
    simp [serverCreate, hr, createTimeSeriesTable, hd]

/-- **C31** is false: after a crash between the first two changes the table does not exist and its name cannot be used, whatever the
definition is. -/
theorem C31_create_leaves_unusable_name {ε : Type} (d : Disk ε) (m : Metadata ε) (es : List (Effect ε))
    (he : createTimeSeriesTable d m = some es) (registered : List String) (hr : m.name ∉ registered) :
    Unusable registered (d.applyAll (es.take 1)) m.name := by
  apply unusable_of_delta hr
  unfold createTimeSeriesTable at he
  split at he
  · cases he
  · injection he with he
    subst he
    simp [Disk.applyAll, Disk.apply]

/-- The same for normal tables. -/
theorem C31_create_normal_leaves_unusable_name {ε : Type} (d : Disk ε) (table : String) (es : List (Effect ε))
    (he : createNormalTable d table = some es) (registered : List String) (hr : table ∉ registered) :
    Unusable registered (d.applyAll (es.take 1)) table := by
  apply unusable_of_delta hr
  unfold createNormalTable at he
  split at he
  · cases he
  · injection he with he
    subst he
    simp [Disk.applyAll, Disk.apply]

/-- The same for tables that are dropped: after a crash before the files are deleted the name cannot be used. -/
theorem C31_drop_leaves_unusable_name {ε : Type} (d : Disk ε) (table : String) (es : List (Effect ε))
    (he : dropTable d table = some es) (registered : List String) (hr : table ∉ registered) :
    Unusable registered (d.applyAll es.dropLast) table := by
  apply unusable_of_delta hr
  unfold dropTable at he
  split at he
  · cases he
  all_goals
    rename_i heq
    have hmem := List.mem_of_find?_eq_some heq
    have := List.find?_some heq
    injection he with he
    subst he
    exact List.any_eq_true.mpr ⟨_, hmem, this⟩

/-! ### A part of a definition -/

/-- The tables that are loaded after a crash when a table is created in an empty folder. -/
def crashed (m : Except Failure (Metadata (List String))) (k : Nat) :
    Option (Except Failure (List String × List (Metadata (List String)))) :=
  match m with
  | .ok m => (createTimeSeriesTable emptyFolder m).map fun es => start listEnv ((emptyFolder : Disk (List String)).applyAll (es.take k))
  | .error _ => none

/-- **C31** is false: after a crash while the rows of the columns are written, the table exists, but the error bound of one of its
columns is missing. After an earlier crash its generated column has to be ingested, too. -/
theorem C31_part_of_definition : ∃ m m4 m2, sqlTable "t" = .ok m ∧ crashed (sqlTable "t") 4 = some (.ok ([], [m4])) ∧
    crashed (sqlTable "t") 2 = some (.ok ([], [m2])) ∧
    m.errorBounds = [.lossless, .lossless, .absolute (.fin false 2), .relative (.fin false 5)] ∧
    m4.errorBounds = [.lossless, .lossless, .absolute (.fin false 2), .lossless] ∧
    m2.errorBounds = [.lossless, .lossless, .lossless, .lossless, .lossless] ∧
    m.schema.map (·.name) = ["ts", "tag", "a", "b"] ∧ m2.schema.map (·.name) = ["ts", "sum", "tag", "a", "b"] := by
  refine ⟨_, _, _, rfl, rfl, rfl, ?_⟩
  decide +kernel

/-- After all changes the table is the one that was requested. -/
example : ∃ m, sqlTable "t" = .ok m ∧ crashed (sqlTable "t") 5 = some (.ok ([], [m])) := ⟨_, rfl, rfl⟩

end ModelarDB.Props
