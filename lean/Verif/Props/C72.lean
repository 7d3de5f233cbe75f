import Verif.Lemmas.Rename
import Verif.Props.C57
/-
C72: what a query returns does not depend on what the columns are called.
-/
namespace ModelarDB.Props
open Model Model.Query Model.TableDefinition Spec Lemmas

/-- Whether a table can be created does not depend on the names of its columns, and its definition differs in nothing else. -/
theorem C72_created {ε : Type} {env : Env ε} (r : Renaming env) (name : String) (columns : List (SqlColumn ε)) :
    createFromSql env name (columns.map r.sqlColumn) = (createFromSql env name columns).map r.table :=
  Rename.createFromSql_rename r name columns

theorem tagColumns_names {ε : Type} {m : Metadata ε} : tagNamesOf m = (tagColumns m).map (·.name) := rfl

/-- The tags of a table have different names if all columns do. -/
theorem own_of_created {ε : Type} {env : Env ε} {name : String} {columns : List (SqlColumn ε)} {m : Metadata ε}
    (h : createFromSql env name columns = .ok m) (hown : OwnTagNames m) : Rename.Own (tagColumns m) := by
  obtain ⟨_, hn, bs, hm⟩ := C57_sql_fields env name columns m h []
  have hc := consistent_of_tryNew hm
  have hs := schema_nodup hc hn
  exact ⟨tagNames_nodup hc hs, hown⟩

theorem keeps_iff {I : Interpretation} {p p' : Option Expr} {f f' : String → Value} {ε : Type} {env : Env ε} (r : Renaming env)
    {names tags : List String} (h : Rename.SameFilter r names tags p p') (hn : ∀ n ∈ names, f' n = f n) (ht : ∀ n ∈ tags, f' (r.name n) = f n) :
    Keeps I p' f' ↔ Keeps I p f := by
  rcases h with ⟨rfl, rfl⟩ | ⟨e, e', rfl, rfl, h⟩
  · constructor <;> (intro _ e h; cases h)
  · have := h I f f' hn ht
    constructor
    · rintro hk x ⟨⟩
      rw [← this]
      exact hk e' rfl
    · rintro hk x ⟨⟩
      rw [this]
      exact hk e rfl

/-- **C72** in the parts that hold: a table is created with any other names of its columns, and each query, with the new names, returns
exactly what it returned before: the same batches, failures and aborts. This is for all contents of the table, however the files are read, and
for all columns and filters. The names the server uses for the columns of segments and data points can be names of the timestamp column and
fields, but not of tags. The meaning of an expression does not change with the names of the columns. Not shown is the property for tags with
such a name and for filters that require a value to be equal to the timestamp with the timestamp on the right. For these it is false of the
code, see the theorems below. -/
theorem C72_same_answer_partial {ε σ : Type} {env : Env ε} (r : Renaming env) (name : String) (columns : List (SqlColumn ε)) (m : Metadata ε)
    (h : createFromSql env name columns = .ok m) :
    ∃ m', createFromSql env name (columns.map r.sqlColumn) = .ok m' ∧ (OwnTagNames m → OwnTagNames m' →
      ∀ (w : World ε σ), (∀ e, w.meaning (r.expr e) = w.meaning e) → ∀ (projection : List Nat) (filters : List Expr),
        (∀ f ∈ filters, ¬ ReversedEquality m.schema f) → ∀ (n : Nat),
          answer env w m' projection (filters.map r.filter) n = (answer env w m projection filters n).map r.answer) := by
  refine ⟨r.table m, by rw [C72_created, h]; rfl, ?_⟩
  intro hown hown' w hw projection filters hf n
  have hO := own_of_created h hown
  have hO' : ∀ n ∈ (tagColumns m).map (·.name), r.name n ∉ serverNames := by
    intro n hn
    refine hown' (r.name n) ?_
    rw [tagColumns_names, Rename.tagColumns_rename, Rename.map_name]
    exact List.mem_map_of_mem hn
  have hfree : ∀ tag ∈ tagNamesOf m, FreeName tag := fun tag ht =>
    ⟨fun he => hown tag ht (by rw [he]; decide), fun he => hown tag ht (by rw [he]; decide)⟩
  have hfree' : ∀ tag ∈ tagNamesOf m, FreeName (r.name tag) := fun tag ht =>
    ⟨fun he => hO' tag ht (by rw [he]; decide), fun he => hO' tag ht (by rw [he]; decide)⟩
  have hplan := Rename.planFilters_rename r m hO hO' filters hf
  unfold answer
  rw [Rename.planScan_rename]
  cases planScan env w.hashOrder m projection with
  | error e => rfl
  | ok plan =>
    simp only [Except.map]
    revert hplan
    cases planFilters m filters with
    | error e =>
      cases planFilters (r.table m) (filters.map r.filter) with
      | error e' => rintro ⟨⟩; rfl
      | ok b => exact fun h => h.elim
    | ok a =>
      obtain ⟨parquet, grid⟩ := a
      cases planFilters (r.table m) (filters.map r.filter) with
      | error e' => exact fun h => h.elim
      | ok b =>
        obtain ⟨parquet', grid'⟩ := b
        rintro ⟨h1, h2⟩
        dsimp only
        have hq : ∀ n ∈ (tagColumns m).map (·.name), n ∉ queryCompressedBase.map (·.name) ∧ n ∉ gridBase.map (·.name) ∧
            r.name n ∉ queryCompressedBase.map (·.name) ∧ r.name n ∉ gridBase.map (·.name) := fun n hn =>
          ⟨fun h => hO.own n hn (Rename.query_names n h), fun h => hO.own n hn (Rename.grid_names n h),
            fun h => hO' n hn (Rename.query_names _ h), fun h => hO' n hn (Rename.grid_names _ h)⟩
        have hkeep : (fun s => decide (Keeps w.interpretation parquet' (segmentColumns w (r.table m) s))) =
            fun s => decide (Keeps w.interpretation parquet (segmentColumns w m s)) := by
          funext s
          refine decide_eq_decide.mpr (keeps_iff r h1 (fun n hn => ?_) fun n hn => ?_)
          · unfold segmentColumns
            rw [Rename.tagColumns_rename]
            exact Rename.lookup_server r ((by decide +kernel : ∀ n ∈ ["start_time", "end_time"], n ∈ queryCompressedBase.map (·.name)) n hn)
          · unfold segmentColumns
            rw [Rename.tagColumns_rename]
            exact Rename.lookup_own r (hq n hn).1 (hq n hn).2.2.1
        have hpred : (grid'.map fun e p => decide (e.eval w.interpretation (pointColumns (r.table m) p) = .bool true)) =
            grid.map fun e p => decide (e.eval w.interpretation (pointColumns m p) = .bool true) := by
          rcases h2 with ⟨rfl, rfl⟩ | ⟨e, e', rfl, rfl, h2⟩
          · rfl
          · simp only [Option.map_some, Option.some.injEq]
            funext p
            rw [h2 w.interpretation (pointColumns m p) (pointColumns (r.table m) p) (fun n hn => ?_) fun n hn => ?_]
            · unfold pointColumns
              rw [Rename.tagColumns_rename]
              exact Rename.lookup_server r ((by decide +kernel : ∀ n ∈ ["timestamp"], n ∈ gridBase.map (·.name)) n hn)
            · unfold pointColumns
              rw [Rename.tagColumns_rename]
              exact Rename.lookup_own r (hq n hn).2.1 (hq n hn).2.2.2
        have hnames : tagNamesOf (r.table m) = (tagNamesOf m).map r.name := by
          rw [tagColumns_names, Rename.tagColumns_rename, Rename.map_name, tagColumns_names]
        have hjoin := fun (poll : Poller (GridStream (List (Event (List σ)))) (List Point)) =>
          Rename.pollJoin_rename r hfree hfree' plan.order poll
        have hcheck : ∀ x, checkedBatches (Rename.plan r plan) x = checkedBatches plan x := by
          intro x
          simp only [checkedBatches, Rename.plan, List.length_map]
        have heval : ∀ e, evaluateGenerated env w (Rename.plan r plan).joinSchema (r.expr e) = evaluateGenerated env w plan.joinSchema e :=
          fun e => Rename.evaluateGenerated_rename r hw plan.joinSchema e
        have hfinish : finish (evaluateGenerated env w (Rename.plan r plan).joinSchema) (Rename.plan r plan) =
            finish (evaluateGenerated env w plan.joinSchema) plan := by
          funext batch
          exact Rename.finish_rename r heval plan batch
        rw [hkeep, hpred, hnames, hcheck, hfinish, show (Rename.plan r plan).order = plan.order.map (Rename.joinColumn r) from rfl, hjoin,
          show (Rename.plan r plan).fields = plan.fields from rfl]
        rfl

/-! ### A table with other names -/

/-- Each name gets two more letters at its front. -/
def prefixed : Renaming listEnv where
  name n := "my" ++ n
  expr e := e.map ("my" ++ ·)
  injective _ _ h := String.append_right_inj "my" |>.mp h
  refs _ := rfl

/-- What the queries below depend on: the segments are read in one batch, a generated column is the first column it refers to. -/
def smallWorld : World (List String) ListSegment where
  interpretation := ⟨fun _ _ => .null, fun _ _ _ => .null⟩
  segment := listSegment
  rest _ _ := .null
  read keep _ := [.item ([⟨["A"], (1, 10), [(2, 20)]⟩, ⟨["B"], (1, 30), []⟩].filter keep)]
  meaning _ _ columns := columns.head?
  hashOrder := id
  batchSize := 8192

/-- `SELECT location, v, ts FROM t WHERE ts > 1` and the same query after the columns are renamed. -/
example : ∃ m m', createFromSql listEnv "t" [.timestamp "ts", .tag "location", .field "v", .fieldAs "copy" ["v"]] = .ok m ∧
    createFromSql listEnv "t" [.timestamp "myts", .tag "mylocation", .field "myv", .fieldAs "mycopy" ["myv"]] = .ok m' ∧
    answer listEnv smallWorld m' [1, 3, 0] [.binary (.column "myts") .gt (.constant (.time 1))] 9 =
      (answer listEnv smallWorld m [1, 3, 0] [.binary (.column "ts") .gt (.constant (.time 1))] 9).map prefixed.answer ∧
    ∃ a, answer listEnv smallWorld m [1, 3, 0] [.binary (.column "ts") .gt (.constant (.time 1))] 9 = .ok a ∧
      a.batches = [.ok [[.tag "A"], [.value 20], [.time 2]]] ∧ a.ending = .finished := by
  have hm : ∃ m, createFromSql listEnv "t" [.timestamp "ts", .tag "location", .field "v", .fieldAs "copy" ["v"]] = .ok m := ⟨_, rfl⟩
  obtain ⟨m, hm⟩ := hm
  obtain ⟨m', hm', h⟩ := C72_same_answer_partial (σ := ListSegment) prefixed "t" _ m hm
  refine ⟨m, m', hm, hm', ?_, ?_⟩
  · cases hm
    cases hm'
    exact h (by decide +kernel) (by decide +kernel) smallWorld (fun _ => rfl) [1, 3, 0] [.binary (.column "ts") .gt (.constant (.time 1))]
      (by simp [ReversedEquality]) 9
  · cases hm
    exact ⟨_, rfl, by decide +kernel, by decide +kernel⟩

/-! ### Tags with a name the server uses -/

/-- The answer of a query for a table with a tag, for any name of the tag. -/
def tagAnswer (tag : String) (projection : List Nat) (filters : List Expr) : Except Failure Answer :=
  match taggedTable tag with
  | .ok m => answer listEnv smallWorld m projection filters 9
  | .error e => .error e

/-- **C72** is false of the code for tags that are called `value` or `timestamp`: a query for the tag aborts the server and a query with a time
filter fails. Both return rows if the tag has another name. -/
theorem C72_tag_names :
    (∀ tag ∈ ["value", "timestamp"], (∃ m, taggedTable tag = .ok m) ∧
      (∃ a, tagAnswer tag [1] [] = .ok a ∧ a.batches = [] ∧ a.ending = .panicked) ∧
      tagAnswer tag [0] [.binary (.column "ts") .gt (.constant (.time 1))] = .error .error) ∧
    (∃ a, tagAnswer "location" [1] [] = .ok a ∧ a.batches = [.ok [[.tag "A", .tag "A", .tag "B"]]] ∧ a.ending = .finished) ∧
    ∃ a, tagAnswer "location" [0] [.binary (.column "ts") .gt (.constant (.time 1))] = .ok a ∧ a.batches = [.ok [[.time 2]]] ∧
      a.ending = .finished := by
  refine ⟨?_, ⟨_, rfl, by decide +kernel, by decide +kernel⟩, _, rfl, by decide +kernel, by decide +kernel⟩
  simp only [List.mem_cons, List.not_mem_nil, or_false, forall_eq_or_imp, forall_eq]
  exact ⟨⟨⟨_, rfl⟩, ⟨_, rfl, by decide +kernel, by decide +kernel⟩, by rfl⟩, ⟨_, rfl⟩, ⟨_, rfl, by decide +kernel, by decide +kernel⟩, by rfl⟩

/-- **C72** is false of the code for filters that require a value to be equal to the timestamp with the timestamp on the right: whether the
query fails depends on the name of the timestamp column, and if it does not fail every data point passes the rewritten filter. -/
theorem C72_timestamp_name :
    (∃ m, createFromSql listEnv "t" [.timestamp "ts", .tag "day", .field "v"] = .ok m ∧
      planFilters m [.binary (.other 0 ["day"]) .eq (.column "ts")] = .error .error) ∧
    ∃ m, createFromSql listEnv "t" [.timestamp "timestamp", .tag "day", .field "v"] = .ok m ∧
      ∃ p, planFilters m [.binary (.other 0 ["day"]) .eq (.column "timestamp")] =
        .ok (p, some (.binary (.column "timestamp") .eq (.column "timestamp"))) :=
  ⟨⟨_, rfl, rfl⟩, _, rfl, _, rfl⟩

end ModelarDB.Props
