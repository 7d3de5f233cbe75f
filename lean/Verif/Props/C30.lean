import Verif.Lemmas.DataFolder
/-
C30: Table metadata survives a restart.
-/
namespace ModelarDB.Props
open Model Model.TableDefinition Model.DataFolder Spec Lemmas

/-- **C30**, partial. After any requests that create and drop tables, a server that is restarted has exactly the tables that were created
and not dropped, with the definitions they were created with. Only the order of the columns in a set may differ between two runs of the
server. Missing: definitions that are not `Storable`, see below, and names that do not stand
for themselves, see C62. -/
theorem C30_restart_partial {ε : Type} (env env' : Env ε) (henv : ∀ e, (env.refs e).Perm (env'.refs e)) (ops : List (FolderOp ε))
    (d : Disk ε) (hrun : folderRun emptyFolder ops = some d) (hs : ∀ m ∈ created ops, Storable env m)
    (hn : ∀ t ∈ createdNormal ops, SelfName t.toList) :
    ∃ ts, start env' d = .ok (normalTablesAfter [] ops, ts) ∧ List.Forall₂ SameDefinition (tablesAfter [] ops) ts := by
  refine (folderOk_empty.run hrun).start henv ?_ ?_
  · intro m hm
    rcases mem_tablesAfter hm with h | h
    · simp at h
    · exact hs m h
  · intro t ht
    rcases mem_normalTablesAfter ht with h | h
    · simp at h
    · exact hn t h

theorem meaningful_of_absolute {v : FVal} {b : ErrorBound} (hp : Proper v) (h : ErrorBound.tryNewAbsolute v = some b) : Meaningful b := by
  unfold ErrorBound.tryNewAbsolute at h
  split at h
  · cases h
  rename_i hc
  injection h with h
  subst h
  cases v with
  | nan => simp [FVal.isFinite] at hc
  | inf s => simp [FVal.isFinite] at hc
  | fin s q =>
    simp only [Proper] at hp
    simp only [FVal.isFinite, FVal.le, FVal.lt, FVal.eq, FVal.signed, Bool.not_true, Bool.false_or, Bool.or_eq_true,
      decide_eq_true_eq, Bool.false_eq_true, if_false, not_or] at hc
    cases s with
    | true =>
      simp only [if_true] at hc
      exfalso
      rcases hp.lt_or_eq with h | h
      · exact hc.1 (by linarith)
      · exact hc.2 (by rw [← h]; simp)
    | false =>
      simp only [Bool.false_eq_true, if_false] at hc
      exact ⟨q, rfl, lt_of_le_of_ne hp (Ne.symm hc.2)⟩

theorem meaningful_of_relative {v : FVal} {b : ErrorBound} (hp : Proper v) (h : ErrorBound.tryNewRelative v = some b) : Meaningful b := by
  unfold ErrorBound.tryNewRelative at h
  split at h
  · cases h
  rename_i hc
  injection h with h
  subst h
  cases v with
  | nan => simp [FVal.lt] at hc
  | inf s => cases s <;> simp [FVal.lt, FVal.le, FVal.eq] at hc
  | fin s q =>
    simp only [Proper] at hp
    simp only [FVal.le, FVal.lt, FVal.eq, FVal.signed, Bool.not_eq_true', Bool.not_eq_false, Bool.and_eq_true, Bool.or_eq_true,
      decide_eq_true_eq, Bool.false_eq_true, if_false] at hc
    cases s with
    | true =>
      simp only [if_true] at hc
      linarith [hc.1]
    | false =>
      simp only [Bool.false_eq_true, if_false] at hc
      exact ⟨q, rfl, hc.1, le_of_lt_or_eq hc.2⟩

/-- The numbers in a statement are not negative. -/
def SqlColumn.Proper {ε : Type} : SqlColumn ε → Prop
  | .fieldBound _ v _ => Spec.Proper v
  | _ => True

theorem sqlBound_meaningful {ε : Type} {c : SqlColumn ε} (hc : SqlColumn.Proper c) {b : ErrorBound} (h : c.bound = .ok b) :
    Meaningful b := by
  cases c with
  | fieldBound n v rel =>
    simp only [SqlColumn.bound] at h
    split at h
    · split at h
      · rename_i b' hb
        injection h with h
        subst h
        cases rel with
        | true => exact meaningful_of_relative hc hb
        | false => exact meaningful_of_absolute hc hb
      · cases h
    · injection h with h
      subst h
      trivial
  | _ =>
    injection h with h
    subst h
    trivial

theorem sqlBound_lossless {ε : Type} {c : SqlColumn ε} (hc : c.column.type ≠ .value) : c.bound = .ok .lossless := by
  cases c <;> first | rfl | exact absurd rfl hc

theorem mapM_ok_getElem {τ σ : Type} (f : τ → Except Failure σ) : ∀ (l : List τ) (r : List σ), l.mapM f = .ok r →
    r.length = l.length ∧ ∀ (i : Nat) (x : τ), l[i]? = some x → ∃ y, r[i]? = some y ∧ f x = .ok y
  | [], r, h => by
    injection h with h
    subst h
    simp
  | x :: l, r, h => by
    rw [List.mapM_cons] at h
    cases hx : f x with
    | error e => rw [hx] at h; cases h
    | ok y =>
      rw [hx] at h
      cases hl : l.mapM f with
      | error e => rw [hl] at h; cases h
      | ok r' =>
        rw [hl] at h
        injection h with h
        subst h
        obtain ⟨h1, h2⟩ := mapM_ok_getElem f l r' hl
        refine ⟨by simp [h1], ?_⟩
        intro i z hz
        cases i with
        | zero =>
          simp only [List.getElem?_cons_zero, Option.some.injEq] at hz
          subst hz
          exact ⟨y, rfl, hx⟩
        | succ i => exact h2 i z hz

/-- A definition in SQL can be saved unless there is a quote in the name of the table or the name does not stand for itself. So **C30** holds for every
table that is created with SQL and has no such name. -/
theorem C30_sql_storable {ε : Type} (env : Env ε) (name : String) (columns : List (SqlColumn ε))
    (hp : ∀ c ∈ columns, SqlColumn.Proper c) (hq : '\'' ∉ name.toList) (hself : SelfName name.toList) (m : Metadata ε)
    (h : createFromSql env name columns = .ok m) :
    Storable env m := by
  unfold createFromSql at h
  simp only [bind, Except.bind] at h
  cases hb : columns.mapM SqlColumn.bound with
  | error e => rw [hb] at h; cases h
  | ok bs =>
    rw [hb] at h
    dsimp only at h
    cases hu : uniqueNames (columns.map SqlColumn.column) with
    | false => rw [hu] at h; cases h
    | true =>
      rw [hu] at h
      simp only [Bool.not_true, Bool.false_eq_true, if_false] at h
      cases hg : columns.mapM (SqlColumn.generated env (columns.map SqlColumn.column)) with
      | error e => rw [hg] at h; cases h
      | ok gs =>
        rw [hg] at h
        dsimp only at h
        change tryNew name (columns.map SqlColumn.column) bs gs = .ok m at h
        have hcon := consistent_of_tryNew h
        obtain ⟨k1, k2, -, -, -, -, -, k8⟩ := tryNew_ok.mp h
        have hname : m.name = name := by rw [k8]
        have hqs : m.querySchema = columns.map SqlColumn.column := by rw [k8]
        have hgs : m.generated = gs := by rw [k8]
        obtain ⟨-, hbs⟩ := mapM_ok_getElem _ _ _ hb
        obtain ⟨-, hgens⟩ := mapM_ok_getElem _ _ _ hg
        refine ⟨⟨bs, by rw [hname, hqs, hgs]; exact h⟩, ?_, by rw [hname]; exact hq, by rw [hname]; exact hself, ?_, ?_, ?_⟩
        · rw [hqs]
          simpa [uniqueNames] using hu
        · intro b hb
          obtain ⟨j, hj⟩ := List.mem_iff_getElem?.mp hb
          have hjl : j < m.querySchemaToSchema.length := by
            rw [← hcon.length.2]
            exact (List.getElem?_eq_some_iff.mp hj).1
          obtain ⟨hi, -, hbi⟩ := hcon.column j _ (List.getElem?_eq_getElem hjl)
          rw [hj] at hbi
          rw [List.length_map] at hi
          obtain ⟨b', hb', hcb⟩ := hbs _ _ (List.getElem?_eq_getElem hi)
          rw [hb'] at hbi
          injection hbi with hbi
          subst hbi
          exact sqlBound_meaningful (hp _ (List.getElem_mem _)) hcb
        · intro j c hc ht
          have hjl : j < m.querySchemaToSchema.length := by
            rw [← hcon.length.1]
            exact (List.getElem?_eq_some_iff.mp hc).1
          obtain ⟨hi, hsi, hbi⟩ := hcon.column j _ (List.getElem?_eq_getElem hjl)
          rw [List.length_map] at hi
          obtain ⟨b', hb', hcb⟩ := hbs _ _ (List.getElem?_eq_getElem hi)
          rw [hc, List.getElem?_map, List.getElem?_eq_getElem hi] at hsi
          simp only [Option.map_some, Option.some.injEq] at hsi
          rw [sqlBound_lossless (by rw [← hsi]; exact ht)] at hcb
          injection hcb with hcb
          rw [hbi, hb', hcb]
        · intro i g hgi
          rw [hgs] at hgi
          have hi : i < columns.length := by
            have := (List.getElem?_eq_some_iff.mp hgi).1
            rw [List.length_map] at k2
            omega
          obtain ⟨g', hg', hcg⟩ := hgens _ _ (List.getElem?_eq_getElem hi)
          rw [hgi] at hg'
          injection hg' with hg'
          subst hg'
          cases hcol : columns[i] with
          | fieldAs n e =>
            rw [hcol] at hcg
            simp only [SqlColumn.generated] at hcg
            cases ht : tryFromExpr env (columns.map SqlColumn.column) e with
            | error e' => rw [ht] at hcg; cases hcg
            | ok g'' =>
              rw [ht] at hcg
              injection hcg with hcg
              injection hcg with hcg
              subst hcg
              refine ⟨⟨(columns[i]).column, ?_, by rw [hcol]; rfl⟩, ?_⟩
              · rw [hqs, List.getElem?_map, List.getElem?_eq_getElem hi]
                rfl
              · rw [hqs, tryFromExpr_expr ht]
                exact ht
          | timestamp n => rw [hcol] at hcg; cases hcg
          | tag n => rw [hcol] at hcg; cases hcg
          | field n => rw [hcol] at hcg; cases hcg
          | fieldBound n v r => rw [hcol] at hcg; cases hcg

/-! ### An example -/

/-- Expressions are lists of columns. -/
def listEnv : Env (List String) := ⟨id⟩

/-- `ts TIMESTAMP, sum FIELD AS (a + b), tag TAG, a FIELD(2.0), b FIELD(5.0%)`. -/
def sqlColumns : List (SqlColumn (List String)) :=
  [.timestamp "ts", .fieldAs "sum" ["a", "b"], .tag "tag", .fieldBound "a" (.fin false 2) false, .fieldBound "b" (.fin false 5) true]

/-- The definition of a table with these columns. -/
def sqlTable (name : String) : Except Failure (Metadata (List String)) := createFromSql listEnv name sqlColumns

/-- The tables that are loaded after a table is created in an empty folder. -/
def restarted {ε : Type} (env : Env ε) (m : Except Failure (Metadata ε)) : Option (Except Failure (List String × List (Metadata ε))) :=
  match m with
  | .ok m => (folderRun emptyFolder [.create m]).map (start env)
  | .error _ => none

/-- Whether a table is loaded as it was created. -/
def keptOnRestart (m : Except Failure (Metadata (List String))) : Bool :=
  match m, restarted listEnv m with
  | .ok m, some (.ok (_, [m'])) => decide (m = m')
  | _, _ => false

/-- The hypotheses can be met: the table is accepted, can be saved, and is the same after a restart. -/
example : ∃ m, sqlTable "t" = .ok m ∧ Storable listEnv m ∧ m.querySchemaToSchema = [0, 2, 3, 4] ∧
    m.errorBounds = [.lossless, .lossless, .absolute (.fin false 2), .relative (.fin false 5)] ∧ keptOnRestart (sqlTable "t") = true := by
  refine ⟨_, rfl, C30_sql_storable listEnv "t" sqlColumns ?_ (by decide) (by unfold SelfName; decide +kernel) _ rfl, by decide +kernel, by decide +kernel, by decide +kernel⟩
  simp only [sqlColumns, List.mem_cons, List.not_mem_nil, or_false]
  rintro c (rfl | rfl | rfl | rfl | rfl) <;> simp [SqlColumn.Proper, Spec.Proper]

/-! ### Definitions that do not survive -/

/-- **C30** is false for a name with a period, which stands for a table in a schema that does not exist: the server does not start again. -/
theorem C30_period_prevents_start : (∃ m, sqlTable "a.b" = .ok m) ∧ restarted listEnv (sqlTable "a.b") = some (.error .error) ∧
    (folderRun (emptyFolder : Disk (List String)) [.createNormal "a.b"]).map (start listEnv) = some (.error .error) := by
  refine ⟨⟨_, rfl⟩, ?_, ?_⟩ <;> decide +kernel

/-- **C30** is false for a name with two quotes in a row: the table is accepted and loaded, but without its error bounds and with its
generated column stored. -/
theorem C30_quotes_lose_definition : ∃ m m', sqlTable "a''b" = .ok m ∧ restarted listEnv (sqlTable "a''b") = some (.ok ([], [m'])) ∧
    m.errorBounds = [.lossless, .lossless, .absolute (.fin false 2), .relative (.fin false 5)] ∧
    m'.errorBounds = [.lossless, .lossless, .lossless, .lossless, .lossless] ∧
    m.schema.map (·.name) = ["ts", "tag", "a", "b"] ∧ m'.schema.map (·.name) = ["ts", "sum", "tag", "a", "b"] := by
  refine ⟨_, _, rfl, rfl, ?_⟩
  decide +kernel

/-- **C30** is false for a name with one quote: the server does not start again. -/
theorem C30_quote_prevents_start : (∃ m, sqlTable "a'b" = .ok m) ∧
    restarted listEnv (sqlTable "a'b") = some (.error .error) := by
  refine ⟨⟨_, rfl⟩, ?_⟩
  decide +kernel

/-- A message that asks for a tag column that is generated from another tag column. -/
def generatedTag : Message (List String) :=
  ⟨"t", [⟨"ts", .timestamp, false⟩, ⟨"a", .string, false⟩, ⟨"copy", .string, false⟩, ⟨"v", .value, false⟩],
    [(.lossless, .fin false 0), (.lossless, .fin false 0), (.lossless, .fin false 0), (.lossless, .fin false 0)],
    [none, none, some ["a"], none]⟩

/-- **C30** is false for a generated tag column, which can be asked for with a message: after a restart the column has to be ingested. -/
theorem C30_generated_tag_becomes_stored : ∃ m m', deserialize listEnv generatedTag = .ok m ∧
    restarted listEnv (deserialize listEnv generatedTag) = some (.ok ([], [m'])) ∧
    m.schema.map (·.name) = ["ts", "a", "v"] ∧ m'.schema.map (·.name) = ["ts", "a", "copy", "v"] := by
  refine ⟨_, _, rfl, rfl, ?_⟩
  decide +kernel

/-- The definition after a restart need not be equal to the one before: the source columns of an expression come from a set, which has
another order in another run. The definitions are the same in the sense of `SameDefinition`. -/
theorem C30_not_equal : ∃ m m', sqlTable "t" = .ok m ∧ restarted ⟨List.reverse⟩ (sqlTable "t") = some (.ok ([], [m'])) ∧
    m ≠ m' ∧ m.generated[1]? = some (some ⟨["a", "b"], [3, 4]⟩) ∧ m'.generated[1]? = some (some ⟨["a", "b"], [4, 3]⟩) := by
  refine ⟨_, _, rfl, rfl, ?_⟩
  decide +kernel

end ModelarDB.Props
