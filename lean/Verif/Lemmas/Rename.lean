import Verif.Spec.Rename
import Verif.Lemmas.QueryPlan
import Verif.Lemmas.QueryStream
import Verif.Lemmas.QueryFilter
import Verif.Lemmas.TableDefinition
import Mathlib.Data.List.Forall2
import Mathlib.Tactic.Tauto
/-
Lemmas about renaming the columns of a table.
-/
namespace ModelarDB.Lemmas.Rename
open Model Model.Query Model.TableDefinition Spec Lemmas

variable {ε : Type} {env : Env ε} (r : Renaming env)

theorem name_eq {a b : String} : r.name a = r.name b ↔ a = b := ⟨r.injective a b, fun h => by rw [h]⟩

/-! ### Definitions of tables -/

theorem indexOf_rename (schema : List Column) (name : String) : indexOf (schema.map r.column) (r.name name) = indexOf schema name := by
  unfold indexOf
  rw [List.findIdx?_map]
  congr 1
  funext c
  simp [Renaming.column, name_eq]

theorem fieldWithName_rename (schema : List Column) (name : String) :
    fieldWithName (schema.map r.column) (r.name name) = (fieldWithName schema name).map r.column := by
  unfold fieldWithName
  rw [List.find?_map]
  congr 2
  funext c
  simp [Renaming.column, name_eq]

theorem map_name (schema : List Column) : (schema.map r.column).map (·.name) = (schema.map (·.name)).map r.name := by
  simp [Renaming.column]

theorem nodup_rename {names : List String} : (names.map r.name).Nodup ↔ names.Nodup := by
  rw [List.nodup_map_iff fun a b h => r.injective a b h]

theorem uniqueNames_rename (schema : List Column) : uniqueNames (schema.map r.column) = uniqueNames schema := by
  unfold uniqueNames
  rw [map_name]
  exact decide_eq_decide.mpr (nodup_rename r)

theorem mapM_indexOf_rename (schema : List Column) (refs : List String) :
    (refs.map r.name).mapM (indexOf (schema.map r.column)) = refs.mapM (indexOf schema) := by
  induction refs with
  | nil => rfl
  | cons n refs ih => rw [List.map_cons, List.mapM_cons, List.mapM_cons, ih, indexOf_rename]

theorem tryFromExpr_rename (schema : List Column) (e : ε) :
    tryFromExpr env (schema.map r.column) (r.expr e) = (tryFromExpr env schema e).map r.generated := by
  unfold tryFromExpr
  rw [r.refs, mapM_indexOf_rename]
  split <;> rfl

theorem indicesOfType_rename (schema : List Column) (t : DataType) : indicesOfType (schema.map r.column) t = indicesOfType schema t := by
  unfold indicesOfType
  rw [List.length_map]
  congr 1
  funext i
  rw [List.getElem?_map]
  cases schema[i]? <;> rfl

theorem withoutGenerated_rename (cs : List Column) : ∀ (i : Nat) (bs : List ErrorBound) (gs : List (Option (Generated ε))),
    withoutGenerated i (cs.map r.column) bs (gs.map (Option.map r.generated)) =
      ((withoutGenerated i cs bs gs).1.map r.column, (withoutGenerated i cs bs gs).2) := by
  induction cs with
  | nil => intro i bs gs; rfl
  | cons c cs ih =>
    intro i bs gs
    cases bs with
    | nil => cases gs <;> rfl
    | cons b bs =>
      cases gs with
      | nil => rfl
      | cons g gs =>
        simp only [List.map_cons, withoutGenerated, ih (i + 1) bs gs, Option.isNone_map]
        split <;> rfl

theorem checkSources_rename (gs : List (Option (Generated ε))) (sources : List Nat) :
    checkSources (gs.map (Option.map r.generated)) sources = checkSources gs sources := by
  induction sources with
  | nil => rfl
  | cons i is ih =>
    unfold checkSources
    rw [List.getElem?_map]
    cases gs[i]? with
    | none => rfl
    | some g => cases g with
      | none => exact ih
      | some g => rfl

theorem checkGenerated_rename (all gs : List (Option (Generated ε))) :
    checkGenerated (all.map (Option.map r.generated)) (gs.map (Option.map r.generated)) = checkGenerated all gs := by
  induction gs with
  | nil => rfl
  | cons g gs ih =>
    cases g with
    | none => exact ih
    | some g =>
      simp only [List.map_cons, Option.map_some, checkGenerated, Renaming.generated, checkSources_rename, ih]

theorem tagColumns_map (schema : List Column) (indices : List Nat) :
    (indices.filterMap fun i => (schema.map r.column)[i]?) = (indices.filterMap fun i => schema[i]?).map r.column := by
  induction indices with
  | nil => rfl
  | cons i is ih =>
    rw [List.filterMap_cons, List.filterMap_cons, List.getElem?_map]
    cases schema[i]? with
    | none => exact ih
    | some c => simp only [Option.map_some, List.map_cons, ih]

theorem any_types (schema : List Column) : (schema.map r.column).any (fun c => c.type ≠ .timestamp && c.type ≠ .value && c.type ≠ .string) =
    schema.any (fun c => c.type ≠ .timestamp && c.type ≠ .value && c.type ≠ .string) := by
  rw [List.any_map]
  rfl

theorem tryNew_rename (name : String) (qs : List Column) (bs : List ErrorBound) (gs : List (Option (Generated ε))) :
    tryNew name (qs.map r.column) bs (gs.map (Option.map r.generated)) = (tryNew name qs bs gs).map r.table := by
  unfold tryNew
  simp only [List.length_map, checkGenerated_rename, any_types, withoutGenerated_rename, indicesOfType_rename]
  split
  · rfl
  split
  · rfl
  split
  · rfl
  split
  · rfl
  split
  · rfl
  split
  · split
    · rfl
    · simp only [Except.map, Renaming.table, tagColumns_map]
  · rfl

theorem bounds_rename (columns : List (SqlColumn ε)) :
    (columns.map r.sqlColumn).mapM SqlColumn.bound = columns.mapM SqlColumn.bound := by
  induction columns with
  | nil => rfl
  | cons c cs ih =>
    rw [List.map_cons, List.mapM_cons, List.mapM_cons, ih]
    cases c <;> rfl

theorem columns_rename (columns : List (SqlColumn ε)) :
    (columns.map r.sqlColumn).map SqlColumn.column = (columns.map SqlColumn.column).map r.column := by
  rw [List.map_map, List.map_map]
  refine List.map_congr_left fun c _ => ?_
  cases c <;> rfl

theorem generated_rename (schema : List Column) (columns : List (SqlColumn ε)) :
    (columns.map r.sqlColumn).mapM (SqlColumn.generated env (schema.map r.column)) =
      (columns.mapM (SqlColumn.generated env schema)).map (List.map (Option.map r.generated)) := by
  induction columns with
  | nil => rfl
  | cons c cs ih =>
    rw [List.map_cons, List.mapM_cons, List.mapM_cons, ih]
    have hc : SqlColumn.generated env (schema.map r.column) (r.sqlColumn c) =
        (SqlColumn.generated env schema c).map (Option.map r.generated) := by
      cases c with
      | fieldAs n e =>
        simp only [Renaming.sqlColumn, SqlColumn.generated, tryFromExpr_rename]
        cases tryFromExpr env schema e <;> rfl
      | _ => rfl
    rw [hc]
    cases SqlColumn.generated env schema c with
    | error e => rfl
    | ok g =>
      cases cs.mapM (SqlColumn.generated env schema) <;> rfl

theorem createFromSql_rename (name : String) (columns : List (SqlColumn ε)) :
    createFromSql env name (columns.map r.sqlColumn) = (createFromSql env name columns).map r.table := by
  unfold createFromSql
  simp only [bounds_rename, columns_rename, uniqueNames_rename, generated_rename, bind, Except.bind]
  cases columns.mapM SqlColumn.bound with
  | error e => rfl
  | ok bs =>
    dsimp only
    split
    · rfl
    · cases columns.mapM (SqlColumn.generated env (columns.map SqlColumn.column)) with
      | error e => rfl
      | ok gs => exact tryNew_rename r name _ bs gs

/-! ### Plans -/

/-- A column of the join with its new name. -/
def joinColumn : JoinColumn → JoinColumn
  | .timestamp => .timestamp
  | .field => .field
  | .tag n => .tag (r.name n)

/-- A plan with the new names. -/
def plan (p : Plan ε) : Plan ε :=
  { p with
    result := p.result.map r.column, joinSchema := p.joinSchema.map r.column, order := p.order.map (joinColumn r)
    generate := p.generate.map fun g => (g.1, r.expr g.2) }

theorem convertible_rename (schema : List Column) (refs : List String) :
    convertible (schema.map r.column) (refs.map r.name) = convertible schema refs := by
  unfold convertible
  rw [uniqueNames_rename, List.all_map]
  congr 2
  funext n
  simp only [Function.comp_apply, fieldWithName_rename, Option.isSome_map]

theorem planColumns_rename (m : Metadata ε) (schema : List Column) (projection : List Nat) : ∀ index,
    planColumns env (r.table m) (schema.map r.column) index projection = (planColumns env m schema index projection).map
      fun p => (p.1.map (joinColumn r), p.2.1, p.2.2.map fun g => (g.1, r.expr g.2)) := by
  induction projection with
  | nil => intro index; rfl
  | cons i projection ih =>
    intro index
    unfold planColumns
    simp only [Renaming.table, List.getElem?_map] at ih ⊢
    cases m.querySchema[i]? with
    | none => rfl
    | some c =>
      cases m.generated[i]? with
      | none => rfl
      | some g =>
        simp only [Option.map_some, ih (index + 1)]
        have ht : (r.column c).type = c.type := rfl
        rw [ht]
        split
        · cases planColumns env m schema (index + 1) projection <;> rfl
        split
        · cases planColumns env m schema (index + 1) projection <;> rfl
        cases g with
        | some g =>
          simp only [Option.map_some, Renaming.generated, r.refs, convertible_rename]
          split
          · cases planColumns env m schema (index + 1) projection <;> rfl
          · rfl
        | none =>
          simp only [Option.map_none, Renaming.column]
          rw [show indexOf (m.schema.map r.column) (r.name c.name) = indexOf m.schema c.name from indexOf_rename r _ _]
          cases indexOf m.schema c.name with
          | none => rfl
          | some f => cases planColumns env m schema (index + 1) projection <;> rfl

theorem sourcesOf_rename (m : Metadata ε) (projection : List Nat) : sourcesOf (r.table m) projection = sourcesOf m projection := by
  unfold sourcesOf
  congr 1
  funext i
  simp only [Renaming.table, List.getElem?_map]
  cases m.generated[i]? with
  | none => rfl
  | some g => cases g <;> rfl

theorem joinSchema_rename (m : Metadata ε) (projection : List Nat) :
    joinSchema (r.table m) projection = (joinSchema m projection).map r.column := by
  unfold joinSchema
  induction projection with
  | nil => rfl
  | cons i is ih =>
    rw [List.filterMap_cons, List.filterMap_cons, ih]
    simp only [Renaming.table, List.getElem?_map]
    cases m.generated[i]? with
    | none => rfl
    | some g =>
      cases g with
      | some g => rfl
      | none =>
        cases m.querySchema[i]? <;> rfl

theorem fallback_rename (m : Metadata ε) : fallbackFieldColumn (r.table m) = fallbackFieldColumn m := by
  unfold fallbackFieldColumn
  simp only [Renaming.table, List.length_map]
  congr 1
  funext i
  simp only [List.getElem?_map]
  cases m.generated[i]? with
  | none => rfl
  | some g => cases g <;> cases m.querySchema[i]? <;> rfl

theorem mapM_columns (schema : List Column) (projection : List Nat) :
    (projection.mapM fun i => (schema.map r.column)[i]?) = (projection.mapM fun i => schema[i]?).map (List.map r.column) := by
  induction projection with
  | nil => rfl
  | cons i is ih =>
    rw [List.mapM_cons, List.mapM_cons, ih, List.getElem?_map]
    cases schema[i]? with
    | none => rfl
    | some c => cases is.mapM (fun i => schema[i]?) <;> rfl

theorem planScan_rename (hashOrder : List Nat → List Nat) (m : Metadata ε) (projection : List Nat) :
    planScan env hashOrder (r.table m) projection = (planScan env hashOrder m projection).map (plan r) := by
  unfold planScan
  simp only [sourcesOf_rename, joinSchema_rename, fallback_rename, planColumns_rename]
  rw [show (r.table m).querySchema = m.querySchema.map r.column from rfl, mapM_columns]
  cases projection.mapM (fun i => m.querySchema[i]?) with
  | none => rfl
  | some result =>
    simp only [Option.map_some, pure, bind, Except.pure, Except.bind]
    cases planColumns env m (joinSchema m (addSources projection (hashOrder (sourcesOf m projection)))) 0
        (addSources projection (hashOrder (sourcesOf m projection))) with
    | error e => rfl
    | ok p =>
      simp only [Except.map]
      cases fallbackFieldColumn m <;> rfl

/-! ### Joining the columns -/

/-- Tags are found among the tags if these have their own names. -/
theorem tagColumn_own {tagNames : List String} (h : ∀ tag ∈ tagNames, FreeName tag) (name : String) (batch : List Point) :
    tagColumn tagNames name batch = (tagNames.findIdx? (· == name)).bind fun i => batch.mapM fun point => point.tags[i]?.map Cell.tag := by
  cases hi : tagNames.findIdx? (· == name) with
  | some i =>
    have hfree : FreeName name := by
      obtain ⟨hlt, hn, _⟩ := List.findIdx?_eq_some_iff_getElem.mp hi
      rw [← eq_of_beq hn]
      exact h _ (List.getElem_mem hlt)
    rw [tagColumn_free hfree hi]
    rfl
  | none =>
    unfold tagColumn
    rw [List.findIdx?_cons, List.findIdx?_cons, hi]
    cases ("timestamp" == name) <;> cases ("value" == name) <;> rfl

theorem tagColumn_rename {tagNames : List String} (h : ∀ tag ∈ tagNames, FreeName tag) (h' : ∀ tag ∈ tagNames, FreeName (r.name tag))
    (name : String) (batch : List Point) : tagColumn (tagNames.map r.name) (r.name name) batch = tagColumn tagNames name batch := by
  rw [tagColumn_own h, tagColumn_own (by simpa using h'), List.findIdx?_map]
  congr 2
  funext n
  simp only [Function.comp_apply]
  rw [Bool.eq_iff_iff, beq_iff_eq, beq_iff_eq, name_eq]

theorem joinColumns_rename {tagNames : List String} (h : ∀ tag ∈ tagNames, FreeName tag) (h' : ∀ tag ∈ tagNames, FreeName (r.name tag))
    (first : List Point) (order : List JoinColumn) : ∀ batches,
    joinColumns (tagNames.map r.name) first (order.map (joinColumn r)) batches = joinColumns tagNames first order batches := by
  induction order with
  | nil => intro batches; rfl
  | cons c order ih =>
    intro batches
    cases c with
    | timestamp => simp only [List.map_cons, joinColumn, joinColumns, ih]
    | field =>
      cases batches with
      | nil => rfl
      | cons b bs => simp only [List.map_cons, joinColumn, joinColumns, ih]
    | tag n => simp only [List.map_cons, joinColumn, joinColumns, ih, tagColumn_rename r h h']

theorem pollJoin_rename {S : Type} {tagNames : List String} (h : ∀ tag ∈ tagNames, FreeName tag)
    (h' : ∀ tag ∈ tagNames, FreeName (r.name tag)) (order : List JoinColumn) (poll : Poller S (List Point)) :
    pollJoin (tagNames.map r.name) (order.map (joinColumn r)) poll = pollJoin tagNames order poll := by
  have hs : sortedJoin (tagNames.map r.name) (order.map (joinColumn r)) = sortedJoin tagNames order := by
    funext batches
    cases batches with
    | nil => rfl
    | cons b bs => simp only [sortedJoin, joinColumns_rename r h h', List.isEmpty_map]
  funext slots
  unfold pollJoin
  rw [hs]

/-! ### Generated columns -/

theorem generateColumns_rename {κ : Type} {evaluate evaluate' : ε → List κ → Option κ} (h : ∀ e, evaluate' (r.expr e) = evaluate e)
    (batch : List κ) (generate : List (Nat × ε)) : ∀ (n : Nat) (columns : List κ),
    generateColumns evaluate' batch (generate.map fun g => (g.1, r.expr g.2)) n columns = generateColumns evaluate batch generate n columns := by
  induction generate with
  | nil => intro n columns; rfl
  | cons g generate ih =>
    intro n columns
    obtain ⟨i, e⟩ := g
    simp only [List.map_cons, generateColumns, h, ih]

theorem finish_rename {κ : Type} {evaluate evaluate' : ε → List κ → Option κ} (h : ∀ e, evaluate' (r.expr e) = evaluate e) (p : Plan ε)
    (batch : List κ) : finish evaluate' (plan r p) batch = finish evaluate p batch := by
  simp only [finish, plan, List.isEmpty_map, generateAs, generateColumns_rename r h, List.length_map]

theorem evaluateGenerated_rename {σ : Type} {w w' : World ε σ} (h : ∀ e, w'.meaning (r.expr e) = w.meaning e) (schema : List Column) (e : ε) :
    evaluateGenerated env w' (schema.map r.column) (r.expr e) = evaluateGenerated env w schema e := by
  funext batch
  unfold evaluateGenerated
  rw [h, r.refs]
  congr 1
  induction env.refs e with
  | nil => rfl
  | cons n refs ih => rw [List.map_cons, List.mapM_cons, List.mapM_cons, ih, indexOf_rename]

/-! ### Filters -/

/-- Two expressions that are made in the same way from columns of the server and one operand each. -/
inductive Over (names : List String) (o o' : Expr) : Expr → Expr → Prop where
  | server (n : String) : n ∈ names → Over names o o' (.column n) (.column n)
  | operand : Over names o o' o o'
  | binary {a a' b b' : Expr} (op : Op) : Over names o o' a a' → Over names o o' b b' → Over names o o' (.binary a op b) (.binary a' op b')

theorem Over.refs_of {names : List String} {o o' e e' : Expr} (h : Over names o o' e e') :
    (∀ n ∈ e.refs, n ∈ names ∨ n ∈ o.refs) ∧ ∀ n ∈ e'.refs, n ∈ names ∨ n ∈ o'.refs := by
  induction h with
  | server n hn => simp [Expr.refs, hn]
  | operand => exact ⟨fun n h => .inr h, fun n h => .inr h⟩
  | binary op _ _ iha ihb =>
    simp only [Expr.refs, List.mem_append]
    exact ⟨fun n h => h.elim (iha.1 n) (ihb.1 n), fun n h => h.elim (iha.2 n) (ihb.2 n)⟩

theorem Over.eval_eq {names : List String} {o o' e e' : Expr} (h : Over names o o' e e') (I : Interpretation) {f f' : String → Value}
    (hn : ∀ n ∈ names, f' n = f n) (ho : o'.eval I f' = o.eval I f) : e'.eval I f' = e.eval I f := by
  induction h with
  | server n hmem => exact hn n hmem
  | operand => exact ho
  | binary op _ _ iha ihb => simp only [Expr.eval, iha, ihb]

/-- The filters a filter is rewritten to and those the filter with the new names is rewritten to. -/
def Pairs (p p' : Expr × Expr) : Prop := ∃ o : Expr,
  Over ["start_time", "end_time"] o (r.filter o) p.1 p'.1 ∧ Over ["timestamp"] o (r.filter o) p.2 p'.2 ∧
  (∀ n ∈ o.refs, n ∈ p.1.refs ∧ n ∈ p.2.refs) ∧ ∀ n ∈ (r.filter o).refs, n ∈ p'.1.refs ∧ n ∈ p'.2.refs

theorem rewriteLeft_rename (op : Op) (o : Expr) : (rewriteLeft op o = none ∧ rewriteLeft op (r.filter o) = none) ∨
    ∃ p p', rewriteLeft op o = some p ∧ rewriteLeft op (r.filter o) = some p' ∧ Pairs r p p' := by
  have hs : ∀ n ∈ ["start_time", "end_time"], Over ["start_time", "end_time"] o (r.filter o) (.column n) (.column n) := fun n h => .server n h
  have ht : Over ["timestamp"] o (r.filter o) (.column "timestamp") (.column "timestamp") := .server _ (by simp)
  cases op with
  | gt => exact .inr ⟨_, _, rfl, rfl, o, .binary _ (hs _ (by simp)) .operand, .binary _ ht .operand, by simp [Expr.refs]; tauto, by simp [Expr.refs]; tauto⟩
  | ge => exact .inr ⟨_, _, rfl, rfl, o, .binary _ (hs _ (by simp)) .operand, .binary _ ht .operand, by simp [Expr.refs]; tauto, by simp [Expr.refs]; tauto⟩
  | lt => exact .inr ⟨_, _, rfl, rfl, o, .binary _ (hs _ (by simp)) .operand, .binary _ ht .operand, by simp [Expr.refs]; tauto, by simp [Expr.refs]; tauto⟩
  | le => exact .inr ⟨_, _, rfl, rfl, o, .binary _ (hs _ (by simp)) .operand, .binary _ ht .operand, by simp [Expr.refs]; tauto, by simp [Expr.refs]; tauto⟩
  | eq =>
    exact .inr ⟨_, _, rfl, rfl, o, .binary _ (.binary _ (hs _ (by simp)) .operand) (.binary _ (hs _ (by simp)) .operand),
      .binary _ ht .operand, by simp [Expr.refs]; tauto, by simp [Expr.refs]; tauto⟩
  | and => exact .inl ⟨rfl, rfl⟩
  | other n => exact .inl ⟨rfl, rfl⟩

theorem rewriteRight_rename (op : Op) (o right right' : Expr) (hop : op ≠ .eq) :
    (rewriteRight o op right = none ∧ rewriteRight (r.filter o) op right' = none) ∨
    ∃ p p', rewriteRight o op right = some p ∧ rewriteRight (r.filter o) op right' = some p' ∧ Pairs r p p' := by
  have hs : ∀ n ∈ ["start_time", "end_time"], Over ["start_time", "end_time"] o (r.filter o) (.column n) (.column n) := fun n h => .server n h
  have ht : Over ["timestamp"] o (r.filter o) (.column "timestamp") (.column "timestamp") := .server _ (by simp)
  cases op with
  | gt => exact .inr ⟨_, _, rfl, rfl, o, .binary _ .operand (hs _ (by simp)), .binary _ .operand ht, by simp [Expr.refs]; tauto, by simp [Expr.refs]; tauto⟩
  | ge => exact .inr ⟨_, _, rfl, rfl, o, .binary _ .operand (hs _ (by simp)), .binary _ .operand ht, by simp [Expr.refs]; tauto, by simp [Expr.refs]; tauto⟩
  | lt => exact .inr ⟨_, _, rfl, rfl, o, .binary _ .operand (hs _ (by simp)), .binary _ .operand ht, by simp [Expr.refs]; tauto, by simp [Expr.refs]; tauto⟩
  | le => exact .inr ⟨_, _, rfl, rfl, o, .binary _ .operand (hs _ (by simp)), .binary _ .operand ht, by simp [Expr.refs]; tauto, by simp [Expr.refs]; tauto⟩
  | eq => exact absurd rfl hop
  | and => exact .inl ⟨rfl, rfl⟩
  | other n => exact .inl ⟨rfl, rfl⟩

/-- Two outcomes of rewriting that are the same up to the names. -/
def Same {α : Type} (R : α → α → Prop) : Except Failure α → Except Failure α → Prop
  | .error e, .error e' => e = e'
  | .ok a, .ok b => R a b
  | _, _ => False

/-- Rewriting a filter with the new names. -/
theorem rewriteFilter_rename (schema : List Column) (f : Expr) (hf : ¬ ReversedEquality schema f) :
    Same (fun a b => (a = none ∧ b = none) ∨ ∃ p p', a = some p ∧ b = some p' ∧ Pairs r p p')
      (rewriteFilter schema f) (rewriteFilter (schema.map r.column) (r.filter f)) := by
  cases f with
  | column n => exact .inl ⟨rfl, rfl⟩
  | constant v => exact .inl ⟨rfl, rfl⟩
  | other id refs => exact .inl ⟨rfl, rfl⟩
  | binary left op right =>
    by_cases hl : ∃ n, left = .column n
    · obtain ⟨n, rfl⟩ := hl
      simp only [Renaming.filter, rewriteFilter, fieldWithName_rename]
      cases fieldWithName schema n with
      | none => rfl
      | some c =>
        simp only [Option.map_some, Renaming.column]
        split
        · exact rewriteLeft_rename r op right
        · exact .inl ⟨rfl, rfl⟩
    by_cases hr : ∃ n, right = .column n
    · obtain ⟨n, rfl⟩ := hr
      have hne : ∀ n', left ≠ .column n' := fun n' h => hl ⟨n', h⟩
      have hne' : ∀ n', r.filter left ≠ .column n' := by
        intro n'
        cases left with
        | column k => exact absurd rfl (hne k)
        | _ => simp [Renaming.filter]
      have h1 : rewriteFilter schema (.binary left op (.column n)) = match fieldWithName schema n with
          | none => .error .panic
          | some field => .ok (if field.type = .timestamp then rewriteRight left op (.column n) else none) := by
        cases left with
        | column k => exact absurd rfl (hne k)
        | _ => rfl
      have h2 : rewriteFilter (schema.map r.column) (r.filter (.binary left op (.column n))) =
          match fieldWithName (schema.map r.column) (r.name n) with
          | none => .error .panic
          | some field => .ok (if field.type = .timestamp then rewriteRight (r.filter left) op (.column (r.name n)) else none) := by
        cases left with
        | column k => exact absurd rfl (hne k)
        | _ => rfl
      rw [h1, h2, fieldWithName_rename]
      cases hfield : fieldWithName schema n with
      | none => rfl
      | some c =>
        simp only [Option.map_some, Renaming.column]
        split
        · rename_i ht
          refine rewriteRight_rename r op left _ _ ?_
          rintro rfl
          have hcn : c.name = n := by simpa using List.find?_some hfield
          apply hf
          cases left with
          | column k => exact absurd rfl (hne k)
          | _ => exact ⟨c, List.mem_of_find?_eq_some hfield, hcn, ht⟩
        · exact .inl ⟨rfl, rfl⟩
    · have h1 : ∀ (s : List Column) (l x : Expr), (∀ n, l ≠ .column n) → (∀ n, x ≠ .column n) → rewriteFilter s (.binary l op x) = .ok none := by
        intro s l x hl hx
        cases l with
        | column n => exact absurd rfl (hl n)
        | _ => cases x with
          | column n => exact absurd rfl (hx n)
          | _ => rfl
      have hcol : ∀ (e : Expr), (∀ n, e ≠ .column n) → ∀ n, r.filter e ≠ .column n := by
        intro e he n
        cases e with
        | column k => exact absurd rfl (he k)
        | _ => simp [Renaming.filter]
      have hl' : ∀ n, left ≠ .column n := fun n h => hl ⟨n, h⟩
      have hr' : ∀ n, right ≠ .column n := fun n h => hr ⟨n, h⟩
      rw [h1 _ _ _ hl' hr', show r.filter (.binary left op right) = .binary (r.filter left) op (r.filter right) from rfl,
        h1 _ _ _ (hcol _ hl') (hcol _ hr')]
      exact .inl ⟨rfl, rfl⟩

theorem rewriteFilters_rename (schema : List Column) (filters : List Expr) (hf : ∀ f ∈ filters, ¬ ReversedEquality schema f) :
    Same (List.Forall₂ (Pairs r)) (rewriteFilters schema filters) (rewriteFilters (schema.map r.column) (filters.map r.filter)) := by
  induction filters with
  | nil => exact List.Forall₂.nil
  | cons f fs ih =>
    have h1 := rewriteFilter_rename r schema f (hf f (by simp))
    have h2 := ih fun g hg => hf g (List.mem_cons_of_mem _ hg)
    rw [List.map_cons]
    unfold rewriteFilters
    revert h1
    cases rewriteFilter schema f with
    | error e =>
      cases rewriteFilter (schema.map r.column) (r.filter f) with
      | error e' => exact fun h => h
      | ok b => exact fun h => h.elim
    | ok a =>
      cases rewriteFilter (schema.map r.column) (r.filter f) with
      | error e' => exact fun h => h.elim
      | ok b =>
        rintro (⟨rfl, rfl⟩ | ⟨p, p', rfl, rfl, hp⟩)
        · exact h2
        · dsimp only
          revert h2
          cases rewriteFilters schema fs with
          | error e =>
            cases rewriteFilters (schema.map r.column) (fs.map r.filter) with
            | error e' => exact fun h => h
            | ok b => exact fun h => h.elim
          | ok a =>
            cases rewriteFilters (schema.map r.column) (fs.map r.filter) with
            | error e' => exact fun h => h.elim
            | ok b => exact fun h => .cons hp h

theorem filter_refs (e : Expr) : (r.filter e).refs = e.refs.map r.name := by
  induction e with
  | binary a op b iha ihb => simp only [Renaming.filter, Expr.refs, iha, ihb, List.map_append]
  | _ => rfl

theorem filter_eval (I : Interpretation) (f : String → Value) (e : Expr) : (r.filter e).eval I f = e.eval I fun n => f (r.name n) := by
  induction e with
  | binary a op b iha ihb => simp only [Renaming.filter, Expr.eval, iha, ihb]
  | other id refs => simp only [Renaming.filter, Expr.eval, List.map_map]; rfl
  | _ => rfl

theorem foldl_refs (es : List Expr) : ∀ (e : Expr), ∀ n ∈ (es.foldl (fun a b => Expr.binary a .and b) e).refs,
    n ∈ e.refs ∨ ∃ x ∈ es, n ∈ x.refs := by
  induction es with
  | nil => exact fun e n h => .inl h
  | cons x es ih =>
    intro e n h
    rcases ih _ n h with h | ⟨y, hy, h⟩
    · simp only [Expr.refs, List.mem_append] at h
      exact h.imp id fun h => ⟨x, by simp, h⟩
    · exact .inr ⟨y, List.mem_cons_of_mem _ hy, h⟩

theorem conjunction_refs_of {es : List Expr} {e : Expr} (h : conjunction es = some e) : ∀ n ∈ e.refs, ∃ x ∈ es, n ∈ x.refs := by
  intro n hn
  cases es with
  | nil => cases h
  | cons x es =>
    injection h with h
    subst h
    rcases foldl_refs es x n hn with h | ⟨y, hy, h⟩
    · exact ⟨x, by simp, h⟩
    · exact ⟨y, List.mem_cons_of_mem _ hy, h⟩

theorem foldl_eval (I : Interpretation) {f f' : String → Value} {es es' : List Expr}
    (h : List.Forall₂ (fun a b : Expr => b.eval I f' = a.eval I f) es es') : ∀ (e e' : Expr), e'.eval I f' = e.eval I f →
    (es'.foldl (fun a b => Expr.binary a .and b) e').eval I f' = (es.foldl (fun a b => Expr.binary a .and b) e).eval I f := by
  induction h with
  | nil => exact fun e e' h => h
  | cons hab _ ih =>
    intro e e' he
    exact ih _ _ (by simp only [Expr.eval, he, hab])

/-- The two filters are both missing or have the same value for the same values of the columns of the server and the tags. -/
def SameFilter (names tags : List String) (p p' : Option Expr) : Prop :=
  (p = none ∧ p' = none) ∨ ∃ e e', p = some e ∧ p' = some e' ∧ ∀ (I : Interpretation) (f f' : String → Value),
    (∀ n ∈ names, f' n = f n) → (∀ n ∈ tags, f' (r.name n) = f n) → e'.eval I f' = e.eval I f

theorem tryConvert_some {schema : List Column} {e : Expr} :
    tryConvert schema (some e) = if convertible schema e.refs then .ok (some e) else .error .error := rfl

/-- The tags of a table have different names that the server does not use. -/
structure Own (tags : List Column) : Prop where
  nodup : (tags.map (·.name)).Nodup
  own : ∀ n ∈ tags.map (·.name), n ∉ serverNames

theorem Own.nodup_append {tags : List Column} (h : Own tags) {base : List Column} (hbase : (base.map (·.name)).Nodup)
    (hsub : ∀ n ∈ base.map (·.name), n ∈ serverNames) : ((base ++ tags).map (·.name)).Nodup := by
  rw [List.map_append]
  exact List.Nodup.append hbase h.nodup fun n h1 h2 => h.own n h2 (hsub n h1)

theorem query_names : ∀ n ∈ queryCompressedBase.map (·.name), n ∈ serverNames := by decide +kernel
theorem grid_names : ∀ n ∈ gridBase.map (·.name), n ∈ serverNames := by decide +kernel

/-- When the rewritten filters can be converted. -/
theorem convertible_both {tags : List Column} (h : Own tags) {operands : List Expr} {e1 e2 : Expr}
    (h1 : ∀ n ∈ e1.refs, n ∈ ["start_time", "end_time"] ∨ ∃ o ∈ operands, n ∈ o.refs)
    (h2 : ∀ n ∈ e2.refs, n ∈ ["timestamp"] ∨ ∃ o ∈ operands, n ∈ o.refs)
    (h3 : ∀ o ∈ operands, ∀ n ∈ o.refs, n ∈ e1.refs ∧ n ∈ e2.refs) :
    (convertible (queryCompressedBase ++ tags) e1.refs = true ∧ convertible (gridBase ++ tags) e2.refs = true) ↔
      ∀ o ∈ operands, ∀ n ∈ o.refs, n ∈ tags.map (·.name) := by
  constructor
  · rintro ⟨c1, c2⟩ o ho n hn
    obtain ⟨g1, g2⟩ := h3 o ho n hn
    exact ref_is_tag c1 c2 g1 g2
  · intro hall
    rw [convertible_iff, convertible_iff]
    refine ⟨⟨h.nodup_append (by decide +kernel) query_names, fun n hn => ?_⟩, h.nodup_append (by decide +kernel) grid_names, fun n hn => ?_⟩
    · rw [List.map_append, List.mem_append]
      rcases h1 n hn with hs | ⟨o, ho, h⟩
      · exact .inl ((by decide +kernel : ∀ n ∈ ["start_time", "end_time"], n ∈ queryCompressedBase.map (·.name)) n hs)
      · exact .inr (hall o ho n h)
    · rw [List.map_append, List.mem_append]
      rcases h2 n hn with hs | ⟨o, ho, h⟩
      · exact .inl ((by decide +kernel : ∀ n ∈ ["timestamp"], n ∈ gridBase.map (·.name)) n hs)
      · exact .inr (hall o ho n h)

/-- What is known about rewritten filters and their operands. -/
structure Made (operands : List Expr) (rs : List (Expr × Expr)) : Prop where
  first : ∀ p ∈ rs, ∀ n ∈ p.1.refs, n ∈ ["start_time", "end_time"] ∨ ∃ o ∈ operands, n ∈ o.refs
  second : ∀ p ∈ rs, ∀ n ∈ p.2.refs, n ∈ ["timestamp"] ∨ ∃ o ∈ operands, n ∈ o.refs
  used : ∀ o ∈ operands, ∃ p ∈ rs, ∀ n ∈ o.refs, n ∈ p.1.refs ∧ n ∈ p.2.refs

theorem Made.cons {o : Expr} {p : Expr × Expr} {os : List Expr} {rs : List (Expr × Expr)}
    (h1 : ∀ n ∈ p.1.refs, n ∈ ["start_time", "end_time"] ∨ n ∈ o.refs) (h2 : ∀ n ∈ p.2.refs, n ∈ ["timestamp"] ∨ n ∈ o.refs)
    (h3 : ∀ n ∈ o.refs, n ∈ p.1.refs ∧ n ∈ p.2.refs) (h : Made os rs) : Made (o :: os) (p :: rs) where
  first q hq n hn := by
    rcases List.mem_cons.mp hq with rfl | hq
    · exact (h1 n hn).imp id fun h => ⟨o, by simp, h⟩
    · exact (h.first q hq n hn).imp id fun ⟨o, ho, h⟩ => ⟨o, List.mem_cons_of_mem _ ho, h⟩
  second q hq n hn := by
    rcases List.mem_cons.mp hq with rfl | hq
    · exact (h2 n hn).imp id fun h => ⟨o, by simp, h⟩
    · exact (h.second q hq n hn).imp id fun ⟨o, ho, h⟩ => ⟨o, List.mem_cons_of_mem _ ho, h⟩
  used q hq := by
    rcases List.mem_cons.mp hq with rfl | hq
    · exact ⟨p, by simp, h3⟩
    · obtain ⟨x, hx, h⟩ := h.used q hq
      exact ⟨x, List.mem_cons_of_mem _ hx, h⟩

theorem pairs_made {rs rs' : List (Expr × Expr)} (h : List.Forall₂ (Pairs r) rs rs') : ∃ operands : List Expr,
    Made operands rs ∧ Made (operands.map r.filter) rs' ∧
    ∀ (I : Interpretation) (f f' : String → Value), (∀ o ∈ operands, (r.filter o).eval I f' = o.eval I f) →
      ((∀ n ∈ ["start_time", "end_time"], f' n = f n) →
        List.Forall₂ (fun a b : Expr => b.eval I f' = a.eval I f) (rs.map Prod.fst) (rs'.map Prod.fst)) ∧
      ((∀ n ∈ ["timestamp"], f' n = f n) →
        List.Forall₂ (fun a b : Expr => b.eval I f' = a.eval I f) (rs.map Prod.snd) (rs'.map Prod.snd)) := by
  induction h with
  | nil => exact ⟨[], ⟨by simp, by simp, by simp⟩, ⟨by simp, by simp, by simp⟩, fun I f f' _ => ⟨fun _ => .nil, fun _ => .nil⟩⟩
  | cons hp _ ih =>
    obtain ⟨o, h1, h2, h3, h4⟩ := hp
    obtain ⟨os, m1, m2, hev⟩ := ih
    refine ⟨o :: os, .cons h1.refs_of.1 h2.refs_of.1 h3 m1, .cons h1.refs_of.2 h2.refs_of.2 h4 m2, fun I f f' ho => ?_⟩
    obtain ⟨e1, e2⟩ := hev I f f' fun x hx => ho x (List.mem_cons_of_mem _ hx)
    have := ho o (by simp)
    exact ⟨fun hn => .cons (h1.eval_eq I hn this) (e1 hn), fun hn => .cons (h2.eval_eq I hn this) (e2 hn)⟩

theorem Own.rename {tags : List Column} (h : Own tags) (h' : ∀ n ∈ tags.map (·.name), r.name n ∉ serverNames) : Own (tags.map r.column) where
  nodup := by rw [map_name, nodup_rename]; exact h.nodup
  own n hn := by
    rw [map_name] at hn
    obtain ⟨a, ha, rfl⟩ := List.mem_map.mp hn
    exact h' a ha

theorem Made.conjunctions {operands : List Expr} {rs : List (Expr × Expr)} (h : Made operands rs) {e1 e2 : Expr}
    (h1 : conjunction (rs.map Prod.fst) = some e1) (h2 : conjunction (rs.map Prod.snd) = some e2) :
    (∀ n ∈ e1.refs, n ∈ ["start_time", "end_time"] ∨ ∃ o ∈ operands, n ∈ o.refs) ∧
    (∀ n ∈ e2.refs, n ∈ ["timestamp"] ∨ ∃ o ∈ operands, n ∈ o.refs) ∧
    ∀ o ∈ operands, ∀ n ∈ o.refs, n ∈ e1.refs ∧ n ∈ e2.refs := by
  refine ⟨fun n hn => ?_, fun n hn => ?_, fun o ho n hn => ?_⟩
  · obtain ⟨x, hx, hn⟩ := conjunction_refs_of h1 n hn
    obtain ⟨p, hp, rfl⟩ := List.mem_map.mp hx
    exact h.first p hp n hn
  · obtain ⟨x, hx, hn⟩ := conjunction_refs_of h2 n hn
    obtain ⟨p, hp, rfl⟩ := List.mem_map.mp hx
    exact h.second p hp n hn
  · obtain ⟨p, hp, h⟩ := h.used o ho
    exact ⟨conjunction_refs h1 p.1 (List.mem_map_of_mem hp) n (h n hn).1, conjunction_refs h2 p.2 (List.mem_map_of_mem hp) n (h n hn).2⟩

theorem tagColumns_rename (m : Metadata ε) : tagColumns (r.table m) = (tagColumns m).map r.column := tagColumns_map r m.schema m.tagIndices

/-- The filters of a query with the new names. -/
theorem planFilters_rename (m : Metadata ε) (hown : Own (tagColumns m)) (hown' : ∀ n ∈ (tagColumns m).map (·.name), r.name n ∉ serverNames)
    (filters : List Expr) (hf : ∀ f ∈ filters, ¬ ReversedEquality m.schema f) :
    Same (fun a b => SameFilter r ["start_time", "end_time"] ((tagColumns m).map (·.name)) a.1 b.1 ∧
        SameFilter r ["timestamp"] ((tagColumns m).map (·.name)) a.2 b.2)
      (planFilters m filters) (planFilters (r.table m) (filters.map r.filter)) := by
  have h := rewriteFilters_rename r m.schema filters hf
  unfold planFilters rewriteAndCombineFilters
  rw [tagColumns_rename, show (r.table m).schema = m.schema.map r.column from rfl]
  revert h
  cases rewriteFilters m.schema filters with
  | error e =>
    cases rewriteFilters (m.schema.map r.column) (filters.map r.filter) with
    | error e' => exact fun h => h
    | ok b => exact fun h => h.elim
  | ok rs =>
    cases rewriteFilters (m.schema.map r.column) (filters.map r.filter) with
    | error e' => exact fun h => h.elim
    | ok rs' =>
      intro h
      change List.Forall₂ (Pairs r) rs rs' at h
      obtain ⟨operands, m1, m2, hev⟩ := pairs_made r h
      cases h with
      | nil => exact ⟨.inl ⟨rfl, rfl⟩, .inl ⟨rfl, rfl⟩⟩
      | @cons p p' rs rs' hp h =>
        obtain ⟨e1, he1⟩ : ∃ e, conjunction ((p :: rs).map Prod.fst) = some e := ⟨_, rfl⟩
        obtain ⟨e2, he2⟩ : ∃ e, conjunction ((p :: rs).map Prod.snd) = some e := ⟨_, rfl⟩
        obtain ⟨e1', he1'⟩ : ∃ e, conjunction ((p' :: rs').map Prod.fst) = some e := ⟨_, rfl⟩
        obtain ⟨e2', he2'⟩ : ∃ e, conjunction ((p' :: rs').map Prod.snd) = some e := ⟨_, rfl⟩
        obtain ⟨a1, a2, a3⟩ := m1.conjunctions he1 he2
        obtain ⟨b1, b2, b3⟩ := m2.conjunctions he1' he2'
        have hc := convertible_both hown a1 a2 a3
        have hc' := convertible_both (hown.rename r hown') b1 b2 b3
        have hiff : (∀ o ∈ operands.map r.filter, ∀ n ∈ o.refs, n ∈ ((tagColumns m).map r.column).map (·.name)) ↔
            ∀ o ∈ operands, ∀ n ∈ o.refs, n ∈ (tagColumns m).map (·.name) := by
          rw [map_name]
          simp only [List.forall_mem_map, filter_refs]
          refine forall₂_congr fun o ho => forall₂_congr fun n hn => ?_
          constructor
          · intro h
            obtain ⟨k, hk, he⟩ := List.mem_map.mp h
            rwa [← r.injective _ _ he]
          · exact fun h => List.mem_map_of_mem h
        rw [hiff, ← hc] at hc'
        simp only [he1, he2, he1', he2', tryConvert_some]
        by_cases hboth : convertible (queryCompressedBase ++ tagColumns m) e1.refs = true ∧ convertible (gridBase ++ tagColumns m) e2.refs = true
        · have hboth' := hc'.mpr hboth
          rw [if_pos hboth.1, if_pos hboth.2, if_pos hboth'.1, if_pos hboth'.2]
          have htags := hc.mp hboth
          have hop : ∀ (I : Interpretation) (f f' : String → Value), (∀ n ∈ (tagColumns m).map (·.name), f' (r.name n) = f n) →
              ∀ o ∈ operands, (r.filter o).eval I f' = o.eval I f := by
            intro I f f' ht o ho
            rw [filter_eval]
            exact eval_congr I o fun n hn => ht n (htags o ho n hn)
          refine ⟨.inr ⟨e1, e1', rfl, rfl, fun I f f' hn ht => ?_⟩, .inr ⟨e2, e2', rfl, rfl, fun I f f' hn ht => ?_⟩⟩
          · have hfa := (hev I f f' (hop I f f' ht)).1 hn
            injection he1 with he1
            injection he1' with he1'
            rw [← he1, ← he1']
            rw [List.map_cons, List.map_cons] at hfa
            cases hfa with
            | cons hx hrest => exact foldl_eval I hrest _ _ hx
          · have hfa := (hev I f f' (hop I f f' ht)).2 hn
            injection he2 with he2
            injection he2' with he2'
            rw [← he2, ← he2']
            rw [List.map_cons, List.map_cons] at hfa
            cases hfa with
            | cons hx hrest => exact foldl_eval I hrest _ _ hx
        · have hboth' := fun h => hboth (hc'.mp h)
          generalize convertible (queryCompressedBase ++ tagColumns m) e1.refs = x at hboth ⊢
          generalize convertible (gridBase ++ tagColumns m) e2.refs = y at hboth ⊢
          generalize convertible (queryCompressedBase ++ (tagColumns m).map r.column) e1'.refs = x' at hboth' ⊢
          generalize convertible (gridBase ++ (tagColumns m).map r.column) e2'.refs = y' at hboth' ⊢
          cases x <;> cases y <;> cases x' <;> cases y' <;>
            first
            | rfl
            | exact absurd ⟨rfl, rfl⟩ hboth
            | exact absurd ⟨rfl, rfl⟩ hboth'

/-! ### The values of columns -/

theorem indexOf_left {base tags : List Column} {n : String} (h : n ∈ base.map (·.name)) : indexOf (base ++ tags) n = indexOf base n := by
  unfold indexOf
  rw [List.findIdx?_append]
  obtain ⟨c, hc, rfl⟩ := List.mem_map.mp h
  cases hi : base.findIdx? (fun x => decide (x.name = c.name)) with
  | some i => rfl
  | none =>
    have := List.findIdx?_eq_none_iff.mp hi c hc
    simp at this

theorem indexOf_right {base tags : List Column} {n : String} (h : n ∉ base.map (·.name)) :
    indexOf (base ++ tags) n = (indexOf tags n).map (· + base.length) := by
  unfold indexOf
  rw [List.findIdx?_append, List.findIdx?_eq_none_iff.mpr]
  · rfl
  · intro c hc
    simp only [decide_eq_false_iff_not]
    intro he
    exact h (List.mem_map.mpr ⟨c, hc, he⟩)

theorem lookup_server {base tags : List Column} {values : List Value} {n : String} (h : n ∈ base.map (·.name)) :
    lookup (base ++ tags.map r.column) values n = lookup (base ++ tags) values n := by
  unfold lookup
  rw [indexOf_left h, indexOf_left h]

theorem lookup_own {base tags : List Column} {values : List Value} {n : String} (h : n ∉ base.map (·.name)) (h' : r.name n ∉ base.map (·.name)) :
    lookup (base ++ tags.map r.column) values (r.name n) = lookup (base ++ tags) values n := by
  unfold lookup
  rw [indexOf_right h, indexOf_right h', indexOf_rename]

end ModelarDB.Lemmas.Rename
