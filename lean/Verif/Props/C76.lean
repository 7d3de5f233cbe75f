import Verif.Spec.CreateNormalTable
import Verif.Lemmas.CreateTableAccept
import Verif.Props.C75
/-
C76: A CREATE TABLE statement creates the table it declares.
-/
namespace ModelarDB.Props
open Model.CreateTable Model.CreateNormalTable Spec Lemmas.CreateTable

variable {ε : Type} {sql : Sql ε}

/-- All features are checked. -/
theorem mem_checkedFeatures (f : Feature) : f ∈ checkedFeatures := by cases f <;> decide

theorem unsupported_none (s : Statement) : unsupported s = none ↔ ∀ f : Feature, f ∉ s.features := by
  unfold unsupported
  rw [List.find?_eq_none]
  constructor
  · intro h f hf
    exact h f (mem_checkedFeatures f) (by simpa using hf)
  · intro h f _
    simpa using h f

theorem createNormal_iff (s : Statement) (t : NormalTable) : createNormal sql s = some t ↔
    (∀ f : Feature, f ∉ s.features) ∧ ∃ part, s.name = [part] ∧ tableName sql part = some (sql.lower part) ∧
      ∃ schema, List.Forall₂ (fun c f => buildColumn c = some f) s.columns schema ∧
        t = ⟨sql.lower part, (flattenedFields schema).map supportedField⟩ := by
  unfold createNormal
  cases hu : unsupported s with
  | some f =>
    simp only [reduceCtorEq, false_iff]
    rintro ⟨h, -⟩
    rw [(unsupported_none s).mpr h] at hu
    cases hu
  | none =>
    simp only [(unsupported_none s).mp hu, not_false_eq_true, implies_true, true_and]
    match hname : s.name with
    | [] => simp
    | [part] =>
      simp only
      cases ht : tableName sql part with
      | none =>
        simp only [reduceCtorEq, false_iff]
        rintro ⟨part', hp, ht', -⟩
        injection hp with hp
        subst hp
        rw [ht] at ht'
        cases ht'
      | some n =>
        have hn := ((tableName_iff _ _).mp ht).1
        subst hn
        simp only [Option.map_eq_some_iff]
        constructor
        · rintro ⟨schema, h, rfl⟩
          exact ⟨part, rfl, ht, schema, (mapM_some_iff _ _ _).mp h, rfl⟩
        · rintro ⟨part', hp, -, schema, h, rfl⟩
          injection hp with hp
          subst hp
          exact ⟨schema, (mapM_some_iff _ _ _).mpr h, rfl⟩
    | _ :: _ :: _ => simp

/-- **C76**, acceptance: a statement is accepted if and only if none of the parts that are not supported is set and its name and types can be
used. -/
theorem C76_accepted (s : Statement) : (∃ t, createNormal sql s = some t) ↔ SensibleNormal sql s := by
  constructor
  · rintro ⟨t, h⟩
    obtain ⟨h1, part, h2, h3, schema, h4, -⟩ := (createNormal_iff s t).mp h
    refine ⟨h1, ⟨part, h2, ((tableName_iff _ _).mp h3).2⟩, ?_⟩
    intro c hc hn
    obtain ⟨f, hf⟩ := forall₂_left h4 c hc
    simp [buildColumn, hn] at hf
  · rintro ⟨h1, ⟨part, h2, h3⟩, h4⟩
    obtain ⟨schema, hs⟩ := forall₂_exists (l := s.columns) (r := fun c f => buildColumn c = some f) (by
      intro c hc
      cases ht : c.type with
      | none => exact absurd ht (h4 c hc)
      | some t => exact ⟨_, by simp only [buildColumn, ht, Option.map_some]; rfl⟩)
    exact ⟨_, (createNormal_iff s _).mpr ⟨h1, part, h2, (tableName_iff _ _).mpr ⟨rfl, h3⟩, schema, hs, rfl⟩⟩

theorem storedType_supported (f : Field) : StoredType f.type (supportedField f).type := by
  obtain ⟨n, t, b⟩ := f
  cases t with
  | timestamp u tz => exact .timestamp u tz
  | scalar x => exact .scalar x
  | nested k fs => exact .nested k fs

theorem supported_name (f : Field) : (supportedField f).name = f.name ∧ (supportedField f).nullable = f.nullable := by
  obtain ⟨n, t, b⟩ := f
  cases t <;> exact ⟨rfl, rfl⟩

theorem declaredAs_of_build {c : ColumnDef} {f : Field} (h : buildColumn c = some f) : DeclaredAs c (supportedField f) := by
  unfold buildColumn at h
  rw [Option.map_eq_some_iff] at h
  obtain ⟨t, ht, rfl⟩ := h
  refine ⟨?_, ⟨t, ht, storedType_supported ⟨normalizeIdent c.name c.quoted, t, !c.options.contains .notNull⟩⟩, ?_⟩
  · rw [(supported_name _).1]
    unfold ColumnName
    cases hq : c.quoted with
    | true => exact .inl ⟨rfl, rfl⟩
    | false => exact .inr ⟨rfl, rfl⟩
  · rw [(supported_name _).2]
    simp

/-- **C76**, no column is lost: the table has the declared name, and the declared columns in their order are some of its columns. -/
theorem C76_declared (s : Statement) (t : NormalTable) (h : createNormal sql s = some t) :
    ∃ schema : List Field, schema.Sublist t.schema ∧ DeclaresNormal sql s ⟨t.name, schema⟩ := by
  obtain ⟨-, part, h2, -, schema, h4, rfl⟩ := (createNormal_iff s t).mp h
  refine ⟨schema.map supportedField, ?_, ⟨part, h2, rfl⟩, ?_⟩
  · refine List.Sublist.map _ ?_
    clear h4 h
    induction schema with
    | nil => exact .slnil
    | cons f fs ih =>
      unfold flattenedFields at ih ⊢
      rw [List.flatMap_cons, List.cons_append]
      exact .cons_cons _ (ih.trans (List.sublist_append_right _ _))
  · rw [List.forall₂_map_right_iff]
    exact h4.imp fun c f h => declaredAs_of_build h

/-- **C76**, partial: the table has exactly the declared columns. Missing: types with nested fields, for which it is false, see below. -/
theorem C76_columns_partial (s : Statement) (hflat : FlatTypes s) (t : NormalTable) (h : createNormal sql s = some t) :
    DeclaresNormal sql s t := by
  obtain ⟨-, part, h2, -, schema, h4, rfl⟩ := (createNormal_iff s t).mp h
  refine ⟨⟨part, h2, rfl⟩, ?_⟩
  have hs : flattenedFields schema = schema := by
    have hall : ∀ f ∈ schema, f.type.flat = [] := by
      intro f hf
      obtain ⟨i, hi⟩ := List.mem_iff_getElem?.mp hf
      obtain ⟨c, hc, hb⟩ := forall₂_get h4 i f hi
      unfold buildColumn at hb
      rw [Option.map_eq_some_iff] at hb
      obtain ⟨ty, hty, rfl⟩ := hb
      have := hflat c (List.mem_of_getElem? hc) ty hty
      cases ty with
      | nested k fs => exact this.elim
      | scalar x => simp [ArrowType.flat]
      | timestamp u tz => simp [ArrowType.flat]
    unfold flattenedFields
    clear h4 h
    induction schema with
    | nil => rfl
    | cons f fs ih =>
      rw [List.flatMap_cons, hall f List.mem_cons_self, ih fun f hf => hall f (List.mem_cons_of_mem _ hf)]
      rfl
  simp only [hs]
  rw [List.forall₂_map_right_iff]
  exact h4.imp fun c f h => declaredAs_of_build h

/-! ### Examples -/

/-- `CREATE TABLE Normal (ts TIMESTAMP NOT NULL, Name TEXT, "Size" REAL NOT NULL)`. -/
def normalStatement : Statement :=
  ⟨["Normal".toList],
    [⟨"ts".toList, false, some (.timestamp .nanosecond none), [.notNull]⟩, ⟨"Name".toList, false, some (.scalar "Utf8View"), []⟩,
      ⟨"Size".toList, true, some (.scalar "Float32"), [.notNull]⟩], []⟩

/-- The hypotheses can be met. -/
example : ∃ t, createNormal exampleSql normalStatement = some t ∧ DeclaresNormal exampleSql normalStatement t ∧
    t.name = "normal".toList ∧ t.schema.map (·.name) = ["ts".toList, "name".toList, "Size".toList] ∧
    t.schema.map (·.nullable) = [false, true, false] := by
  refine ⟨_, rfl, C76_columns_partial _ ?_ _ rfl, by decide, by decide, by decide⟩
  intro c hc t ht
  simp only [normalStatement, List.mem_cons, List.not_mem_nil, or_false] at hc
  rcases hc with rfl | rfl | rfl <;> (injection ht with ht; subst ht; trivial)

/-- A statement with a part that is not supported is rejected. -/
example : createNormal exampleSql { normalStatement with features := [.ifNotExists] } = none := rfl

/-! ### What is not as declared -/

/-- `CREATE TABLE t (a INT[])`. -/
def listStatement : Statement :=
  ⟨["t".toList], [⟨"a".toList, false, some (.nested "List" (.cons "item".toList (.scalar "Int32") true .nil)), []⟩], []⟩

/-- **C76** is false for types with nested fields: the nested fields become columns too, here a second column `item`. -/
theorem C76_nested_fields_become_columns : ∃ t, createNormal exampleSql listStatement = some t ∧
    t.schema.map (·.name) = ["a".toList, "item".toList] ∧ ¬ DeclaresNormal exampleSql listStatement t := by
  refine ⟨_, rfl, by decide, ?_⟩
  intro h
  have := h.columns.length_eq
  revert this
  decide

/-- `CREATE TABLE t (a INT UNIQUE DEFAULT 1, ts TIMESTAMP(0))`. -/
def optionStatement : Statement :=
  ⟨["t".toList],
    [⟨"a".toList, false, some (.scalar "Int32"), [.unique, .default "1"]⟩, ⟨"ts".toList, false, some (.timestamp .second none), []⟩], []⟩

/-- Parts of columns that are not supported are not rejected but ignored: the statement is accepted, and nothing is left of UNIQUE, DEFAULT and
the precision of the timestamps. -/
theorem C76_options_ignored : ∃ t, createNormal exampleSql optionStatement = some t ∧ DeclaresNormal exampleSql optionStatement t ∧
    ¬ List.Forall₂ AllKept optionStatement.columns t.schema ∧
    createNormal exampleSql { optionStatement with columns := optionStatement.columns.map fun c => { c with options := [] } } = some t := by
  refine ⟨_, rfl, C76_columns_partial _ ?_ _ rfl, ?_, rfl⟩
  · intro c hc t ht
    simp only [optionStatement, List.mem_cons, List.not_mem_nil, or_false] at hc
    rcases hc with rfl | rfl <;> (injection ht with ht; subst ht; trivial)
  · intro h
    obtain ⟨h, -⟩ := List.forall₂_cons.mp h
    have := h.1 .unique List.mem_cons_self
    revert this
    decide

end ModelarDB.Props
