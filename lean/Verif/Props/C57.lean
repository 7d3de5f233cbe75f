import Verif.Lemmas.QueryPanic
import Verif.Lemmas.QueryFilter
import Verif.Props.C39
/-
C57: no query aborts the server.
-/
namespace ModelarDB.Props
open Model Model.Query Model.TableDefinition Spec Lemmas

/-! ### Filters -/

theorem rewriteFilter_panics_iff {schema : List Column} {e : Expr} :
    rewriteFilter schema e = .error .panic ↔ OperandNotStored schema e := by
  have hname : ∀ name, fieldWithName schema name = none ↔ name ∉ schema.map (·.name) := by
    intro name
    rw [← fieldWithName_isSome]
    cases fieldWithName schema name <;> simp
  have hmatch : ∀ (name : String) (f : Column → Option (Expr × Expr)),
      ((match fieldWithName schema name with
        | none => .error .panic
        | some field => .ok (f field)) : Except Failure (Option (Expr × Expr))) = .error .panic ↔ name ∉ schema.map (·.name) := by
    intro name f
    rw [← hname]
    cases fieldWithName schema name <;> simp
  cases e with
  | column n => simp [rewriteFilter, OperandNotStored]
  | constant v => simp [rewriteFilter, OperandNotStored]
  | other i refs => simp [rewriteFilter, OperandNotStored]
  | binary l op r =>
    cases l with
    | column n => exact hmatch n _
    | constant v =>
      cases r with
      | column n => exact hmatch n _
      | _ => simp [rewriteFilter, OperandNotStored]
    | other i refs =>
      cases r with
      | column n => exact hmatch n _
      | _ => simp [rewriteFilter, OperandNotStored]
    | binary a o b =>
      cases r with
      | column n => exact hmatch n _
      | _ => simp [rewriteFilter, OperandNotStored]

theorem rewriteFilters_panics_iff {schema : List Column} : ∀ {filters : List Expr},
    rewriteFilters schema filters = .error .panic ↔ ∃ e ∈ filters, OperandNotStored schema e
  | [] => by simp [rewriteFilters]
  | e :: filters => by
    have ih := rewriteFilters_panics_iff (schema := schema) (filters := filters)
    have he := rewriteFilter_panics_iff (schema := schema) (e := e)
    have hnot : ∀ x, rewriteFilter schema e = .ok x → ¬ OperandNotStored schema e := by
      intro x hx h
      rw [he.mpr h] at hx
      cases hx
    simp only [rewriteFilters, List.mem_cons, exists_eq_or_imp]
    split
    · rename_i f hf
      have hp : f = .panic := by
        unfold rewriteFilter at hf
        split at hf <;> (try split at hf) <;> cases hf <;> rfl
      subst hp
      simp [he.mp hf]
    · rename_i hf
      simp [hnot _ hf, ih]
    · rename_i r hf
      simp only [hnot _ hf, false_or, ← ih]
      cases rewriteFilters schema filters <;> simp

/-- The filters of a query abort the server exactly if the operand that is looked at is not stored. -/
theorem C57_filters_panic_iff {ε : Type} (m : Metadata ε) (filters : List Expr) :
    planFilters m filters = .error .panic ↔ ∃ e ∈ filters, OperandNotStored m.schema e := by
  rw [← rewriteFilters_panics_iff, planFilters, rewriteAndCombineFilters]
  have htry : ∀ schema e, tryConvert schema e ≠ .error .panic := by
    intro schema e
    unfold tryConvert
    split
    · simp
    · split <;> simp
  cases rewriteFilters m.schema filters with
  | error f => simp
  | ok rs =>
    simp only [reduceCtorEq, iff_false]
    split
    · simp
    · rename_i f hf
      rintro ⟨⟩
      exact htry _ _ hf
    · rename_i f hf _
      rintro ⟨⟩
      exact htry _ _ hf

/-! ### Columns -/

theorem planColumns_no_panic {ε : Type} {env : Env ε} {m : Metadata ε} {schema : List Column} : ∀ {P : List Nat} {k : Nat},
    (∀ i ∈ P, ∃ c gen, m.querySchema[i]? = some c ∧ m.generated[i]? = some gen) → planColumns env m schema k P ≠ .error .panic
  | [], k, _ => by simp [planColumns]
  | i :: P, k, h => by
    have ih := planColumns_no_panic (env := env) (schema := schema) (P := P) (k := k + 1) fun j hj => h j (List.mem_cons_of_mem _ hj)
    obtain ⟨c, gen, hc, hg⟩ := h i (by simp)
    unfold planColumns
    rw [hc, hg]
    simp only [bind, Except.bind, pure, Except.pure, throw, throwThe, MonadExceptOf.throw]
    cases hr : planColumns env m schema (k + 1) P with
    | error f =>
      rw [hr] at ih
      have hf : f ≠ .panic := fun h => ih (by rw [h])
      split
      · simpa using hf
      · split
        · simpa using hf
        · split
          · split
            · simpa using hf
            · simp
          · split
            · simp
            · simpa using hf
    | ok r =>
      split
      · simp
      · split
        · simp
        · split
          · split <;> simp
          · split <;> simp

theorem extended_valid {ε : Type} {hashOrder : List Nat → List Nat} (horder : AnyOrder hashOrder) {name : String} {qs : List Column}
    {bs : List ErrorBound} {gs : List (Option (Generated ε))} {m : Metadata ε} (hm : tryNew name qs bs gs = .ok m) {projection : List Nat}
    (hp : ∀ i ∈ projection, i < qs.length) :
    ∀ i ∈ addSources projection (hashOrder (sourcesOf m projection)), ∃ c gen, m.querySchema[i]? = some c ∧ m.generated[i]? = some gen := by
  obtain ⟨_, hlen, _, _, _, _, _, h8⟩ := tryNew_ok.mp hm
  have hc := consistent_of_tryNew hm
  have hmq : m.querySchema = qs := by rw [h8]
  have hmg : m.generated = gs := by rw [h8]
  obtain ⟨t, ht, hts⟩ := addSources_prefix (hashOrder (sourcesOf m projection)) projection
  have hlt : ∀ i ∈ addSources projection (hashOrder (sourcesOf m projection)), i < qs.length := by
    intro i hi
    rw [ht] at hi
    rcases List.mem_append.mp hi with hi | hi
    · exact hp i hi
    · obtain ⟨j, _, hij⟩ := List.mem_flatMap.mp ((horder _ _).mp (hts i hi))
      split at hij
      · rename_i g hg
        rw [hmg] at hg
        have := (List.getElem?_eq_some_iff.mp (hc.sources j g hg i hij)).1
        omega
      · simp at hij
  intro i hi
  have := hlt i hi
  exact ⟨qs[i], gs[i], by rw [hmq]; exact List.getElem?_eq_getElem _, by rw [hmg]; exact List.getElem?_eq_getElem (by omega)⟩

theorem fallback_exists {ε : Type} {name : String} {qs : List Column} {bs : List ErrorBound} {gs : List (Option (Generated ε))}
    {m : Metadata ε} (hm : tryNew name qs bs gs = .ok m) : ∃ f, fallbackFieldColumn m = some f := by
  obtain ⟨_, hlen, _, _, _, _, _, h8⟩ := tryNew_ok.mp hm
  have hc := consistent_of_tryNew hm
  have hmq : m.querySchema = qs := by rw [h8]
  have hmg : m.generated = gs := by rw [h8]
  obtain ⟨j, hj⟩ := List.exists_mem_of_ne_nil _ hc.aField
  obtain ⟨c, hcj, htype⟩ := (hc.fields j).mp hj
  have hjl : j < m.querySchemaToSchema.length := by rw [← hc.length.1]; exact (List.getElem?_eq_some_iff.mp hcj).1
  obtain ⟨h1, h2, _⟩ := hc.column j _ (List.getElem?_eq_getElem hjl)
  have h3 := (hc.positions _).mp (List.getElem_mem hjl)
  rw [← Option.isSome_iff_exists, fallbackFieldColumn, List.find?_isSome]
  refine ⟨m.querySchemaToSchema[j], by rw [hmq]; exact List.mem_range.mpr h1, ?_⟩
  rw [hmg, h3, hmq, ← h2, hcj]
  simp [htype]

/-- Planning the columns of a query never aborts the server. -/
theorem C57_columns_no_panic {ε : Type} (env : Env ε) {hashOrder : List Nat → List Nat} (horder : AnyOrder hashOrder) {name : String}
    {qs : List Column} {bs : List ErrorBound} {gs : List (Option (Generated ε))} {m : Metadata ε} (hm : tryNew name qs bs gs = .ok m)
    (projection : List Nat) : planScan env hashOrder m projection ≠ .error .panic := by
  have hmq : m.querySchema = qs := by obtain ⟨_, _, _, _, _, _, _, h8⟩ := tryNew_ok.mp hm; rw [h8]
  unfold planScan
  simp only [bind, Except.bind, pure, Except.pure, throw, throwThe, MonadExceptOf.throw]
  cases hres : projection.mapM fun i => m.querySchema[i]? with
  | none => simp
  | some result =>
    have hp : ∀ i ∈ projection, i < qs.length := by
      intro i hi
      have h1 := mapM_option_eq_some.mp hres
      have h2 : m.querySchema[i]? ∈ result.map some := by rw [← h1]; exact List.mem_map.mpr ⟨i, hi, rfl⟩
      obtain ⟨c, _, hc⟩ := List.mem_map.mp h2
      rw [← hmq]
      exact (List.getElem?_eq_some_iff.mp hc.symm).1
    have hno := planColumns_no_panic (env := env) (schema := joinSchema m (addSources projection (hashOrder (sourcesOf m projection)))) (k := 0)
      (extended_valid horder hm hp)
    obtain ⟨f, hf⟩ := fallback_exists hm
    simp only [hf]
    split
    · rename_i e he
      rw [he] at hno
      rintro ⟨⟩
      exact hno rfl
    · simp

/-- A plan can be executed if a stored column is read and only fields are generated. -/
theorem planScan_executable {ε : Type} {env : Env ε} {hashOrder : List Nat → List Nat} (horder : AnyOrder hashOrder) {name : String}
    {qs : List Column} {bs : List ErrorBound} {gs : List (Option (Generated ε))} {m : Metadata ε} (hm : tryNew name qs bs gs = .ok m)
    (hunique : (qs.map (·.name)).Nodup) {projection : List Nat} {plan : Plan ε} (hplan : planScan env hashOrder m projection = .ok plan) :
    plan.executable = true ↔ GeneratedFieldsIn m projection ∧ ReadsStored m projection := by
  obtain ⟨fallback, fields, hres, hjoin, hcols, _, _⟩ := planScan_ok hplan
  have hmq : m.querySchema = qs := by obtain ⟨_, _, _, _, _, _, _, h8⟩ := tryNew_ok.mp hm; rw [h8]
  have hmg : m.generated = gs := by obtain ⟨_, _, _, _, _, _, _, h8⟩ := tryNew_ok.mp hm; rw [h8]
  have hc := consistent_of_tryNew hm
  have hn := schema_nodup hc hunique
  rw [← hmq, ← hmg] at hc
  obtain ⟨t, ht, htsrc⟩ := addSources_prefix (hashOrder (sourcesOf m projection)) projection
  have hsource : ∀ i ∈ hashOrder (sourcesOf m projection), m.generated[i]? = some none := by
    intro i hi
    obtain ⟨j, _, hij⟩ := List.mem_flatMap.mp ((horder _ _).mp hi)
    split at hij
    · rename_i g hg
      exact hc.sources j g hg i hij
    · simp at hij
  have hgf : GeneratedFieldsIn m projection ↔ GeneratedFieldsIn m (addSources projection (hashOrder (sourcesOf m projection))) := by
    rw [ht]
    constructor
    · intro h i hi g c hg hqc
      rcases List.mem_append.mp hi with hi | hi
      · exact h i hi g c hg hqc
      · rw [hsource i (htsrc i hi)] at hg
        cases hg
    · exact fun h i hi => h i (by simp [hi])
  have hlength := planColumns_length hcols
  have hempty : GeneratedFieldsIn m projection → (plan.order ≠ [] ↔ ReadsStored m projection) := by
    intro hgp
    obtain ⟨_, _, _, h4⟩ := planColumns_answerable hc hn (hgf.mp hgp) hcols
    obtain ⟨_, hvalid, _⟩ := planColumns_generate (hgf.mp hgp) hcols
    have h5 : plan.order ≠ [] ↔ storedOf m (addSources projection (hashOrder (sourcesOf m projection))) ≠ [] := by
      rw [← List.length_pos_iff, ← List.length_pos_iff, h4]
    rw [h5]
    constructor
    · intro hne
      obtain ⟨i, hi⟩ := List.exists_mem_of_ne_nil _ hne
      obtain ⟨hi, hgi⟩ := List.mem_filter.mp hi
      obtain ⟨_, gen, _, hgen⟩ := hvalid i hi
      rw [ht] at hi
      rcases List.mem_append.mp hi with hi | hi
      · cases gen with
        | none => exact ⟨i, hi, .inl hgen⟩
        | some g => simp [(isGen_iff m).mpr ⟨g, hgen⟩] at hgi
      · obtain ⟨j, hj, hij⟩ := List.mem_flatMap.mp ((horder _ _).mp (htsrc i hi))
        split at hij
        · rename_i g hg
          exact ⟨j, hj, .inr ⟨g, hg, List.ne_nil_of_mem hij⟩⟩
        · simp at hij
    · rintro ⟨i, hi, hcase⟩
      have hstored : ∀ j ∈ addSources projection (hashOrder (sourcesOf m projection)), m.generated[j]? = some none →
          storedOf m (addSources projection (hashOrder (sourcesOf m projection))) ≠ [] := by
        intro j hj hg
        exact List.ne_nil_of_mem (List.mem_filter.mpr ⟨hj, by simp [isGen, hg]⟩)
      rcases hcase with hg | ⟨g, hg, hne⟩
      · exact hstored i (by rw [ht]; simp [hi]) hg
      · obtain ⟨s, hs⟩ := List.exists_mem_of_ne_nil _ hne
        have hsm : s ∈ hashOrder (sourcesOf m projection) := by
          rw [horder]
          exact List.mem_flatMap.mpr ⟨i, hi, by rw [hg]; exact hs⟩
        exact hstored s (addSources_mem _ _ s hsm) (hsource s hsm)
  simp only [Plan.executable, Bool.and_eq_true, decide_eq_true_eq, Bool.not_eq_true', List.isEmpty_eq_false_iff]
  constructor
  · rintro ⟨h1, h2⟩
    have hg := hgf.mpr (hlength.2 (by rw [h1, hjoin]))
    exact ⟨hg, (hempty hg).mp h2⟩
  · rintro ⟨hg, h2⟩
    refine ⟨?_, (hempty hg).mpr h2⟩
    obtain ⟨_, hvalid, _⟩ := planColumns_generate (hgf.mp hg) hcols
    obtain ⟨_, _, _, h4⟩ := planColumns_answerable hc hn (hgf.mp hg) hcols
    rw [← h4, hjoin, joinSchema_eq hvalid]
    have : ∀ l : List Nat, (∀ i ∈ l, ∃ c, m.querySchema[i]? = some c) → l.length = (l.filterMap fun i => m.querySchema[i]?).length := by
      intro l hl
      induction l with
      | nil => rfl
      | cons i l ih =>
        obtain ⟨c, h⟩ := hl i (by simp)
        rw [List.filterMap_cons_some (b := c) h, List.length_cons, List.length_cons, ih fun j hj => hl j (List.mem_cons_of_mem _ hj)]
    refine this _ fun i hi => ?_
    obtain ⟨c, _, h, _⟩ := hvalid i (List.mem_filter.mp hi).1
    exact ⟨c, h⟩

/-- **C57** in the parts that hold: planning a query never aborts the server if every filter compares stored columns, and executing the plan
never does if a stored column is read, only fields are generated and no tag is called `timestamp` or `value`. Executing does so for every content of the table, however it is batched,
also if reading it fails, is delayed or gives different data points for the fields. The tags of data points come from columns of the segments,
so their number is that of the tag columns. Not shown is the property for other filters, projections and names of tags, for these it is false of the code,
see the theorems below. -/
theorem C57_no_panic_partial {ε σ : Type} (env : Env ε) {hashOrder : List Nat → List Nat} (horder : AnyOrder hashOrder) {name : String}
    {qs : List Column} {bs : List ErrorBound} {gs : List (Option (Generated ε))} {m : Metadata ε} (hm : tryNew name qs bs gs = .ok m)
    (hunique : (qs.map (·.name)).Nodup) (projection : List Nat) (filters : List Expr)
    (hfilters : ∀ e ∈ filters, ¬ OperandNotStored m.schema e) (hfields : GeneratedFieldsIn m projection) (hreads : ReadsStored m projection)
    (hfree : ∀ tag ∈ tagNamesOf m, FreeName tag) (points : σ → List Point) (predicate : Option (Point → Bool)) (batchSize : Nat) (events : Nat → List (Event (List σ)))
    (htags : ∀ i batch, .item batch ∈ events i → ∀ s ∈ batch, ∀ p ∈ points s, p.tags.length = m.tagIndices.length) :
    planFilters m filters ≠ .error .panic ∧ planScan env hashOrder m projection ≠ .error .panic ∧
    ∀ plan, planScan env hashOrder m projection = .ok plan → ∀ (n : Nat),
      (drain (pollJoin (tagNamesOf m) plan.order (pollGrid points predicate batchSize pollEvents)) n (inputsOf plan.fields events)).2 ≠
        .panicked ∧
      ∀ batch ∈ (drain (pollJoin (tagNamesOf m) plan.order (pollGrid points predicate batchSize pollEvents)) n
          (inputsOf plan.fields events)).1,
        ∀ evaluate : ε → List (List Cell) → Option (List Cell), finish evaluate plan batch ≠ .error .panic := by
  refine ⟨?_, C57_columns_no_panic env horder hm projection, fun plan hplan n => ?_⟩
  · rw [Ne, C57_filters_panic_iff]
    rintro ⟨e, he, h⟩
    exact hfilters e he h
  have hexec := (planScan_executable horder hm hunique hplan).mpr ⟨hfields, hreads⟩
  obtain ⟨fallback, fields, hres, hjoin, hcols, _, hpf⟩ := planScan_ok hplan
  have hmq : m.querySchema = qs := by obtain ⟨_, _, _, _, _, _, _, h8⟩ := tryNew_ok.mp hm; rw [h8]
  have hmg : m.generated = gs := by obtain ⟨_, _, _, _, _, _, _, h8⟩ := tryNew_ok.mp hm; rw [h8]
  have hc := consistent_of_tryNew hm
  have hn := schema_nodup hc hunique
  rw [← hmq, ← hmg] at hc
  simp only [Plan.executable, Bool.and_eq_true, decide_eq_true_eq, Bool.not_eq_true', List.isEmpty_eq_false_iff] at hexec
  have hgf := (planColumns_length hcols).2 (by rw [hexec.1, hjoin])
  obtain ⟨ha1, ha2, _, ha4⟩ := planColumns_answerable hc hn hgf hcols
  have hans : Answerable (tagNamesOf m) plan.order plan.fields := by
    refine ⟨hexec.2, ?_, fun tag htag => ⟨ha1 tag htag, hfree tag (ha1 tag htag)⟩, ?_⟩
    · rw [hpf]
      split
      · simp
      · rename_i h
        simpa [List.isEmpty_iff] using h
    · rw [ha2, hpf]
      split
      · rename_i h
        rw [List.isEmpty_iff] at h
        simp [h]
      · exact Nat.le_refl _
  constructor
  · -- The join.
    have hkeep := keeping_grid points predicate batchSize (tagNamesOf m).length pollEvents _
      (keeping_events fun batch : List σ => ∀ s ∈ batch, Tagged (tagNamesOf m).length (points s))
    refine drain_not_panicked (Inv := fun slots => slots.length = plan.fields.length ∧
        SlotsOk (fun g => (∀ batch, .item batch ∈ g.input → ∀ s ∈ batch, Tagged (tagNamesOf m).length (points s)) ∧
          Tagged (tagNamesOf m).length g.current) (tagNamesOf m).length slots)
      (fun slots hs => ?_) n _ ?_
    · obtain ⟨r, slots', h1, h2, h3⟩ := pollJoin_some hans hkeep hs.1 hs.2
      exact ⟨r, slots', h1, h2, h3⟩
    · refine ⟨by simp [inputsOf], ?_⟩
      intro slot hslot
      obtain ⟨i, _, rfl⟩ := List.mem_map.mp hslot
      refine ⟨by simp, ?_, ?_⟩
      · intro batch hb s hs p hp
        rw [tagNames_length hc]
        exact htags i batch hb s hs p hp
      · intro p hp
        simp [GridStream.new] at hp
  · -- The generated columns.
    intro batch hbatch evaluate
    have hlen := drain_items (Q := fun columns => columns.length = plan.order.length) (fun s a s' h => pollJoin_length h) n _ batch hbatch
    obtain ⟨hgen, hvalid, _⟩ := planColumns_generate hgf hcols
    unfold finish
    split
    · simp
    · refine generateAs_no_panic ?_ ?_
      · intro k i e hk
        rw [hgen] at hk
        have := genList_position m _ 0 k i e hk
        omega
      · have h1 := genList_length m (addSources projection (hashOrder (sourcesOf m projection))) 0
        have h2 : plan.result.length = projection.length := by
          have := congrArg List.length (mapM_option_eq_some.mp hres)
          simpa using this.symm
        obtain ⟨t, ht, _⟩ := addSources_prefix (hashOrder (sourcesOf m projection)) projection
        have h3 := congrArg List.length ht
        rw [List.length_append] at h3
        rw [hgen, h2]
        omega

/-- Only fields are generated in tables that are created with SQL, and their columns have different names. -/
theorem C57_sql_fields {ε : Type} (env : Env ε) (name : String) (columns : List (SqlColumn ε)) (m : Metadata ε)
    (h : createFromSql env name columns = .ok m) (P : List Nat) :
    GeneratedFieldsIn m P ∧ (m.querySchema.map (·.name)).Nodup ∧ ∃ bs, tryNew name m.querySchema bs m.generated = .ok m := by
  unfold createFromSql at h
  simp only [bind, Except.bind] at h
  cases hb : columns.mapM SqlColumn.bound with
  | error e => rw [hb] at h; cases h
  | ok bs =>
    rw [hb] at h
    dsimp only at h
    cases hu : uniqueNames (columns.map SqlColumn.column) with
    | false => rw [hu] at h; cases h
    | true =>
      rw [hu] at h
      simp only [Bool.not_true, Bool.false_eq_true, if_false] at h
      cases hg : columns.mapM (SqlColumn.generated env (columns.map SqlColumn.column)) with
      | error e => rw [hg] at h; cases h
      | ok gs =>
        rw [hg] at h
        dsimp only at h
        change tryNew name (columns.map SqlColumn.column) bs gs = .ok m at h
        obtain ⟨_, k2, _, _, _, _, _, k8⟩ := tryNew_ok.mp h
        have hqs : m.querySchema = columns.map SqlColumn.column := by rw [k8]
        have hgs : m.generated = gs := by rw [k8]
        obtain ⟨_, hgens⟩ := mapM_ok_getElem _ _ _ hg
        refine ⟨?_, by rw [hqs]; simpa [uniqueNames] using hu, bs, by rw [hqs, hgs]; exact h⟩
        intro i _ g c hgi hc
        rw [hgs] at hgi
        have hi : i < columns.length := by
          have := (List.getElem?_eq_some_iff.mp hgi).1
          rw [List.length_map] at k2
          omega
        obtain ⟨g', hg', hcg⟩ := hgens _ _ (List.getElem?_eq_getElem hi)
        rw [hgi] at hg'
        injection hg' with hg'
        subst hg'
        rw [hqs, List.getElem?_map, List.getElem?_eq_getElem hi] at hc
        simp only [Option.map_some, Option.some.injEq] at hc
        subst hc
        cases hcol : columns[i] with
        | fieldAs n e => simp [SqlColumn.column]
        | timestamp n => rw [hcol] at hcg; cases hcg
        | tag n => rw [hcol] at hcg; cases hcg
        | field n => rw [hcol] at hcg; cases hcg
        | fieldBound n v r => rw [hcol] at hcg; cases hcg

/-! ### A query for which the conditions hold -/

/-- Two inputs of which one fails, is delayed and has other data points than the other. -/
def unevenEvents (i : Nat) : List (Event (List ListSegment)) :=
  if i = 2 then [.item [⟨["A"], (1, 10), [(2, 20)]⟩], .pending, .error, .item [⟨["B"], (7, 1), []⟩]] else [.pending, .item [⟨["C"], (3, 30), []⟩]]

/-- The query `SELECT sum, ts FROM t WHERE ts > 0 AND a > 1` for a table with a generated column. -/
example : ∀ plan, planScan listEnv id lastMetadata [3, 0] = .ok plan → ∀ n,
    (drain (pollJoin (tagNamesOf lastMetadata) plan.order (pollGrid listSegment.points none 8192 pollEvents)) n
      (inputsOf plan.fields unevenEvents)).2 ≠ .panicked := by
  intro plan hplan n
  have hm : tryNew "t" lastMetadata.querySchema [.lossless, .lossless, .lossless, .lossless, .lossless] lastMetadata.generated =
    .ok lastMetadata := by decide +kernel
  refine ((C57_no_panic_partial listEnv (fun _ _ => Iff.rfl) hm (by decide) [3, 0]
    [.binary (.column "ts") .gt (.constant (.time 0)), .binary (.column "a") .gt (.constant (.number 1))] ?_ ?_ ?_ (by decide) listSegment.points none 8192
    unevenEvents ?_).2.2 plan hplan n).1
  · simp only [List.mem_cons, List.not_mem_nil, or_false, forall_eq_or_imp, forall_eq, OperandNotStored]
    decide
  · exact (C57_sql_fields listEnv "t" _ lastMetadata lastTable_eq _).1
  · exact ⟨0, by simp, .inl rfl⟩
  · intro i batch hb s hs p hp
    have hall : ∀ i, ∀ batch, .item batch ∈ unevenEvents i → ∀ s ∈ batch, ∀ p ∈ listSegment.points s, p.tags.length = 1 := by
      intro i
      unfold unevenEvents
      split
      · simp only [List.mem_cons, Event.item.injEq, reduceCtorEq, List.not_mem_nil, or_false, false_or]
        rintro batch (rfl | rfl) <;> decide
      · simp only [List.mem_cons, Event.item.injEq, reduceCtorEq, List.not_mem_nil, or_false, false_or]
        rintro batch rfl
        decide
    exact hall i batch hb s hs p hp

/-! ### Queries that abort the server -/

/-- One row is stored for every field. -/
def oneRow (_ : Nat) : List (Event (List ListSegment)) := [.item [⟨["A"], (1, 10), []⟩]]

/-- **C57** is false of the code for filters with a generated column: the query `SELECT ts FROM t WHERE sum > 5` aborts the server, for every
content of the table. -/
theorem C57_generated_filter_panics :
    lastTable = .ok lastMetadata ∧ planFilters lastMetadata [.binary (.column "sum") .gt (.constant (.number 5))] = .error .panic ∧
    planFilters lastMetadata [.binary (.constant (.number 5)) .lt (.column "sum")] = .error .panic :=
  ⟨lastTable_eq, by decide +kernel, by decide +kernel⟩

/-- **C57** is false of the code for queries that need no column, such as `SELECT COUNT(*) FROM t`: they abort the server if the table is not
empty. -/
theorem C57_no_column_panics : lastTable = .ok lastMetadata ∧ ∃ plan, planScan listEnv id lastMetadata [] = .ok plan ∧
    drain (pollJoin (tagNamesOf lastMetadata) plan.order (pollGrid listSegment.points none 8192 pollEvents)) 9
      (inputsOf plan.fields oneRow) = ([], .panicked) := by
  refine ⟨lastTable_eq, _, rfl, ?_⟩
  decide +kernel

/-- `ts TIMESTAMP, tag TAG, v FIELD, one FIELD AS (1.0)`. -/
def constantMetadata : Metadata (List String) :=
  { lastMetadata with
    fieldIndices := [2], errorBounds := [.lossless, .lossless, .lossless], generated := [none, none, none, some ⟨[], []⟩]
    schema := [⟨"ts", .timestamp, false⟩, ⟨"tag", .string, false⟩, ⟨"v", .value, false⟩]
    querySchema := [⟨"ts", .timestamp, false⟩, ⟨"tag", .string, false⟩, ⟨"v", .value, false⟩, ⟨"one", .value, false⟩]
    querySchemaToSchema := [0, 1, 2] }

/-- **C57** is false of the code for queries for a column that is a constant: `SELECT one FROM t` aborts the server if the table is not
empty. -/
theorem C57_constant_column_panics :
    createFromSql listEnv "t" [.timestamp "ts", .tag "tag", .field "v", .fieldAs "one" []] = .ok constantMetadata ∧
    ∃ plan, planScan listEnv id constantMetadata [3] = .ok plan ∧
      drain (pollJoin (tagNamesOf constantMetadata) plan.order (pollGrid listSegment.points none 8192 pollEvents)) 9
        (inputsOf plan.fields oneRow) = ([], .panicked) := by
  refine ⟨by decide +kernel, _, rfl, ?_⟩
  decide +kernel

/-- **C57** is false of the code for a generated tag column, which can be asked for with a message: reading it aborts the server if the table
is not empty. -/
theorem C57_generated_tag_panics : ∃ m, deserialize listEnv generatedTag = .ok m ∧ ∃ plan, planScan listEnv id m [2] = .ok plan ∧
    drain (pollJoin (tagNamesOf m) plan.order (pollGrid listSegment.points none 8192 pollEvents)) 9
      (inputsOf plan.fields oneRow) = ([], .panicked) := by
  refine ⟨_, rfl, _, rfl, ?_⟩
  decide +kernel

/-- `ts TIMESTAMP, name TAG, v FIELD`. -/
def taggedTable (name : String) : Except Failure (Metadata (List String)) :=
  createFromSql listEnv "t" [.timestamp "ts", .tag name, .field "v"]

/-- **C57** is false of the code for tags that are called `value` or `timestamp`: the table is created, but a query for the tag aborts the
server if the table is not empty, while the same query for the same table with another name for the tag returns the row. -/
theorem C57_tag_name_panics :
    (∀ name ∈ ["value", "timestamp"], ∃ m, taggedTable name = .ok m ∧ ∃ plan, planScan listEnv id m [1] = .ok plan ∧ plan.executable = true ∧
      drain (pollJoin (tagNamesOf m) plan.order (pollGrid listSegment.points none 8192 pollEvents)) 9 (inputsOf plan.fields oneRow) =
        ([], .panicked)) ∧
    ∃ m, taggedTable "other" = .ok m ∧ ∃ plan, planScan listEnv id m [1] = .ok plan ∧
      drain (pollJoin (tagNamesOf m) plan.order (pollGrid listSegment.points none 8192 pollEvents)) 9 (inputsOf plan.fields oneRow) =
        ([[[.tag "A"]]], .finished) := by
  refine ⟨?_, _, rfl, _, rfl, by decide +kernel⟩
  simp only [List.mem_cons, List.not_mem_nil, or_false, forall_eq_or_imp, forall_eq]
  exact ⟨⟨_, rfl, _, rfl, by decide +kernel, by decide +kernel⟩, _, rfl, _, rfl, by decide +kernel, by decide +kernel⟩

end ModelarDB.Props
