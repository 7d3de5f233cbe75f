import Verif.Props.C30
/-
C56: A table definition that is sent to another node is the same there.
-/
namespace ModelarDB.Props
open Model Model.TableDefinition Spec Lemmas

variable {ε : Type}

/-- The error bound a column has after it was sent. -/
def sentBound (m : Metadata ε) (c : Column) : ErrorBound :=
  match indexOf m.schema c.name with
  | some i => (m.errorBounds[i]?).getD .lossless
  | none => .lossless

theorem decode_encode (m : Metadata ε) (c : Column) : decodeBound (encodeBound m c) = .ok (sentBound m c) := by
  unfold encodeBound sentBound
  rcases indexOf m.schema c.name with _ | i
  · rfl
  · dsimp only
    rcases m.errorBounds[i]? with _ | b
    · rfl
    · cases b <;> rfl

theorem mapM_decode (m : Metadata ε) : ∀ cs : List Column, (cs.map (encodeBound m)).mapM decodeBound = .ok (cs.map (sentBound m))
  | [] => rfl
  | c :: cs => by
    rw [List.map_cons, List.mapM_cons, decode_encode, mapM_decode m cs]
    rfl

theorem mapM_expressions {env env' : Env ε} (henv : ∀ e, (env.refs e).Perm (env'.refs e)) {schema : List Column} :
    ∀ gs : List (Option (Generated ε)), (∀ g, some g ∈ gs → tryFromExpr env schema g.expr = .ok g) →
      ∃ gs', (gs.map fun g => g.map (·.expr)).mapM (decodeExpression env' schema) = .ok gs' ∧
        List.Forall₂ (Option.Rel SameGenerated) gs gs'
  | [], _ => ⟨[], rfl, .nil⟩
  | g :: gs, h => by
    obtain ⟨gs', h1, h2⟩ := mapM_expressions henv gs fun g hg => h g (List.mem_cons_of_mem _ hg)
    cases g with
    | none =>
      refine ⟨none :: gs', ?_, .cons .none h2⟩
      rw [List.map_cons, List.mapM_cons, h1]
      rfl
    | some g =>
      obtain ⟨g', hg', hsame⟩ := tryFromExpr_perm henv (h g List.mem_cons_self)
      refine ⟨some g' :: gs', ?_, .cons (.some hsame) h2⟩
      have : decodeExpression env' schema ((some g).map (·.expr)) = .ok (some g') := by
        simp [decodeExpression, hg', Except.map]
      rw [List.map_cons, List.mapM_cons, this, h1]
      rfl

/-- **C56.** Every accepted definition whose columns have different names and whose expressions refer to its columns is accepted by the
node it is sent to and is the same there. Only the order of the columns in a set may differ between two nodes. Nothing is assumed about
the error bounds and types of columns. -/
theorem C56_sent_definition_same (env env' : Env ε) (henv : ∀ e, (env.refs e).Perm (env'.refs e)) (m : Metadata ε)
    (bounds : List ErrorBound) (hacc : tryNew m.name m.querySchema bounds m.generated = .ok m)
    (hnames : (m.querySchema.map (·.name)).Nodup)
    (hexpr : ∀ g, some g ∈ m.generated → tryFromExpr env m.querySchema g.expr = .ok g) :
    ∃ m', deserialize env' (serialize m) = .ok m' ∧ SameDefinition m m' := by
  obtain ⟨h1, h2, h3, h4, h5, h6, h7, h8⟩ := tryNew_ok.mp hacc
  have hcon := consistent_of_tryNew hacc
  obtain ⟨gs', hgs', hsame⟩ := mapM_expressions henv m.generated hexpr
  have hwg : withoutGenerated 0 m.querySchema bounds m.generated =
      withoutGenerated 0 m.querySchema (m.querySchema.map (sentBound m)) gs' := by
    refine wg_congr 0 _ _ _ _ _ hsame (by simpa using h1.symm) ?_
    intro n hn
    obtain ⟨j, hjl, hjn⟩ := List.mem_iff_getElem.mp ((hcon.positions n).mpr hn)
    have hj : m.querySchemaToSchema[j]? = some n := by rw [List.getElem?_eq_getElem hjl, hjn]
    obtain ⟨hnl, hs, hb⟩ := hcon.column j n hj
    have hc : m.querySchema[n]? = some m.querySchema[n] := List.getElem?_eq_getElem hnl
    have hidx := indexOf_schema hcon hnames hj hc
    rw [← hb, List.getElem?_map, hc, Option.map_some]
    unfold sentBound
    rw [hidx]
    dsimp only
    have : j < m.errorBounds.length := by
      have := hcon.length.2
      omega
    rw [List.getElem?_eq_getElem this]
    rfl
  refine ⟨{ m with generated := gs' }, ?_, rfl, hsame⟩
  unfold deserialize serialize
  have hu : uniqueNames m.querySchema = true := by simpa [uniqueNames] using hnames
  simp only [mapM_decode, hu, hgs', bind, Except.bind, Bool.not_true, Bool.false_eq_true, if_false]
  show tryNew _ _ _ _ = _
  rw [tryNew_ok]
  rw [← hwg]
  refine ⟨by simp, ?_, checkGenerated_same hsame h3, h4, h5, h6, h7, ?_⟩
  · rw [h2]; exact hsame.length_eq
  · conv_lhs => rw [h8]

/-- A definition in SQL is the same on every node it is sent to. -/
theorem C56_sql (env env' : Env ε) (henv : ∀ e, (env.refs e).Perm (env'.refs e)) (name : String) (columns : List (SqlColumn ε))
    (m : Metadata ε) (h : createFromSql env name columns = .ok m) : ∃ m', deserialize env' (serialize m) = .ok m' ∧ SameDefinition m m' := by
  unfold createFromSql at h
  simp only [bind, Except.bind] at h
  cases hb : columns.mapM SqlColumn.bound with
  | error e => rw [hb] at h; cases h
  | ok bs =>
    rw [hb] at h
    dsimp only at h
    cases hu : uniqueNames (columns.map SqlColumn.column) with
    | false => rw [hu] at h; cases h
    | true =>
      rw [hu] at h
      simp only [Bool.not_true, Bool.false_eq_true, if_false] at h
      cases hg : columns.mapM (SqlColumn.generated env (columns.map SqlColumn.column)) with
      | error e => rw [hg] at h; cases h
      | ok gs =>
        rw [hg] at h
        change tryNew name (columns.map SqlColumn.column) bs gs = .ok m at h
        obtain ⟨k1, k2, -, -, -, -, -, k8⟩ := tryNew_ok.mp h
        have hname : m.name = name := by rw [k8]
        have hqs : m.querySchema = columns.map SqlColumn.column := by rw [k8]
        have hgs : m.generated = gs := by rw [k8]
        refine C56_sent_definition_same env env' henv m bs (by rw [hname, hqs, hgs]; exact h) (by rw [hqs]; simpa [uniqueNames] using hu) ?_
        intro g hgm
        rw [hgs] at hgm
        obtain ⟨hl, hgens⟩ := mapM_ok_getElem _ _ _ hg
        obtain ⟨i, hi⟩ := List.mem_iff_getElem?.mp hgm
        have hil : i < columns.length := by
          rw [← hl]
          exact (List.getElem?_eq_some_iff.mp hi).1
        obtain ⟨g', hg', hcg⟩ := hgens _ _ (List.getElem?_eq_getElem hil)
        rw [hi] at hg'
        injection hg' with hg'
        subst hg'
        cases hcol : columns[i] with
        | fieldAs n e =>
          rw [hcol] at hcg
          simp only [SqlColumn.generated] at hcg
          cases ht : tryFromExpr env (columns.map SqlColumn.column) e with
          | error e' => rw [ht] at hcg; cases hcg
          | ok g'' =>
            rw [ht] at hcg
            injection hcg with hcg
            injection hcg with hcg
            subst hcg
            rw [hqs, tryFromExpr_expr ht]
            exact ht
        | timestamp n => rw [hcol] at hcg; cases hcg
        | tag n => rw [hcol] at hcg; cases hcg
        | field n => rw [hcol] at hcg; cases hcg
        | fieldBound n v r => rw [hcol] at hcg; cases hcg

theorem mapM_decode_unknown : ∀ bounds : List (BoundType × FVal), (∃ b ∈ bounds, b.1 = .unknown) → bounds.mapM decodeBound = .error .error
  | [], h => by obtain ⟨_, h, -⟩ := h; cases h
  | b :: bounds, h => by
    rw [List.mapM_cons]
    by_cases hb : b.1 = .unknown
    · obtain ⟨t, v⟩ := b
      dsimp only at hb
      subst hb
      rfl
    · have ih := mapM_decode_unknown bounds (by
        obtain ⟨b', hb', hu⟩ := h
        rcases List.mem_cons.mp hb' with rfl | hb'
        · exact absurd hu hb
        · exact ⟨b', hb', hu⟩)
      obtain ⟨t, v⟩ := b
      cases t with
      | unknown => exact absurd rfl hb
      | absolute | relative | lossless => rw [ih]; rfl

/-- A message with an error bound of an unknown type is rejected, so a table is never created with another error bound than was asked for. -/
theorem C56_unknown_rejected (env : Env ε) (message : Message ε) (h : ∃ b ∈ message.bounds, b.1 = .unknown) :
    deserialize env message = .error .error := by
  unfold deserialize
  rw [mapM_decode_unknown _ h]
  rfl

example : ∃ m, sqlTable "t" = .ok m ∧
    deserialize listEnv { serialize m with bounds := (serialize m).bounds.set 2 (.unknown, .fin false 1) } = .error .error :=
  ⟨_, rfl, C56_unknown_rejected _ _ ⟨(.unknown, .fin false 1), by decide +kernel, rfl⟩⟩

/-- The table of the example for C30 is the same on a node that enumerates sets in the same order. -/
example : ∃ m, sqlTable "t" = .ok m ∧ m.errorBounds[2]? = some (.absolute (.fin false 2)) ∧
    deserialize listEnv (serialize m) = .ok m := ⟨_, rfl, by decide +kernel, rfl⟩

end ModelarDB.Props
