import Verif.Lemmas.QueryPlan
import Verif.Props.C30
import Verif.Props.C36
/-
C40: generated columns appear where the query expects them.
-/
namespace ModelarDB.Props
open Model Model.Query Model.TableDefinition Spec Lemmas

theorem planScan_ok {ε : Type} {env : Env ε} {hashOrder : List Nat → List Nat} {m : Metadata ε} {projection : List Nat} {plan : Plan ε}
    (h : planScan env hashOrder m projection = .ok plan) :
    ∃ fallback fields, (projection.mapM fun i => m.querySchema[i]?) = some plan.result ∧
      plan.joinSchema = joinSchema m (addSources projection (hashOrder (sourcesOf m projection))) ∧
      planColumns env m plan.joinSchema 0 (addSources projection (hashOrder (sourcesOf m projection))) =
        .ok (plan.order, fields, plan.generate) ∧
      fallbackFieldColumn m = some fallback ∧ plan.fields = if fields.isEmpty then [fallback] else fields := by
  unfold planScan at h
  simp only [bind, Except.bind, pure, Except.pure, throw, throwThe, MonadExceptOf.throw] at h
  split at h
  rotate_left
  · cases h
  rename_i result hres
  split at h
  · cases h
  rename_i r hcols
  obtain ⟨o, f, g⟩ := r
  split at h
  · cases h
  rename_i fallback hfall
  cases h
  exact ⟨fallback, f, hres, rfl, hcols, hfall, rfl⟩

theorem mapM_option_eq_some {α β : Type} {f : α → Option β} : ∀ {l : List α} {r : List β}, l.mapM f = some r ↔ l.map f = r.map some
  | [], r => by cases r <;> simp
  | a :: l, r => by
    have ih := fun r => mapM_option_eq_some (f := f) (l := l) (r := r)
    rw [List.mapM_cons]
    cases ha : f a with
    | none => cases r <;> simp [ha]
    | some b =>
      cases hl : l.mapM f with
      | none =>
        cases r with
        | nil => simp
        | cons c r =>
          have := (ih r).not.mp (by rw [hl]; simp)
          simp only [Option.bind_eq_bind, Option.bind_some, Option.bind_none, reduceCtorEq, List.map_cons, ha, List.cons.injEq, not_and,
            false_iff]
          exact fun _ => this
      | some bs =>
        have hbs := (ih bs).mp hl
        simp only [Option.bind_eq_bind, Option.bind_some, Option.pure_def, Option.some.injEq, List.map_cons, ha, hbs]
        cases r with
        | nil => simp
        | cons c r =>
          simp only [List.cons.injEq, List.map_cons, Option.some.injEq]
          constructor
          · rintro ⟨rfl, rfl⟩; exact ⟨rfl, rfl⟩
          · rintro ⟨rfl, h⟩
            exact ⟨rfl, (List.map_injective_iff.mpr (Option.some_injective _)) h⟩

/-- **C40**: a query returns for every column of the projection what is expected for it: the values of the column if it is stored and the
values of its expression, for the values of the stored columns of the same row, if it is generated. Columns that are only needed to compute
expressions are not returned. `κ` are the columns of a batch, or the values of a row. This is so for every table, every projection, every
order of the sources of the expressions, and every meaning of the expressions that only depends on the columns they refer to. The join
must be able to return a batch, it cannot if a column that is generated is a tag or the timestamp, see C57. -/
theorem C40_columns {ε κ : Type} {env : Env ε} {hashOrder : List Nat → List Nat} (horder : AnyOrder hashOrder) {name : String}
    {qs : List Column} {bs : List ErrorBound} {gs : List (Option (Generated ε))} {m : Metadata ε} (hm : tryNew name qs bs gs = .ok m)
    {projection : List Nat} {plan : Plan ε} (hplan : planScan env hashOrder m projection = .ok plan) (hexec : plan.executable = true)
    (value : ε → (String → Option κ) → Option κ) (hvalue : ∀ e f g, (∀ n ∈ env.refs e, f n = g n) → value e f = value e g)
    (stored : String → κ) :
    finish (fun e batch => value e (columnNamed plan.joinSchema batch)) plan (plan.joinSchema.map fun c => stored c.name) =
      match projection.mapM (expected m value stored) with
      | some columns => .ok columns
      | none => .error .error := by
  obtain ⟨fallback, fields, hres, hjoin, hcols, _, _⟩ := planScan_ok hplan
  have hmq : m.querySchema = qs := by obtain ⟨_, _, _, _, _, _, _, h8⟩ := tryNew_ok.mp hm; rw [h8]
  have hmg : m.generated = gs := by obtain ⟨_, _, _, _, _, _, _, h8⟩ := tryNew_ok.mp hm; rw [h8]
  have hc := consistent_of_tryNew hm
  rw [← hmq, ← hmg] at hc
  obtain ⟨t, ht, htsrc⟩ := addSources_prefix (hashOrder (sourcesOf m projection)) projection
  rw [ht] at hjoin hcols
  have hlen : plan.order.length = plan.joinSchema.length := by
    simp only [Plan.executable, Bool.and_eq_true, decide_eq_true_eq] at hexec
    exact hexec.1
  have hgf : GeneratedFieldsIn m (projection ++ t) := (planColumns_length hcols).2 (by rw [hlen, hjoin])
  obtain ⟨hgen, hvalid, hconv⟩ := planColumns_generate hgf hcols
  have hts : ∀ i ∈ t, isGen m i = false := by
    intro i hi
    have h1 := (horder _ _).mp (htsrc i hi)
    obtain ⟨j, hj, hij⟩ := List.mem_flatMap.mp h1
    split at hij
    · rename_i g hg
      have := hc.sources j g hg i hij
      unfold isGen
      rw [this]
    · simp at hij
  have hnogen : NoGen m (projection ++ t) projection.length (projection ++ t).length := by
    intro j i h1 _ h3
    rw [List.getElem?_append_right h1] at h3
    exact hts i (List.mem_of_getElem? h3)
  -- The values of the columns.
  let val : Nat → κ := fun i => (expected m value stored i).getD (stored "")
  have hnames : ∀ i ∈ projection ++ t, isGen m i = false → ∃ c, m.querySchema[i]? = some c ∧ val i = stored c.name := by
    intro i hi hg
    obtain ⟨c, gen, h1, h2⟩ := hvalid i hi
    refine ⟨c, h1, ?_⟩
    cases gen with
    | some g =>
      rw [(isGen_iff m).mpr ⟨g, h2⟩] at hg
      cases hg
    | none => simp [val, expected, h1, h2]
  have hbatch : (plan.joinSchema.map fun c => stored c.name) = (storedOf m (projection ++ t)).map val := by
    rw [hjoin, joinSchema_eq hvalid]
    have : ∀ l : List Nat, (∀ i ∈ l, ∃ c, m.querySchema[i]? = some c ∧ val i = stored c.name) →
        ((l.filterMap fun i => m.querySchema[i]?).map fun c => stored c.name) = l.map val := by
      intro l hl
      induction l with
      | nil => rfl
      | cons i l ih =>
        obtain ⟨c, h1, h2⟩ := hl i (by simp)
        rw [List.filterMap_cons_some (b := c) h1, List.map_cons, List.map_cons, h2, ih fun j hj => hl j (List.mem_cons_of_mem _ hj)]
    refine this _ fun i hi => ?_
    obtain ⟨h1, h2⟩ := List.mem_filter.mp hi
    exact hnames i h1 (by simpa using h2)
  have heval : ∀ i g, m.generated[i]? = some (some g) → i ∈ projection ++ t →
      value g.expr (columnNamed plan.joinSchema (plan.joinSchema.map fun c => stored c.name)) = expected m value stored i := by
    intro i g hg hi
    obtain ⟨c, _, h1, _⟩ := hvalid i hi
    rw [expected, hg, h1]
    simp only
    refine hvalue _ _ _ fun n hn => ?_
    obtain ⟨hnodup, hrefs⟩ := convertible_iff.mp (hconv i g hi hg)
    obtain ⟨d, hd, rfl⟩ := List.mem_map.mp (hrefs n hn)
    obtain ⟨j, hj⟩ := List.mem_iff_getElem?.mp hd
    rw [columnNamed, indexOf_nodup hnodup hj]
    simp [hj]
  have hfinish : (∀ i ∈ projection, expected m value stored i = some (val i)) → projection.mapM (expected m value stored) =
      some (projection.map val) := by
    intro h
    rw [mapM_option_eq_some, List.map_map]
    exact List.map_congr_left h
  unfold finish
  rw [hgen]
  by_cases hempty : (genList m 0 (projection ++ t)).isEmpty
  · -- There are no generated columns.
    rw [if_pos hempty, hbatch]
    have hno : ∀ (P : List Nat) (k : Nat), (genList m k P).isEmpty → ∀ i ∈ P, isGen m i = false := by
      intro P
      induction P with
      | nil => simp
      | cons i P ih =>
        intro k hk x hx
        by_cases hg : isGen m i = true
        · obtain ⟨g, hg⟩ := (isGen_iff m).mp hg
          simp [genList, hg] at hk
        · have hg : isGen m i = false := by simpa using hg
          rw [genList_stored m hg] at hk
          rcases List.mem_cons.mp hx with rfl | hx
          · exact hg
          · exact ih _ hk x hx
    have hno := hno _ 0 hempty
    have htnil : t = [] := by
      rcases t with _ | ⟨i, t⟩
      · rfl
      · exfalso
        have h1 := (horder _ _).mp (htsrc i (by simp))
        obtain ⟨j, hj, hij⟩ := List.mem_flatMap.mp h1
        have := hno j (by simp [hj])
        unfold isGen at this
        split at hij
        · rename_i g hg
          rw [hg] at this
          cases this
        · simp at hij
    subst htnil
    rw [List.append_nil] at hno hnames ⊢
    have hst : storedOf m projection = projection := by
      rw [storedOf, List.filter_eq_self]
      intro i hi
      simp [hno i hi]
    rw [hst, hfinish]
    intro i hi
    obtain ⟨c, gen, h1, h2⟩ := hvalid i (by simp [hi])
    cases gen with
    | some g =>
      have := hno i hi
      rw [(isGen_iff m).mpr ⟨g, h2⟩] at this
      cases this
    | none => simp [val, expected, h1, h2]
  · rw [if_neg hempty, hbatch]
    have hreslen : plan.result.length = projection.length := by
      have := congrArg List.length (mapM_option_eq_some.mp hres)
      simpa using this.symm
    rw [hreslen]
    by_cases hall : ∀ i ∈ projection, ∃ v, expected m value stored i = some v
    · have hall' : ∀ i ∈ projection, expected m value stored i = some (val i) := by
        intro i hi
        obtain ⟨v, hv⟩ := hall i hi
        simp [val, hv]
      rw [generateAs_run m val (projection ++ t) _ ?_ projection.length (by simp) hnogen, hfinish hall']
      · simp
      · intro i g hg hi
        rw [← hbatch, heval i g hg hi]
        refine hall' i ?_
        rcases List.mem_append.mp hi with hi | hi
        · exact hi
        · have := hts i hi
          rw [(isGen_iff m).mpr ⟨g, hg⟩] at this
          cases this
    · have hfail : ∃ i ∈ projection, expected m value stored i = none := by
        by_contra hcon
        refine hall fun i hi => ?_
        cases hv : expected m value stored i with
        | some v => exact ⟨v, rfl⟩
        | none => exact (hcon ⟨i, hi, hv⟩).elim
      obtain ⟨i, hi, hnone⟩ := hfail
      have hmapM : projection.mapM (expected m value stored) = none := by
        cases h : projection.mapM (expected m value stored) with
        | none => rfl
        | some r =>
          have h := mapM_option_eq_some.mp h
          have : expected m value stored i ∈ r.map some := by rw [← h]; exact List.mem_map_of_mem hi
          rw [hnone] at this
          simp at this
      rw [hmapM]
      refine generateAs_fails m val (projection ++ t) _ ?_ projection.length ?_
      · intro j g v hg hj hv
        rw [← hbatch, heval j g hg hj] at hv
        simp [val, hv]
      · obtain ⟨c, gen, h1, h2⟩ := hvalid i (by simp [hi])
        cases gen with
        | none => simp [expected, h1, h2] at hnone
        | some g =>
          refine ⟨i, g, by simp [hi], h2, ?_⟩
          rw [← hbatch, heval i g h2 (by simp [hi])]
          exact hnone

/-- The sum of columns. It has no value if a column is not a number. -/
def sumOf (refs : List String) (column : String → Option Cell) : Option Cell :=
  (refs.mapM fun n => match column n with
    | some (.value v) => some v
    | _ => none).map fun (vs : List Nat) => .value vs.sum

theorem sumOf_local : ∀ (e : List String) (f g : String → Option Cell), (∀ n ∈ listEnv.refs e, f n = g n) → sumOf e f = sumOf e g := by
  intro e f g h
  have : ∀ (l : List String), (∀ n ∈ l, f n = g n) → (l.mapM fun n => match f n with
      | some (.value v) => some v
      | _ => none) = l.mapM fun n => match g n with
      | some (.value v) => some v
      | _ => none := by
    intro l hl
    induction l with
    | nil => rfl
    | cons a l ih => simp only [List.mapM_cons, hl a (by simp), ih fun n hn => hl n (List.mem_cons_of_mem _ hn)]
  rw [sumOf, sumOf, this e h]

/-- A row of the table with the columns of `sqlColumns`. -/
def sumRow (name : String) : Cell :=
  if name = "ts" then .time 1 else if name = "tag" then .tag "A" else if name = "a" then .value 20 else .value 3

/-- The definition of the table. -/
def sumMetadata : Metadata (List String) :=
  { name := "t", timestampIndex := 0, fieldIndices := [2, 3], tagIndices := [1]
    errorBounds := [.lossless, .lossless, .absolute (.fin false 2), .relative (.fin false 5)]
    generated := [none, some ⟨["a", "b"], [3, 4]⟩, none, none, none]
    schema := [⟨"ts", .timestamp, false⟩, ⟨"tag", .string, false⟩, ⟨"a", .value, false⟩, ⟨"b", .value, false⟩]
    querySchema := [⟨"ts", .timestamp, false⟩, ⟨"sum", .value, false⟩, ⟨"tag", .string, false⟩, ⟨"a", .value, false⟩, ⟨"b", .value, false⟩]
    querySchemaToSchema := [0, 2, 3, 4]
    compressedSchema := compressedSchemaBase ++ [⟨"tag", .string, false⟩] }

theorem sumMetadata_eq : sqlTable "t" = .ok sumMetadata := by decide +kernel

theorem sumMetadata_new : tryNew "t" sumMetadata.querySchema [.lossless, .lossless, .lossless, .absolute (.fin false 2), .relative (.fin false 5)]
    sumMetadata.generated = .ok sumMetadata := by decide +kernel

/-- The plan of a query for the generated column, the second field and the timestamp. -/
def sumPlan : Plan (List String) :=
  ⟨[⟨"sum", .value, false⟩, ⟨"b", .value, false⟩, ⟨"ts", .timestamp, false⟩],
    [⟨"b", .value, false⟩, ⟨"ts", .timestamp, false⟩, ⟨"a", .value, false⟩], [.field, .timestamp, .field], [3, 2], [(0, ["a", "b"])]⟩

/-- The query reads the first field as well. The generated column is returned first and the first field is not returned. -/
example : planScan listEnv List.reverse sumMetadata [1, 4, 0] = .ok sumPlan ∧ sumPlan.executable = true ∧
    finish (fun e batch => sumOf e (columnNamed sumPlan.joinSchema batch)) sumPlan [.value 3, .time 1, .value 20] =
      .ok [.value 23, .value 3, .time 1] := by
  have h1 : planScan listEnv List.reverse sumMetadata [1, 4, 0] = .ok sumPlan := by decide +kernel
  have h2 : sumPlan.executable = true := by decide +kernel
  exact ⟨h1, h2, C40_columns (hashOrder := List.reverse) (fun l i => List.mem_reverse) sumMetadata_new h1 h2 sumOf sumOf_local sumRow⟩

end ModelarDB.Props
