import Verif.Lemmas.EmbeddedTables
import Verif.Props.C32
import Verif.Props.C56
import Verif.Props.C75
/-
C82: A time series table that is created with the embedded library is the one that is asked for.
-/
namespace ModelarDB.Props
open Model Model.Statements Model.TableDefinition Model.DataFolder Model.CreateTable Model.EmbeddedTables Spec Spec.EmbeddedTables Lemmas
  Lemmas.CreateTable Lemmas.EmbeddedTables

variable {ε : Type} {sql : Sql ε}

/-- The definition that is made for a request. -/
def makeTable (sql : Sql ε) (r : Request) : Except Failure (Metadata ε) := tryNewMetadata sql r.name r.schema r.bounds r.expressions

/-- The expression that is found for a column. -/
theorem computed_of_generated {r : Request} (hu : Unambiguous r) {c : Column} {g : Option (Generated ε)}
    (h : generatedFor sql r.schema r.expressions c = .ok g) : g = none ↔ ¬r.Computed c.name := by
  rcases (generatedFor_ok hu.expressions).mp h with ⟨rfl, h'⟩ | ⟨text, g', rest, rfl, h', -⟩
  · simp only [true_iff]
    rintro ⟨text, ht⟩
    exact h' text ht
  · simp only [reduceCtorEq, false_iff, not_not]
    exact ⟨text, h'⟩

/-- **C82**, partial: a table is created if and only if the request makes sense. Missing: texts in which something follows the expression, for which it
is false, see below. -/
theorem C82_accepted_partial {r : Request} (hu : Unambiguous r) (hw : Whole sql r) :
    (∃ m, makeTable sql r = .ok m) ↔ Spec.EmbeddedTables.Sensible sql r := by
  unfold makeTable
  constructor
  · rintro ⟨m, h⟩
    obtain ⟨hn, gs, hgs, ht⟩ := tryNewMetadata_ok.mp h
    obtain ⟨h1, h2, h3, ⟨i, c, hc, htc, hi, huniq⟩, ⟨i', c', hc', hv, hi'⟩⟩ :=
      (tryNew_accepts (by simp) hgs.length_eq).mp ⟨m, ht⟩
    have hstored : ∀ (k : Nat) (c : Column), r.schema[k]? = some c → (gs[k]? = some none ↔ ¬r.Computed c.name) := by
      intro k c hc
      obtain ⟨g, hg, hgc⟩ := forall₂_at hgs k c hc
      rw [hg, Option.some.injEq]
      exact computed_of_generated hu hgc
    refine ⟨hn, h2, h3, ⟨i, c, hc, htc, (hstored i c hc).mp hi, ?_⟩, ⟨c', List.mem_of_getElem? hc', hv, (hstored i' c' hc').mp hi'⟩, ?_⟩
    · intro k c'' hc'' ht'' hk
      exact huniq k c'' hc'' ht'' ((hstored k c'' hc'').mpr hk)
    · intro x hx text htext
      obtain ⟨k, hk⟩ := List.mem_iff_getElem?.mp hx
      obtain ⟨g, hg, hgc⟩ := forall₂_at hgs k x hk
      rcases (generatedFor_ok hu.expressions).mp hgc with ⟨-, h'⟩ | ⟨text', g', rest, rfl, h', hp, hs⟩
      · exact absurd htext (h' text)
      · have htt : text' = text := by
          have a := (get_eq_some hu.expressions _ _).mpr h'
          rw [(get_eq_some hu.expressions _ _).mpr htext] at a
          exact (Option.some.inj a).symm
        subst htt
        have hrest := hw _ htext _ _ hp
        subst hrest
        refine ⟨g'.expr, hp, ?_⟩
        intro n hn'
        obtain ⟨j, hj⟩ := List.mem_iff_getElem?.mp hn'
        obtain ⟨s, hs', hidx⟩ := forall₂_at hs j n hj
        obtain ⟨c₁, hc₁, hname⟩ := (indexOf_iff hn n s).mp hidx
        refine ⟨⟨c₁, List.mem_of_getElem? hc₁, hname⟩, ?_⟩
        rw [← hname]
        exact (hstored s c₁ hc₁).mp (h1 g' (List.mem_of_getElem? hg) s (List.mem_of_getElem? hs'))
  · intro s
    obtain ⟨gs, hgs⟩ := forall₂_exists (l := r.schema) (r := fun c g => generatedFor sql r.schema r.expressions c = .ok g) (by
      intro c hc
      by_cases hcomp : r.Computed c.name
      · obtain ⟨text, htext⟩ := hcomp
        obtain ⟨e, he, hrefs⟩ := s.expressions c hc text htext
        obtain ⟨is, his⟩ := forall₂_exists (l := sql.refs e) (r := fun n k => indexOf r.schema n = some k) (by
          intro n hn
          obtain ⟨⟨c', hc', hname⟩, -⟩ := hrefs n hn
          obtain ⟨k, hk⟩ := List.mem_iff_getElem?.mp hc'
          exact ⟨k, (indexOf_iff s.different n k).mpr ⟨c', hk, hname⟩⟩)
        exact ⟨some ⟨e, is⟩, (generatedFor_ok hu.expressions).mpr (.inr ⟨text, ⟨e, is⟩, [], rfl, htext, he, his⟩)⟩
      · exact ⟨none, (generatedFor_ok hu.expressions).mpr (.inl ⟨rfl, fun text ht => hcomp ⟨text, ht⟩⟩)⟩)
    have hstored : ∀ (k : Nat) (c : Column), r.schema[k]? = some c → (gs[k]? = some none ↔ ¬r.Computed c.name) := by
      intro k c hc
      obtain ⟨g, hg, hgc⟩ := forall₂_at hgs k c hc
      rw [hg, Option.some.injEq]
      exact computed_of_generated hu hgc
    obtain ⟨m, hm⟩ := (tryNew_accepts (name := r.name) (bs := r.schema.map fun c => (Map.get r.bounds c.name).getD .lossless) (by simp)
        hgs.length_eq).mpr (by
      refine ⟨?_, s.few, s.types, ?_, ?_⟩
      · intro g hg k hk
        obtain ⟨i, hi⟩ := List.mem_iff_getElem?.mp hg
        obtain ⟨c, hc, hgc⟩ := forall₂_get hgs i _ hi
        rcases (generatedFor_ok hu.expressions).mp hgc with ⟨h', -⟩ | ⟨text, g', rest, h', htext, hp, hs⟩
        · cases h'
        · injection h' with h'
          subst h'
          obtain ⟨e, he, hrefs⟩ := s.expressions c (List.mem_of_getElem? hc) text htext
          have : e = g.expr := by
            unfold Says at he
            rw [he] at hp
            injection hp with hp
            injection hp
          subst this
          obtain ⟨j, hj⟩ := List.mem_iff_getElem?.mp hk
          obtain ⟨n, hn, hidx⟩ := forall₂_get hs j _ hj
          obtain ⟨c₁, hc₁, hname⟩ := (indexOf_iff s.different n k).mp hidx
          refine (hstored k c₁ hc₁).mpr ?_
          rw [hname]
          exact (hrefs n (List.mem_of_getElem? hn)).2
      · obtain ⟨i, c, hc, ht, hcomp, huniq⟩ := s.timestamp
        refine ⟨i, c, hc, ht, (hstored i c hc).mpr hcomp, ?_⟩
        intro k c' hc' ht' hk
        exact huniq k c' hc' ht' ((hstored k c' hc').mp hk)
      · obtain ⟨c, hc, ht, hcomp⟩ := s.field
        obtain ⟨i, hi⟩ := List.mem_iff_getElem?.mp hc
        exact ⟨i, c, hi, ht, (hstored i c hi).mpr hcomp⟩)
    exact ⟨m, tryNewMetadata_ok.mpr ⟨s.different, gs, hgs, hm⟩⟩

/-- **C82**, partial: the table that is created has the columns that are asked for, with their error bounds and expressions. Missing: as for
`C82_accepted_partial`. -/
theorem C82_made_partial {r : Request} (hu : Unambiguous r) (hw : Whole sql r) {m : Metadata ε} (h : makeTable sql r = .ok m) : Made sql r m := by
  obtain ⟨hn, gs, hgs, ht⟩ := tryNewMetadata_ok.mp h
  have hcon := consistent_of_tryNew ht
  obtain ⟨-, -, -, -, -, -, -, k⟩ := tryNew_ok.mp ht
  have hg : m.generated = gs := by rw [k]
  refine ⟨by rw [k], by rw [k], ?_, _, by rw [hg]; exact hcon, ?_⟩
  · intro i c hc text htext
    obtain ⟨g, hgi, hgc⟩ := forall₂_at hgs i c hc
    rcases (generatedFor_ok hu.expressions).mp hgc with ⟨-, h'⟩ | ⟨text', g', rest, rfl, h', hp, hs⟩
    · exact absurd htext (h' text)
    · have htt : text' = text := by
        have a := (get_eq_some hu.expressions _ _).mpr h'
        rw [(get_eq_some hu.expressions _ _).mpr htext] at a
        exact (Option.some.inj a).symm
      subst htt
      have hrest := hw _ htext _ _ hp
      subst hrest
      exact ⟨g', by rw [hg, hgi], hp, hs.imp fun n k h => (indexOf_iff hn n k).mp h⟩
  · intro i c hc hcomp
    obtain ⟨g, hgi, hgc⟩ := forall₂_at hgs i c hc
    have hnone := (computed_of_generated hu hgc).mpr hcomp
    subst hnone
    refine ⟨by rw [hg, hgi], ?_, ?_⟩
    · intro b hb
      rw [List.getElem?_map, hc, Option.map_some, (get_eq_some hu.bounds _ _).mpr hb]
      rfl
    · intro hb
      rw [List.getElem?_map, hc, Option.map_some, (get_eq_none _ _).mpr hb]
      rfl

/-- **C82**, partial: nothing that is asked for is ignored. Missing: as for `C82_accepted_partial`, and error bounds and expressions of columns that the
table does not have and error bounds of columns that are computed, which are ignored, see below. -/
theorem C82_nothing_ignored_partial {r : Request} (hu : Unambiguous r) (hw : Whole sql r) (hnamed : Named r) {m : Metadata ε}
    (h : makeTable sql r = .ok m) : NothingIgnored sql r m := by
  have made := C82_made_partial hu hw h
  refine ⟨?_, ?_⟩
  · rintro ⟨n, b⟩ hb
    obtain ⟨⟨c, hc, rfl⟩, hcomp⟩ := hnamed.bounds _ hb
    obtain ⟨i, hi⟩ := List.mem_iff_getElem?.mp hc
    obtain ⟨bounds, hcon, hst⟩ := made.stored
    obtain ⟨h1, h2, -⟩ := hst i c hi hcomp
    obtain ⟨j, hj⟩ := List.mem_iff_getElem?.mp ((hcon.positions i).mpr h1)
    obtain ⟨-, h3, h4⟩ := hcon.column j i hj
    exact ⟨j, c, by rw [h3, hi], rfl, by rw [h4]; exact h2 b hb⟩
  · rintro ⟨n, text⟩ htext
    obtain ⟨c, hc, rfl⟩ := hnamed.expressions _ htext
    obtain ⟨i, hi⟩ := List.mem_iff_getElem?.mp hc
    obtain ⟨g, hg, hs, -⟩ := made.computed i c hi text htext
    exact ⟨i, c, g, by rw [made.columns]; exact hi, rfl, hg, hs⟩

/-- **C82**, partial: the table can be saved and loaded. Missing: as for `C82_accepted_partial`, and requests that are not usual: columns that are no
fields and have an error bound or are computed, see below, and names of tables as for C30. -/
theorem C82_storable_partial {r : Request} (hu : Unambiguous r) (hw : Whole sql r) (husual : Usual r) {m : Metadata ε}
    (h : makeTable sql r = .ok m) : Storable sql.env m := by
  have made := C82_made_partial hu hw h
  obtain ⟨hn, gs, hgs, ht⟩ := tryNewMetadata_ok.mp h
  obtain ⟨-, -, -, -, -, -, -, k⟩ := tryNew_ok.mp ht
  have hg : m.generated = gs := by rw [k]
  obtain ⟨bounds, hcon, hst⟩ := made.stored
  have hbound : ∀ (j : Nat) (b : ErrorBound), m.errorBounds[j]? = some b → ∃ c, m.schema[j]? = some c ∧ (b = .lossless ∨ c ∈ r.schema ∧ (c.name, b) ∈ r.bounds) := by
    intro j b hj
    have hjl : j < m.querySchemaToSchema.length := by
      rw [← hcon.length.2]
      exact (List.getElem?_eq_some_iff.mp hj).1
    obtain ⟨hi, hs, hb⟩ := hcon.column j _ (List.getElem?_eq_getElem hjl)
    have hcol := List.getElem?_eq_getElem hi
    refine ⟨_, by rw [hs, hcol], ?_⟩
    have hnone := (hcon.positions _).mp (List.getElem_mem hjl)
    rw [hg] at hnone
    obtain ⟨c, hc, hgc⟩ := forall₂_get hgs _ _ hnone
    rw [hcol] at hc
    injection hc with hc
    subst hc
    have hcomp := (computed_of_generated hu hgc).mp rfl
    obtain ⟨-, h1, h2⟩ := hst _ _ hcol hcomp
    by_cases hex : ∃ b', (r.schema[m.querySchemaToSchema[j]].name, b') ∈ r.bounds
    · obtain ⟨b', hb'⟩ := hex
      have := h1 b' hb'
      rw [← hb, hj] at this
      injection this with this
      subst this
      exact .inr ⟨List.getElem_mem hi, hb'⟩
    · have := h2 fun b' hb' => hex ⟨b', hb'⟩
      rw [← hb, hj] at this
      injection this with this
      exact .inl this
  refine ⟨⟨_, by rw [made.name, made.columns, hg]; exact ht⟩, by rw [made.columns]; exact hn, by rw [made.name]; exact husual.noQuote,
    by rw [made.name]; exact husual.selfName, ?_, ?_, ?_⟩
  · intro b hb
    obtain ⟨j, hj⟩ := List.mem_iff_getElem?.mp hb
    obtain ⟨c, -, rfl | ⟨-, hb'⟩⟩ := hbound j b hj
    · trivial
    · exact husual.meaningful _ hb'
  · intro j c hc htype
    have hjl : j < m.errorBounds.length := by
      rw [hcon.length.2, ← hcon.length.1]
      exact (List.getElem?_eq_some_iff.mp hc).1
    have hj := List.getElem?_eq_getElem hjl
    obtain ⟨c', hc', hb⟩ := hbound j _ hj
    rw [hc] at hc'
    injection hc' with hc'
    subst hc'
    rcases hb with hb | ⟨hmem, hb⟩
    · rw [hj, hb]
    · exact absurd (husual.boundFields c hmem _ hb) htype
  · intro i g hgi
    rw [hg] at hgi
    obtain ⟨c, hc, hgc⟩ := forall₂_get hgs _ _ hgi
    rcases (generatedFor_ok hu.expressions).mp hgc with ⟨h', -⟩ | ⟨text, g', rest, h', htext, hp, hs⟩
    · cases h'
    · injection h' with h'
      subst h'
      refine ⟨⟨c, by rw [made.columns]; exact hc, husual.computedFields c (List.mem_of_getElem? hc) ⟨text, htext⟩⟩, ?_⟩
      rw [made.columns, tryFromExpr_iff]
      exact ⟨rfl, hs⟩

/-- **C82**, partial: when the data folder is opened again it has the tables that were created with the same definitions. Missing: as for
`C82_storable_partial`. -/
theorem C82_reopened_partial (env' : Env ε) (henv : ∀ e, (sql.refs e).Perm (env'.refs e)) (ops : List (FolderOp ε)) (disk : Disk ε)
    (hrun : folderRun emptyFolder ops = some disk)
    (hcreated : ∀ m ∈ created ops, ∃ r, Unambiguous r ∧ Whole sql r ∧ Usual r ∧ makeTable sql r = .ok m)
    (hnormal : ∀ t ∈ createdNormal ops, SelfName t.toList) :
    ∃ ts, start env' disk = .ok (normalTablesAfter [] ops, ts) ∧ List.Forall₂ SameDefinition (tablesAfter [] ops) ts := by
  refine C30_restart_partial sql.env env' henv ops disk hrun ?_ hnormal
  intro m hm
  obtain ⟨r, h1, h2, h3, h4⟩ := hcreated m hm
  exact C82_storable_partial h1 h2 h3 h4

/-- **C82**: a server that is sent the definition has the same definition. Nothing is assumed about the types of the columns. -/
theorem C82_server (env' : Env ε) (henv : ∀ e, (sql.refs e).Perm (env'.refs e)) {r : Request} {m : Metadata ε}
    (h : makeTable sql r = .ok m) : ∃ m', deserialize env' (serialize m) = .ok m' ∧ SameDefinition m m' := by
  obtain ⟨hn, gs, hgs, ht⟩ := tryNewMetadata_ok.mp h
  obtain ⟨-, -, -, -, -, -, -, k⟩ := tryNew_ok.mp ht
  have hname : m.name = r.name := by rw [k]
  have hq : m.querySchema = r.schema := by rw [k]
  have hg : m.generated = gs := by rw [k]
  refine C56_sent_definition_same sql.env env' henv m _ (by rw [hname, hq, hg]; exact ht) (by rw [hq]; exact hn) ?_
  intro g hgm
  rw [hg] at hgm
  obtain ⟨i, hi⟩ := List.mem_iff_getElem?.mp hgm
  obtain ⟨c, -, hgc⟩ := forall₂_get hgs _ _ hi
  rw [hq]
  unfold generatedFor at hgc
  split at hgc
  · cases hgc
  · split at hgc
    · cases hgc
    · rename_i e _
      cases hx : tryFromExpr sql.env r.schema e with
      | error e' => rw [hx] at hgc; cases hgc
      | ok g' =>
        rw [hx] at hgc
        injection hgc with hgc
        injection hgc with hgc
        subst hgc
        have := ((tryFromExpr_iff _ _ _ _).mp hx).1
        rw [this]
        exact hx

/-- What is made of a number that is passed from C. -/
theorem fromC_of_capi {v : FVal} {b : ErrorBound} (h : capiBound v = .ok b) : FromC v b := by
  unfold capiBound at h
  split at h
  · rename_i hneg
    split at h
    · rename_i hb
      injection h with h
      subst h
      unfold ErrorBound.tryNewRelative at hb
      split at hb
      · cases hb
      · injection hb with hb
        exact .inl ⟨hneg, hb.symm⟩
    · cases h
  · split at h
    · rename_i hb
      injection h with h
      subst h
      unfold ErrorBound.tryNewAbsolute at hb
      split at hb
      · cases hb
      · rename_i hok
        injection hb with hb
        refine .inr ⟨?_, hb.symm⟩
        cases v with
        | nan => simp [FVal.isFinite] at hok
        | inf s => simp [FVal.isFinite] at hok
        | fin s p =>
          simp only [FVal.isFinite, Bool.not_true, Bool.false_or] at hok
          simp only [FVal.le, FVal.lt, FVal.eq, Bool.or_eq_true, decide_eq_true_eq, not_or, not_lt] at hok ⊢
          grind
    · cases h

/-- **C82**, partial: a table that is created from C is the one that is asked for with the error bounds that the numbers stand for. Missing: the number
zero and numbers that are not finite or above 100 percent, for which the process ends. -/
theorem C82_c_partial {name : String} {schema : List Column} {bounds : List (String × FVal)} {expressions : List (String × List Token)}
    (hb : (bounds.map (·.1)).Nodup) (he : (expressions.map (·.1)).Nodup) (m : Metadata ε) :
    createFromC sql name schema bounds expressions = .ok m →
      ∃ bs, List.Forall₂ (fun p q => p.1 = q.1 ∧ FromC p.2 q.2) bounds bs ∧ makeTable sql ⟨name, schema, bs, expressions⟩ = .ok m := by
  intro h
  unfold createFromC at h
  cases hbs : boundsOfArray bounds [] with
  | error e => rw [hbs] at h; cases h
  | ok bs =>
    rw [hbs, mapOfArray_eq he] at h
    obtain ⟨bs', hbs', hall⟩ := (boundsOfArray_ok (by simpa using hb)).mp hbs
    rw [List.nil_append] at hbs'
    subst hbs'
    exact ⟨_, hall.imp fun _ _ h => ⟨h.1, fromC_of_capi h.2⟩, h⟩

/-! ### Concrete cases -/

/-- Sums of columns: `a + b`. -/
def parseSum : List Token → Option (List String × List Token)
  | .word w _ :: .other '+' :: rest => (parseSum rest).map fun p => (String.ofList w :: p.1, p.2)
  | .word w _ :: rest => some ([String.ofList w], rest)
  | _ => none

/-- Expressions are sums of columns. -/
def sumSql : Sql (List String) := { exampleSql with parseExpr := parseSum }

/-- A table with a tag, two fields with error bounds, a field without and their sum. -/
def embeddedRequest : Request :=
  ⟨"wind", [⟨"ts", .timestamp, false⟩, ⟨"tag", .string, false⟩, ⟨"sum", .value, false⟩, ⟨"a", .value, false⟩, ⟨"b", .value, false⟩, ⟨"c", .value, false⟩],
    [("b", .relative (.fin false 5)), ("a", .absolute (.fin false (1 / 2)))], [("sum", [bareWord "a", .other '+', bareWord "b"])]⟩

/-- The hypotheses can be met, and the table has the columns, error bounds and the expression that are asked for. -/
theorem embeddedRequest_made : shown (makeTable sumSql embeddedRequest) =
    some ⟨"wind", ["ts", "tag", "sum", "a", "b", "c"], ["ts", "tag", "a", "b", "c"],
      [.lossless, .lossless, .absolute (.fin false (1 / 2)), .relative (.fin false 5), .lossless],
      [none, none, some ⟨["a", "b"], [3, 4]⟩, none, none, none]⟩ := by
  decide +kernel

theorem embeddedRequest_unambiguous : Unambiguous embeddedRequest := ⟨by decide, by decide⟩

theorem embeddedRequest_whole : Whole sumSql embeddedRequest := by
  intro p hp e rest h
  simp only [embeddedRequest, List.mem_singleton] at hp
  subst hp
  have : sumSql.parseExpr [bareWord "a", .other '+', bareWord "b"] = some (["a", "b"], []) := by decide +kernel
  rw [this] at h
  injection h with h
  injection h with _ h
  exact h.symm

theorem embeddedRequest_named : Named embeddedRequest := by
  constructor
  · intro p hp
    simp only [embeddedRequest, List.mem_cons, List.not_mem_nil, or_false] at hp
    rcases hp with rfl | rfl <;> refine ⟨by simp [embeddedRequest], ?_⟩ <;> rintro ⟨text, h⟩ <;> simp [embeddedRequest] at h
  · intro p hp
    simp only [embeddedRequest, List.mem_singleton] at hp
    subst hp
    simp [embeddedRequest]

theorem embeddedRequest_usual : Usual embeddedRequest := by
  refine ⟨?_, ?_, ?_, by decide, by unfold SelfName; decide +kernel⟩
  · intro c hc b hb
    simp only [embeddedRequest, List.mem_cons, List.not_mem_nil, or_false, Prod.mk.injEq] at hb
    simp only [embeddedRequest, List.mem_cons, List.not_mem_nil, or_false] at hc
    rcases hc with rfl | rfl | rfl | rfl | rfl | rfl <;> simp_all
  · intro p hp
    simp only [embeddedRequest, List.mem_cons, List.not_mem_nil, or_false] at hp
    rcases hp with rfl | rfl
    · exact ⟨_, rfl, by norm_num, by norm_num⟩
    · exact ⟨_, rfl, by norm_num⟩
  · rintro c hc ⟨text, h⟩
    simp only [embeddedRequest, List.mem_singleton, Prod.mk.injEq] at h
    simp only [embeddedRequest, List.mem_cons, List.not_mem_nil, or_false] at hc
    rcases hc with rfl | rfl | rfl | rfl | rfl | rfl <;> simp_all

example : ∃ m, makeTable sumSql embeddedRequest = .ok m ∧ Made sumSql embeddedRequest m ∧ NothingIgnored sumSql embeddedRequest m ∧ Storable sumSql.env m := by
  cases h : makeTable sumSql embeddedRequest with
  | error e =>
    have := embeddedRequest_made
    rw [h] at this
    cases this
  | ok m =>
    exact ⟨m, rfl, C82_made_partial embeddedRequest_unambiguous embeddedRequest_whole h,
      C82_nothing_ignored_partial embeddedRequest_unambiguous embeddedRequest_whole embeddedRequest_named h,
      C82_storable_partial embeddedRequest_unambiguous embeddedRequest_whole embeddedRequest_usual h⟩

example : keptOnRestart (makeTable sumSql embeddedRequest) = true := by decide +kernel

/-- From C the same table is made from the numbers 0.5 and -5. -/
example : shown (createFromC sumSql "wind" embeddedRequest.schema [("b", .fin true 5), ("a", .fin false (1 / 2))] embeddedRequest.expressions) =
    shown (makeTable sumSql embeddedRequest) := by
  decide +kernel

/-- From C the process ends for zero, which asks for no error. -/
theorem C82_c_zero_ends : (createFromC sumSql "wind" embeddedRequest.schema [("a", .fin false 0)] []).toOption = none ∧
    boundsOfArray [("a", .fin false 0)] [] = .error .panic := by
  constructor
  · decide +kernel
  · decide +kernel

/-! ### What is false -/

/-- An error bound for a column and the expression of another. -/
def smallRequest (bound : String) (expression : String) (text : List Token) : Request :=
  ⟨"t", [⟨"ts", .timestamp, false⟩, ⟨"tag", .string, false⟩, ⟨"a", .value, false⟩, ⟨"b", .value, false⟩],
    [(bound, .absolute (.fin false 1))], [(expression, text)]⟩

/-- **C82** is false without `Named`: error bounds and expressions for columns that are misspelled are ignored, so that the columns are stored without
loss of precision and have to be given with the data. -/
theorem C82_misspelled_ignored : shown (makeTable sumSql (smallRequest "A" "B" [bareWord "a"])) =
    some ⟨"t", ["ts", "tag", "a", "b"], ["ts", "tag", "a", "b"], [.lossless, .lossless, .lossless, .lossless], [none, none, none, none]⟩ := by
  decide +kernel

/-- **C82** is false without `Named`: an expression that is no expression is not noticed either if it is for a column that is misspelled. -/
theorem C82_misspelled_not_parsed : (makeTable sumSql (smallRequest "a" "B" [])).toOption.isSome = true ∧
    (makeTable sumSql (smallRequest "a" "b" [])).toOption.isSome = false := by
  constructor <;> decide +kernel

/-- **C82** is false without `Named`: the error bound of a column that is computed is ignored. -/
theorem C82_computed_bound_ignored : shown (makeTable sumSql (smallRequest "b" "b" [bareWord "a"])) =
    some ⟨"t", ["ts", "tag", "a", "b"], ["ts", "tag", "a"], [.lossless, .lossless, .lossless], [none, none, none, some ⟨["a"], [2]⟩]⟩ := by
  decide +kernel

/-- **C82** is false without `Whole`: what follows the expression is ignored, so that `a a` and `a) + ts` are taken for `a`. -/
theorem C82_rest_ignored :
    shown (makeTable sumSql (smallRequest "a" "b" [bareWord "a", bareWord "a"])) = shown (makeTable sumSql (smallRequest "a" "b" [bareWord "a"])) ∧
    shown (makeTable sumSql (smallRequest "a" "b" [bareWord "a", .other ')', .other '+', bareWord "ts"])) =
      shown (makeTable sumSql (smallRequest "a" "b" [bareWord "a"])) ∧
    (shown (makeTable sumSql (smallRequest "a" "b" [bareWord "a"]))).isSome = true := by
  refine ⟨?_, ?_, ?_⟩ <;> decide +kernel

/-- Whether an expression can be computed is not checked, as it is for a statement (C75): a field that is computed from a tag is accepted. -/
theorem C82_not_computable : (makeTable sumSql (smallRequest "a" "b" [bareWord "tag"])).toOption.isSome = true ∧
    sumSql.physical (smallRequest "a" "b" [bareWord "tag"]).schema ["tag"] = false := by
  constructor <;> decide +kernel

/-- **C82** is false without `Usual`: a tag that is computed is no longer computed when the data folder is opened again. -/
theorem C82_computed_tag_forgotten :
    shown (makeTable sumSql ⟨"t", [⟨"ts", .timestamp, false⟩, ⟨"a", .string, false⟩, ⟨"copy", .string, false⟩, ⟨"v", .value, false⟩], [],
      [("copy", [bareWord "a"])]⟩) = some ⟨"t", ["ts", "a", "copy", "v"], ["ts", "a", "v"], [.lossless, .lossless, .lossless],
        [none, none, some ⟨["a"], [1]⟩, none]⟩ ∧
    keptOnRestart (makeTable sumSql ⟨"t", [⟨"ts", .timestamp, false⟩, ⟨"a", .string, false⟩, ⟨"copy", .string, false⟩, ⟨"v", .value, false⟩], [],
      [("copy", [bareWord "a"])]⟩) = false := by
  constructor <;> decide +kernel

/-- **C82** is false without `Usual`: the error bound of a tag is accepted, and forgotten when the data folder is opened again. -/
theorem C82_tag_bound_forgotten : (makeTable sumSql (smallRequest "tag" "b" [bareWord "a"])).toOption.isSome = true ∧
    keptOnRestart (makeTable sumSql (smallRequest "tag" "b" [bareWord "a"])) = false := by
  constructor <;> decide +kernel

end ModelarDB.Props
