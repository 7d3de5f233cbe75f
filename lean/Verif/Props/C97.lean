import Verif.Model.SchemaOf
import Verif.Lemmas.TableDefinition
import Verif.Props.C44
import Verif.Props.C57
import Verif.Props.C64
/-
C97: Rows can be written with the schema that a program is told.
-/
namespace ModelarDB.Props
open Model Model.TableDefinition Model.SchemaOf Spec Lemmas

variable {ε : Type}

/-- A batch of rows of a table, with a value for each of the columns a program is told. -/
def RowsOfTable (utf8 : List Nat → Bool) (m : Metadata ε) (b : FlightPut.Batch) : Prop := TypedBatch utf8 b ∧ b.schema = (schemaOf m).map messageField

/-- The values of a column of a batch by the name of the column. -/
def columnOf (b : FlightPut.Batch) (name : String) : Option FlightPut.Column := ((b.schema.zip b.columns).find? (·.1.name == name)).map (·.2)

/-- What is expected: the rows are stored, and each stored column has the values it has in the rows. -/
def StoresColumns (m : Metadata ε) (b : FlightPut.Batch) (result : List FlightPut.Batch × Bool) : Prop :=
  result.2 = true ∧ ∃ r, result.1 = [r] ∧ r.length = b.length ∧ ∀ c ∈ m.schema, columnOf r c.name = columnOf b c.name

/-! ### The stored columns -/

private theorem without_none (i : Nat) : ∀ (qs : List Column) (bs : List ErrorBound) (k : Nat) (gen : List (Generated ε)), qs.length = bs.length →
    qs.length = k + gen.length → (withoutGenerated i qs bs (List.replicate k none ++ gen.map some)).1 = qs.take k := by
  intro qs
  induction qs generalizing i with
  | nil => intro bs k gen _ _; simp [withoutGenerated]
  | cons c qs ih =>
    intro bs k gen hb hl
    cases bs with
    | nil => simp at hb
    | cons b bs =>
      cases k with
      | succ k =>
        rw [List.replicate_succ, List.cons_append, withoutGenerated]
        simp only [Option.isNone_none, if_true, List.take_succ_cons]
        rw [ih (i + 1) bs k gen (by simpa using hb) (by simp only [List.length_cons] at hl; omega)]
      | zero =>
        cases gen with
        | nil => simp at hl
        | cons g gen =>
          rw [List.replicate_zero, List.nil_append, List.map_cons, withoutGenerated]
          simp only [Option.isNone_some, Bool.false_eq_true, if_false, List.take_zero]
          have := ih (i + 1) bs 0 gen (by simpa using hb) (by simpa using hl)
          simpa using this

private theorem without_length (i : Nat) : ∀ (qs : List Column) (bs : List ErrorBound) (gs : List (Option (Generated ε))), qs.length = bs.length →
    qs.length = gs.length → (withoutGenerated i qs bs gs).1.length = gs.countP (·.isNone) := by
  intro qs
  induction qs generalizing i with
  | nil =>
    intro bs gs _ hg
    obtain rfl : gs = [] := List.length_eq_zero_iff.mp hg.symm
    simp [withoutGenerated]
  | cons c qs ih =>
    intro bs gs hb hg
    cases bs with
    | nil => simp at hb
    | cons b bs =>
      cases gs with
      | nil => simp at hg
      | cons g gs =>
        have := ih (i + 1) bs gs (by simpa using hb) (by simpa using hg)
        cases g <;> simp [withoutGenerated, this]

/-- The stored columns after some stored columns and a generated column. -/
private theorem without_pre (i : Nat) : ∀ (pre : List Column) (bs : List ErrorBound) (g : Generated ε) (c : Column) (post : List Column) (gs : List (Option (Generated ε))),
    pre.length + 1 + post.length = bs.length → post.length = gs.length → ∃ stored, stored.Sublist post ∧ stored.length = gs.countP (·.isNone) ∧
      (withoutGenerated i (pre ++ c :: post) bs (List.replicate pre.length none ++ some g :: gs)).1 = pre ++ stored := by
  intro pre
  induction pre generalizing i with
  | nil =>
    intro bs g c post gs hb hg
    cases bs with
    | nil => simp at hb
    | cons b bs =>
      refine ⟨(withoutGenerated (i + 1) post bs gs).1, ?_, without_length _ _ _ _ (by simp at hb; omega) hg, by simp [withoutGenerated]⟩
      clear hb hg
      generalize i + 1 = j
      induction post generalizing bs gs j with
      | nil => simp [withoutGenerated]
      | cons d post ih =>
        cases bs with
        | nil => simp [withoutGenerated]
        | cons b bs =>
          cases gs with
          | nil => simp [withoutGenerated]
          | cons h gs =>
            rw [withoutGenerated]
            cases h with
            | none => simpa using (ih gs bs (j + 1)).cons_cons d
            | some h => simpa using (ih gs bs (j + 1)).cons d
  | cons p pre ih =>
    intro bs g c post gs hb hg
    cases bs with
    | nil => simp at hb
    | cons b bs =>
      obtain ⟨stored, h1, h2, h3⟩ := ih (i + 1) bs g c post gs (by simp only [List.length_cons] at hb; omega) hg
      refine ⟨stored, h1, h2, ?_⟩
      rw [List.cons_append, List.length_cons, List.replicate_succ, List.cons_append, withoutGenerated]
      simp [h3]

/-! ### Messages with more columns than the table stores -/

private theorem forall₂_split {α β : Type} {R : α → β → Prop} : ∀ {l₁ l₂ : List α} {r : List β}, List.Forall₂ R (l₁ ++ l₂) r →
    ∃ r₁ r₂, r = r₁ ++ r₂ ∧ List.Forall₂ R l₁ r₁ ∧ List.Forall₂ R l₂ r₂
  | [], _, r, h => ⟨[], r, rfl, .nil, h⟩
  | _ :: _, _, _, .cons h t => by
    obtain ⟨r₁, r₂, e, h₁, h₂⟩ := forall₂_split t
    exact ⟨_ :: r₁, r₂, by rw [e]; rfl, .cons h h₁, h₂⟩

/-- The server reads the first columns of a message as the columns of the table if they have the same types, whatever they are called. -/
theorem C97_by_position (utf8 : List Nat → Bool) (stores : Nat → Bool) (hstores : stores 0 = true) {table first more : List FlightPut.Field} {b : FlightPut.Batch}
    (ht : TypedBatch utf8 b) (hs : b.schema = first ++ more) (hf : first.map (·.type) = table.map (·.type)) :
    FlightPut.put utf8 stores table [b] = ([⟨table, b.length, b.columns.take table.length⟩], true) := by
  unfold TypedBatch at ht
  rw [hs] at ht
  obtain ⟨c₁, c₂, hc, h₁, _⟩ := forall₂_split ht
  have hlen : first.length = table.length := by simpa using congrArg List.length hf
  have htake : b.columns.take table.length = c₁ := by
    rw [hc, List.take_append_of_le_length (by rw [← h₁.length_eq, hlen]), List.take_of_length_le (by rw [← h₁.length_eq, hlen])]
  have hzip : List.zipWith (fun name (f : FlightPut.Field) => (⟨name, f.type⟩ : FlightPut.Field)) (table.map (·.name)) first = table := by
    clear htake hs ht h₁ hc
    induction table generalizing first with
    | nil => rfl
    | cons f table ih =>
      cases first with
      | nil => simp at hlen
      | cons a first =>
        simp only [List.map_cons, List.cons.injEq] at hf
        simp only [List.map_cons, List.zipWith_cons_cons, hf.1]
        rw [ih hf.2 (by simpa using hlen)]
  have hd := decodeColumns_encode utf8 b.length first c₁ (table.map (·.name)) (c₂.map FlightPut.Column.length)
    ((more.zip c₂).flatMap fun x => FlightPut.encodeColumn x.1.type x.2) h₁ (by simpa using hlen.symm)
  rw [hzip] at hd
  have hdec : FlightPut.decode utf8 table b.length (FlightPut.encode b) = some ⟨table, b.length, c₁⟩ := by
    have hb : FlightPut.encode b = ⟨c₁.map FlightPut.Column.length ++ c₂.map FlightPut.Column.length,
        ((first.zip c₁).flatMap fun x => FlightPut.encodeColumn x.1.type x.2) ++ (more.zip c₂).flatMap fun x => FlightPut.encodeColumn x.1.type x.2⟩ := by
      rw [FlightPut.encode, hc, hs, List.map_append, List.zip_append h₁.length_eq, List.flatMap_append]
    rw [FlightPut.decode, hb, hd.1, Option.bind_some, if_pos (by simpa using hd.2)]
  rw [FlightPut.put, List.map_cons, List.map_nil, FlightPut.ingest, hdec]
  simp [hstores, FlightPut.ingest, htake]

/-! ### What programs are told and what they can write -/

/-- A program is told the columns that are returned by a query for all columns. -/
theorem C97_told_is_returned {env : Env ε} {hashOrder : List Nat → List Nat} {m : Metadata ε} {plan : Query.Plan ε}
    (h : Query.planScan env hashOrder m (List.range m.querySchema.length) = .ok plan) : plan.result = schemaOf m := by
  obtain ⟨_, _, hres, _⟩ := planScan_ok h
  have : ((List.range m.querySchema.length).mapM fun i => m.querySchema[i]?) = some m.querySchema := by
    rw [mapM_option_eq_some]
    refine List.ext_getElem (by simp) fun i h1 h2 => ?_
    have : i < m.querySchema.length := by simpa using h1
    simp [this]
  rw [this] at hres
  exact (Option.some.inj hres).symm

private theorem columnOf_take {fields : List FlightPut.Field} {b : FlightPut.Batch} {k : Nat} (hb : b.schema = fields) (hl : b.columns.length = fields.length) {name : String}
    (hn : name ∈ (fields.take k).map (·.name)) : columnOf ⟨fields.take k, b.length, b.columns.take k⟩ name = columnOf b name := by
  subst hb
  unfold columnOf
  simp only
  rw [show (b.schema.take k).zip (b.columns.take k) = (b.schema.zip b.columns).take k from (List.take_zipWith).symm]
  congr 1
  have hmem : ∃ x ∈ (b.schema.zip b.columns).take k, (x.1.name == name) = true := by
    obtain ⟨f, hf, rfl⟩ := List.mem_map.mp hn
    obtain ⟨i, hi, e⟩ := List.getElem_of_mem hf
    have hi' : i < k ∧ i < b.schema.length := by simpa using hi
    refine ⟨(b.schema.zip b.columns)[i]'(by simp; omega), ?_, ?_⟩
    · exact List.mem_take_iff_getElem.mpr ⟨i, by simp; omega, rfl⟩
    · rw [List.getElem_take] at e
      simp [e]
  obtain ⟨x, hx, hp⟩ := hmem
  conv_rhs => rw [← List.take_append_drop k (b.schema.zip b.columns), List.find?_append]
  cases h : ((b.schema.zip b.columns).take k).find? (·.1.name == name) with
  | none => exact absurd hp (by simpa using List.find?_eq_none.mp h x hx)
  | some y => rfl

/-- If the generated columns of a table come after its stored columns, e.g. if there are none, rows that are sent to a server with the schema that a program is told are stored as
they are, without the generated columns. Missing: generated columns before stored columns (`C97_wrong_values`). -/
theorem C97_server_partial {name : String} {qs : List Column} {bs : List ErrorBound} {k : Nat} {gen : List (Generated ε)} {m : Metadata ε}
    (hm : tryNew name qs bs (List.replicate k none ++ gen.map some) = .ok m) (utf8 : List Nat → Bool) (stores : Nat → Bool) (hstores : stores 0 = true)
    {b : FlightPut.Batch} (hb : RowsOfTable utf8 m b) : StoresColumns m b (putRows utf8 stores m [b]) := by
  obtain ⟨h1, h2, -, -, -, -, -, h⟩ := tryNew_ok.mp hm
  have hschema : m.schema = qs.take k := by
    rw [h]
    exact without_none 0 qs bs k gen h1 (by simpa using h2)
  have hq : m.querySchema = qs := by rw [h]
  obtain ⟨ht, hs⟩ := hb
  rw [schemaOf, hq] at hs
  have hlen : b.columns.length = (qs.map messageField).length := by rw [← hs]; exact ht.length_eq.symm
  rw [putRows, C97_by_position utf8 stores hstores (first := (qs.map messageField).take k) (more := (qs.map messageField).drop k) ht
    (by rw [hs, List.take_append_drop]) (by rw [hschema, List.map_take, List.map_take, List.map_take])]
  refine ⟨rfl, _, rfl, rfl, fun c hc => ?_⟩
  have hk : b.columns.take (m.schema.map messageField).length = b.columns.take k := by
    rw [hschema, List.length_map, List.length_take, List.take_eq_take_iff]
    simp only [List.length_map] at hlen
    omega
  rw [hk, hschema]
  have hname : c.name ∈ ((qs.map messageField).take k).map (·.name) := by
    rw [hschema] at hc
    rw [List.map_take.symm, List.map_map]
    exact List.mem_map.mpr ⟨c, hc, rfl⟩
  rw [List.map_take]
  exact columnOf_take hs hlen hname

/-- False for other tables: if a generated column is before a stored field and only fields follow, the rows are accepted and the stored column at its position gets the values of
the generated column. -/
theorem C97_wrong_values {name : String} {pre post : List Column} {c : Column} {bs : List ErrorBound} {g : Generated ε} {gs : List (Option (Generated ε))} {m : Metadata ε}
    (hm : tryNew name (pre ++ c :: post) bs (List.replicate pre.length none ++ some g :: gs) = .ok m) (hc : c.type = .value) (hpost : ∀ d ∈ post, d.type = .value)
    (hstored : none ∈ gs) (utf8 : List Nat → Bool) (stores : Nat → Bool) (hstores : stores 0 = true) {b : FlightPut.Batch} (hb : RowsOfTable utf8 m b) :
    ∃ r field, putRows utf8 stores m [b] = ([r], true) ∧ m.schema[pre.length]? = some field ∧ field ∈ post ∧ r.schema[pre.length]? = some (messageField field) ∧
      b.schema[pre.length]? = some (messageField c) ∧ r.columns[pre.length]? = b.columns[pre.length]? ∧ (b.columns[pre.length]?).isSome := by
  obtain ⟨h1, h2, -, -, -, -, -, h⟩ := tryNew_ok.mp hm
  simp only [List.length_append, List.length_cons, List.length_replicate] at h1 h2
  obtain ⟨stored, s1, s2, s3⟩ := without_pre 0 pre bs g c post gs (by omega) (by omega)
  have hschema : m.schema = pre ++ stored := by rw [h]; exact s3
  have hq : m.querySchema = pre ++ c :: post := by rw [h]
  have hpos : 0 < stored.length := by
    rw [s2]
    exact List.countP_pos_iff.mpr ⟨none, hstored, rfl⟩
  have hsl : stored.length ≤ post.length := s1.length_le
  obtain ⟨ht, hs⟩ := hb
  rw [schemaOf, hq] at hs
  have hlen : b.columns.length = pre.length + 1 + post.length := by
    rw [← ht.length_eq, hs]
    simp only [List.length_map, List.length_append, List.length_cons]
    omega
  have htypes : ∀ l : List Column, (∀ d ∈ l, d.type = .value) → (l.map messageField).map (·.type) = List.replicate l.length (messageType .value) := by
    intro l hl
    refine List.eq_replicate_iff.mpr ⟨by simp, ?_⟩
    intro t ht
    rw [List.map_map] at ht
    obtain ⟨d, hd, rfl⟩ := List.mem_map.mp ht
    simp [messageField, hl d hd]
  have htake : ∀ d ∈ (c :: post).take stored.length, d.type = .value := by
    intro d hd
    rcases List.mem_cons.mp (List.mem_of_mem_take hd) with rfl | hd
    · exact hc
    · exact hpost d hd
  obtain ⟨x, rest, hx⟩ : ∃ x rest, stored = x :: rest := by
    cases stored with
    | nil => simp at hpos
    | cons x rest => exact ⟨x, rest, rfl⟩
  refine ⟨⟨m.schema.map messageField, b.length, b.columns.take (m.schema.map messageField).length⟩, x, ?_, ?_, s1.subset (by rw [hx]; simp), ?_, ?_, ?_, ?_⟩
  · refine C97_by_position utf8 stores hstores (first := (pre ++ (c :: post).take stored.length).map messageField)
      (more := ((c :: post).drop stored.length).map messageField) ht ?_ ?_
    · rw [hs, ← List.map_append, List.append_assoc, List.take_append_drop]
    · rw [hschema, List.map_append, List.map_append, List.map_append, List.map_append, htypes _ htake, htypes stored fun d hd => hpost d (s1.subset hd)]
      congr 2
      simp only [List.length_take, List.length_cons]
      omega
  · rw [hschema, hx]; simp
  · rw [hschema, hx]; simp
  · rw [hs]; simp
  · rw [List.getElem?_take_of_lt]
    rw [hschema, hx]
    simp
  · rw [List.getElem?_eq_getElem (by omega)]
    rfl

/-- Rows with the schema that a program is told can be written to a data folder if and only if the table has no generated column. Otherwise all of them are rejected. -/
theorem C97_folder {σ ν κ : Type} [DecidableEq κ] {name : String} {qs : List Column} {bs : List ErrorBound} {gs : List (Option (Generated ε))} {m : Metadata ε}
    (hm : tryNew name qs bs gs = .ok m) (encode : Embedded.Table DataType σ → Embedded.Batch DataType ν → Option (List σ)) {st : Embedded.State κ DataType σ} {key : κ}
    {items : List σ} (hst : st key = some (folderTable m items)) {b : Embedded.Batch DataType ν} (hrows : b.rows ≠ [])
    (hb : b.schema = (schemaOf m).map fun c => ⟨c.name, c.type, c.nullable⟩) :
    (∀ g ∈ gs, g = none) ∧ (∀ added, encode (folderTable m items) b = some added → Embedded.write encode st key b = .ok (st.append key added)) ∨
      (∃ g ∈ gs, g ≠ none) ∧ Embedded.write encode st key b = .error .mismatch := by
  obtain ⟨h1, h2, -, -, -, -, -, h⟩ := tryNew_ok.mp hm
  have hq : m.querySchema = qs := by rw [h]
  have hs : m.schema = (withoutGenerated 0 qs bs gs).1 := by rw [h]
  have hne : ¬ b.rows.length = 0 := by simpa using hrows
  replace hb : b.schema = (schemaOf m).map folderColumn := hb
  by_cases hg : ∀ g ∈ gs, g = none
  · refine .inl ⟨hg, fun added he => ?_⟩
    have e : gs = List.replicate qs.length none ++ ([] : List (Generated ε)).map some := by
      rw [List.map_nil, List.append_nil]
      exact List.eq_replicate_iff.mpr ⟨h2.symm, hg⟩
    have hsame : m.schema = qs := by
      rw [hs, e, without_none 0 qs bs qs.length [] h1 (by simp), List.take_length]
    have hc : Embedded.schemasAreCompatible b.schema (folderTable m items).schema = true := by
      rw [hb, schemaOf, hq, folderTable, hsame]
      exact (C44_preorder _ [] []).1
    rw [Embedded.write, if_neg hne, hst]
    simp [hc, he]
  · have hex : ∃ g ∈ gs, g ≠ none := by
      refine Classical.byContradiction fun hn => hg fun g hgm => Classical.byContradiction fun hne => hn ⟨g, hgm, hne⟩
    refine .inr ⟨hex, ?_⟩
    have hlt : m.schema.length < qs.length := by
      rw [hs, without_length 0 qs bs gs h1 h2, h2]
      obtain ⟨g, hgm, hne⟩ := hex
      refine Nat.lt_of_le_of_ne List.countP_le_length fun e => hne ?_
      simpa using List.countP_eq_length.mp e g hgm
    have hc : Embedded.schemasAreCompatible b.schema (folderTable m items).schema = false := by
      rw [Embedded.schemasAreCompatible, if_pos]
      rw [hb, schemaOf, hq, folderTable, List.length_map, List.length_map]
      omega
    rw [Embedded.write, if_neg hne, hst]
    simp [hc]

/-! ### Examples -/

/-- `ts TIMESTAMP, tag TAG, x FIELD, y FIELD, sum FIELD AS x + y`. -/
private def sumLast : Except Failure (Metadata (List String)) :=
  tryNew "t" [⟨"ts", .timestamp, false⟩, ⟨"tag", .string, false⟩, ⟨"x", .value, false⟩, ⟨"y", .value, false⟩, ⟨"sum", .value, false⟩]
    (List.replicate 5 .lossless) (List.replicate 4 none ++ [(⟨["x", "y"], [2, 3]⟩ : Generated (List String))].map some)

private def sumRows : FlightPut.Batch :=
  ⟨[⟨"ts", .fixed "Timestamp" 8⟩, ⟨"tag", .text⟩, ⟨"x", .fixed "Float32" 4⟩, ⟨"y", .fixed "Float32" 4⟩, ⟨"sum", .fixed "Float32" 4⟩], 1,
    [.fixed [1000], .text [[65]], .fixed [0x3f800000], .fixed [0x40000000], .fixed [0x40400000]]⟩

example : ∃ m, sumLast = .ok m ∧ RowsOfTable ascii m sumRows ∧ (putRows ascii (fun _ => true) m [sumRows]).1 =
    [⟨sumRows.schema.take 4, 1, [.fixed [1000], .text [[65]], .fixed [0x3f800000], .fixed [0x40000000]]⟩] :=
  ⟨_, rfl, ⟨.cons (by decide) (.cons (by decide) (.cons (by decide) (.cons (by decide) (.cons (by decide) .nil)))), by decide⟩, by decide⟩

/-- `ts TIMESTAMP, sum FIELD AS x + y, x FIELD, y FIELD`. -/
private def sumFirst : Except Failure (Metadata (List String)) :=
  tryNew "t" ([⟨"ts", .timestamp, false⟩] ++ ⟨"sum", .value, false⟩ :: [⟨"x", .value, false⟩, ⟨"y", .value, false⟩])
    (List.replicate 4 .lossless) (List.replicate 1 none ++ some ⟨["x", "y"], [2, 3]⟩ :: [none, none])

private def sumFirstRows : FlightPut.Batch :=
  ⟨[⟨"ts", .fixed "Timestamp" 8⟩, ⟨"sum", .fixed "Float32" 4⟩, ⟨"x", .fixed "Float32" 4⟩, ⟨"y", .fixed "Float32" 4⟩], 1,
    [.fixed [1000], .fixed [0x40400000], .fixed [0x3f800000], .fixed [0x40000000]]⟩

/-- The row `x = 1, y = 2` is stored as `x = 3, y = 1`. -/
example : ∃ m, sumFirst = .ok m ∧ RowsOfTable ascii m sumFirstRows ∧ (putRows ascii (fun _ => true) m [sumFirstRows]).1 =
    [⟨[⟨"ts", .fixed "Timestamp" 8⟩, ⟨"x", .fixed "Float32" 4⟩, ⟨"y", .fixed "Float32" 4⟩], 1, [.fixed [1000], .fixed [0x40400000], .fixed [0x3f800000]]⟩] ∧
    ¬ StoresColumns m sumFirstRows (putRows ascii (fun _ => true) m [sumFirstRows]) := by
  refine ⟨_, rfl, ⟨.cons (by decide) (.cons (by decide) (.cons (by decide) (.cons (by decide) .nil))), by decide⟩, by decide, ?_⟩
  rintro ⟨_, r, hr, _, hc⟩
  have e : [(⟨[⟨"ts", .fixed "Timestamp" 8⟩, ⟨"x", .fixed "Float32" 4⟩, ⟨"y", .fixed "Float32" 4⟩], 1,
      [.fixed [1000], .fixed [0x40400000], .fixed [0x3f800000]]⟩ : FlightPut.Batch)] = [r] := hr
  obtain rfl := (List.cons.inj e).1
  exact absurd (hc ⟨"x", .value, false⟩ (by decide)) (by decide)

example : ∃ m, sumFirst = .ok m ∧
    Embedded.write (κ := String) (σ := Nat) (ν := Nat) (fun _ _ => some [7]) (fun _ => some (folderTable m [])) "t"
      ⟨(schemaOf m).map folderColumn, [[some (.timestamp, 1000), some (.value, 3), some (.value, 1), some (.value, 2)]]⟩ = .error .mismatch := by
  refine ⟨_, rfl, ?_⟩
  rfl

end ModelarDB.Props
