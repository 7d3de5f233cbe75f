import Verif.Model.FailingRow
/-
C96: The error of a generated column that cannot be computed names the row.
-/
namespace ModelarDB.Props
open Model.FailingRow

/-- An expression is computed row by row: it fails for a batch if it fails for one of the rows. -/
def RowByRow (fails : Batch → Bool) : Prop := ∀ b : Batch, fails b = true ↔ ∃ row < b.rows, fails (b.slice row) = true

/-- The value of a column in a row as text, for columns that are timestamps or fields. -/
def showCell (f : Format) (row : Nat) (c : Column) : Option String :=
  match c.values with
  | .timestamps v => (v[row]?).map fun t => c.name ++ ": " ++ (f.dateTime t).getD (f.timestamp t)
  | .fields v => (v[row]?).map fun x => c.name ++ ": " ++ f.field x
  | _ => none

/-- A batch of a time series table: each column is timestamps, fields or tags and has a value for each row. -/
def OfTimeSeriesTable (b : Batch) : Prop :=
  ∀ c ∈ b.columns, (∃ v, c.values = .timestamps v ∧ v.length = b.rows) ∨ (∃ v, c.values = .fields v ∧ v.length = b.rows) ∨
    ∃ v, c.values = .stringViews v ∧ v.length = b.rows

/-- The batch has a tag column. -/
def HasTags (b : Batch) : Prop := ∃ c ∈ b.columns, ∃ v, c.values = .stringViews v

/-- The first row for which an expression fails. -/
def IsFirst (fails : Batch → Bool) (b : Batch) (row : Nat) : Prop :=
  row < b.rows ∧ fails (b.slice row) = true ∧ ∀ earlier < row, fails (b.slice earlier) = false

private theorem failing_first (f : Format) {fails : Batch → Bool} {b : Batch} {first : Nat} (h : IsFirst fails b first) :
    ∀ n row, row + n = first → failingRow f fails b row = formatValues f first b.columns [] := by
  intro n
  induction n with
  | zero =>
    intro row e
    have e : row = first := by omega
    subst e
    rw [failingRow, if_pos h.1, if_pos h.2.1]
  | succ n ih =>
    intro row e
    have hlt : row < first := by omega
    rw [failingRow, if_pos (Nat.lt_trans hlt h.1), if_neg (by simp [h.2.2 row hlt])]
    exact ih (row + 1) (by omega)

private theorem exists_first {fails : Batch → Bool} {b : Batch} (h : ∃ row < b.rows, fails (b.slice row) = true) : ∃ first, IsFirst fails b first := by
  obtain ⟨row, hr, hf⟩ := h
  induction row using Nat.strongRecOn with
  | ind row ih =>
    by_cases he : ∃ earlier < row, fails (b.slice earlier) = true
    · obtain ⟨e, h1, h2⟩ := he
      exact ih e h1 (Nat.lt_trans h1 hr) h2
    · exact ⟨row, hr, hf, fun e h1 => by
        cases h2 : fails (b.slice e)
        · rfl
        · exact absurd ⟨e, h1, h2⟩ he⟩

private theorem format_cell {f : Format} {b : Batch} {c : Column} {row : Nat} (hr : row < b.rows)
    (hc : (∃ v, c.values = .timestamps v ∧ v.length = b.rows) ∨ (∃ v, c.values = .fields v ∧ v.length = b.rows)) :
    ∃ s, showCell f row c = some s ∧ formatValue f row c = .text s := by
  rcases hc with ⟨v, e, hl⟩ | ⟨v, e, hl⟩
  · have : row < v.length := by omega
    refine ⟨c.name ++ ": " ++ (f.dateTime v[row]).getD (f.timestamp v[row]), by simp [showCell, e, this], ?_⟩
    simp only [formatValue, e, List.getElem?_eq_getElem this]
    cases f.dateTime v[row] <;> rfl
  · have : row < v.length := by omega
    exact ⟨c.name ++ ": " ++ f.field v[row], by simp [showCell, e, this], by simp only [formatValue, e, List.getElem?_eq_getElem this]⟩

private theorem format_cells {f : Format} {b : Batch} {row : Nat} (hr : row < b.rows) :
    ∀ (columns : List Column) (before : List String),
      (∀ c ∈ columns, (∃ v, c.values = .timestamps v ∧ v.length = b.rows) ∨ (∃ v, c.values = .fields v ∧ v.length = b.rows)) →
      ∃ cells, columns.mapM (showCell f row) = some cells ∧ formatValues f row columns before = .text (String.intercalate ", " (before ++ cells)) := by
  intro columns
  induction columns with
  | nil => intro before _; exact ⟨[], rfl, by simp [formatValues]⟩
  | cons c rest ih =>
    intro before h
    obtain ⟨s, h1, h2⟩ := format_cell (f := f) hr (h c List.mem_cons_self)
    obtain ⟨cells, h3, h4⟩ := ih (before ++ [s]) fun x hx => h x (List.mem_cons_of_mem _ hx)
    refine ⟨s :: cells, by simp [h1, h3], ?_⟩
    rw [formatValues, h2]
    simpa using h4

/-- Some column is the first that is tags. -/
private theorem format_tags {f : Format} {b : Batch} {row : Nat} (hr : row < b.rows) :
    ∀ (columns : List Column) (before : List String),
      (∀ c ∈ columns, (∃ v, c.values = .timestamps v ∧ v.length = b.rows) ∨ (∃ v, c.values = .fields v ∧ v.length = b.rows) ∨
        ∃ v, c.values = .stringViews v ∧ v.length = b.rows) → (∃ c ∈ columns, ∃ v, c.values = .stringViews v) →
      ∃ c ∈ columns, (∃ v, c.values = .stringViews v) ∧
        formatValues f row columns before = .error ("Type of column with name '" ++ c.name ++ "' is not supported.") := by
  intro columns
  induction columns with
  | nil => rintro _ _ ⟨c, hc, _⟩; cases hc
  | cons c rest ih =>
    intro before h ht
    by_cases hc : ∃ v, c.values = .stringViews v
    · refine ⟨c, List.mem_cons_self, hc, ?_⟩
      obtain ⟨v, e⟩ := hc
      simp [formatValues, formatValue, e]
    · have hk := h c List.mem_cons_self
      have hk : (∃ v, c.values = .timestamps v ∧ v.length = b.rows) ∨ (∃ v, c.values = .fields v ∧ v.length = b.rows) := by
        rcases hk with hk | hk | ⟨v, e, _⟩
        · exact .inl hk
        · exact .inr hk
        · exact absurd ⟨v, e⟩ hc
      obtain ⟨s, _, h2⟩ := format_cell (f := f) hr hk
      have ht' : ∃ c ∈ rest, ∃ v, c.values = .stringViews v := by
        obtain ⟨d, hd, hv⟩ := ht
        rcases List.mem_cons.mp hd with rfl | hd
        · exact absurd hv hc
        · exact ⟨d, hd, hv⟩
      obtain ⟨d, hd, hv, e⟩ := ih (before ++ [s]) (fun x hx => h x (List.mem_cons_of_mem _ hx)) ht'
      refine ⟨d, List.mem_cons_of_mem _ hd, hv, ?_⟩
      rw [formatValues, h2]
      exact e

/-- If a generated column cannot be computed and the query reads no tag, the error names the column, the values of the first row that fails, and the cause. Missing: queries
that read a tag (`C96_tags_hide_row`). -/
theorem C96_first_row_partial {f : Format} {fails : Batch → Bool} (hfails : RowByRow fails) {b : Batch} (hb : OfTimeSeriesTable b) (ht : ¬ HasTags b) (name cause : String) :
    (generate f fails name cause b = none ↔ ∀ row < b.rows, fails (b.slice row) = false) ∧
      ∀ o, generate f fails name cause b = some o → ∃ row cells, IsFirst fails b row ∧ b.columns.mapM (showCell f row) = some cells ∧
        o = .error ("Failed to compute '" ++ name ++ "' for {" ++ String.intercalate ", " cells ++ "} due to: " ++ cause) := by
  have hcols : ∀ c ∈ b.columns, (∃ v, c.values = .timestamps v ∧ v.length = b.rows) ∨ (∃ v, c.values = .fields v ∧ v.length = b.rows) := by
    intro c hc
    rcases hb c hc with h | h | ⟨v, e, _⟩
    · exact .inl h
    · exact .inr h
    · exact absurd ⟨c, hc, v, e⟩ ht
  constructor
  · constructor
    · intro h row hr
      cases e : fails (b.slice row)
      · rfl
      · have := (hfails b).mpr ⟨row, hr, e⟩
        rw [generate, if_pos this] at h
        split at h <;> cases h
    · intro h
      rw [generate, if_neg]
      intro hf
      obtain ⟨row, hr, e⟩ := (hfails b).mp hf
      rw [h row hr] at e
      cases e
  · intro o h
    rw [generate] at h
    split at h
    · rename_i hf
      obtain ⟨first, hfirst⟩ := exists_first ((hfails b).mp hf)
      obtain ⟨cells, h1, h2⟩ := format_cells (f := f) hfirst.1 b.columns [] hcols
      rw [failing_first f hfirst first 0 (by omega), h2] at h
      cases h
      exact ⟨first, cells, hfirst, h1, rfl⟩
    · cases h

/-- If a generated column cannot be computed and the query reads a tag, the error names neither the generated column nor a row nor the cause, but says that the type of a tag
is not supported. -/
theorem C96_tags_hide_row {f : Format} {fails : Batch → Bool} (hfails : RowByRow fails) {b : Batch} (hb : OfTimeSeriesTable b) (ht : HasTags b) (name cause : String)
    (h : fails b = true) :
    ∃ c ∈ b.columns, (∃ v, c.values = .stringViews v) ∧
      generate f fails name cause b = some (.error ("Type of column with name '" ++ c.name ++ "' is not supported.")) := by
  obtain ⟨first, hfirst⟩ := exists_first ((hfails b).mp h)
  obtain ⟨c, hc, hv, e⟩ := format_tags (f := f) hfirst.1 b.columns [] hb ht
  refine ⟨c, hc, hv, ?_⟩
  rw [generate, if_pos h, failing_first f hfirst first 0 (by omega), e]

/-- With several generated columns the error is that of the first column that cannot be computed, and there is no error if and only if all of them can be computed for each row. -/
theorem C96_first_column {f : Format} {b : Batch} :
    ∀ {columns : List Generated}, (∀ g ∈ columns, RowByRow g.fails) →
      (generateAll f b columns = none ↔ ∀ g ∈ columns, ∀ row < b.rows, g.fails (b.slice row) = false) ∧
        ∀ o, generateAll f b columns = some o → ∃ before g after, columns = before ++ g :: after ∧
          (∀ h ∈ before, ∀ row < b.rows, h.fails (b.slice row) = false) ∧ g.fails b = true ∧ generate f g.fails g.name g.cause b = some o := by
  have computed : ∀ g : Generated, RowByRow g.fails →
      (generate f g.fails g.name g.cause b = none ↔ ∀ row < b.rows, g.fails (b.slice row) = false) := by
    intro g hg
    constructor
    · intro h row hr
      cases e : g.fails (b.slice row)
      · rfl
      · rw [generate, if_pos ((hg b).mpr ⟨row, hr, e⟩)] at h
        split at h <;> cases h
    · intro h
      rw [generate, if_neg]
      intro hf
      obtain ⟨row, hr, e⟩ := (hg b).mp hf
      rw [h row hr] at e
      cases e
  intro columns
  induction columns with
  | nil => exact fun _ => ⟨by simp [generateAll], nofun⟩
  | cons g rest ih =>
    intro hr
    have hg := computed g (hr g List.mem_cons_self)
    obtain ⟨ih1, ih2⟩ := ih fun x hx => hr x (List.mem_cons_of_mem _ hx)
    cases e : generate f g.fails g.name g.cause b with
    | none =>
      constructor
      · rw [generateAll, e]
        simp only [List.forall_mem_cons]
        exact ih1.trans ⟨fun h => ⟨hg.mp e, h⟩, fun h => h.2⟩
      · intro o h
        rw [generateAll, e] at h
        obtain ⟨before, x, after, h1, h2, h3⟩ := ih2 o h
        exact ⟨g :: before, x, after, by rw [h1]; rfl, List.forall_mem_cons.mpr ⟨hg.mp e, h2⟩, h3⟩
    | some o =>
      have hf : g.fails b = true := by
        cases hf : g.fails b
        · rw [generate, if_neg (by simp [hf])] at e; cases e
        · rfl
      constructor
      · rw [generateAll, e]
        constructor
        · nofun
        · intro h
          rw [hg.mpr (h g List.mem_cons_self)] at e
          cases e
      · intro o' h
        rw [generateAll, e] at h
        cases h
        exact ⟨[], g, rest, rfl, nofun, hf, e⟩

/-- A query for a generated column never aborts the server when the column cannot be computed. -/
theorem C96_no_panic {f : Format} {fails : Batch → Bool} (hfails : RowByRow fails) {b : Batch} (hb : OfTimeSeriesTable b) (name cause : String) :
    generate f fails name cause b ≠ some .panic := by
  intro h
  by_cases hf : fails b = true
  · by_cases ht : HasTags b
    · obtain ⟨c, _, _, e⟩ := C96_tags_hide_row (f := f) hfails hb ht name cause hf
      rw [e] at h; cases h
    · obtain ⟨_, _, _, _, e⟩ := (C96_first_row_partial (f := f) hfails hb ht name cause).2 _ h
      cases e
  · rw [generate, if_neg hf] at h; cases h

/-! ### Examples -/

/-- Integers modulo a field: zero fails. -/
private def zeroFails (b : Batch) : Bool := (List.range b.rows).any fun row =>
  b.columns.any fun c => match c.values with
    | .fields v => v[row]? == some 0
    | _ => false

private theorem slice_values (row : Nat) (v : List Nat) : ((v[row]?).toList)[0]? = v[row]? := by cases v[row]? <;> rfl

private theorem zeroFails_rowByRow : RowByRow zeroFails := by
  intro b
  simp only [zeroFails, Batch.slice, List.any_eq_true, List.mem_range, List.range_one, List.mem_singleton, List.mem_map]
  constructor
  · rintro ⟨row, hr, c, hc, e⟩
    refine ⟨row, hr, 0, rfl, _, ⟨c, hc, rfl⟩, ?_⟩
    cases hv : c.values with
    | fields v => simp only [hv] at e; simp only [Values.slice, slice_values]; exact e
    | timestamps v => simp [hv] at e
    | strings v => simp [hv] at e
    | stringViews v => simp [hv] at e
  · rintro ⟨row, hr, _, rfl, _, ⟨c, hc, rfl⟩, e⟩
    refine ⟨row, hr, c, hc, ?_⟩
    cases hv : c.values with
    | fields v => simp only [hv, Values.slice, slice_values] at e; exact e
    | timestamps v => simp [hv, Values.slice] at e
    | strings v => simp [hv, Values.slice] at e
    | stringViews v => simp [hv, Values.slice] at e

private def plain : Format := ⟨fun t => if t < 1000 then some s!"second {t}" else none, toString, toString⟩

private def wind : Batch := ⟨3, [⟨"time", .timestamps [0, 1000, 2000]⟩, ⟨"speed", .fields [4, 0, 0]⟩]⟩

private def windOf : Batch := ⟨3, [⟨"time", .timestamps [0, 1000, 2000]⟩, ⟨"speed", .fields [4, 0, 0]⟩, ⟨"park", .stringViews ["a", "a", "a"]⟩]⟩

example : OfTimeSeriesTable wind ∧ ¬ HasTags wind ∧ generate plain zeroFails "share" "division by zero" wind =
    some (.error "Failed to compute 'share' for {time: 1000, speed: 0} due to: division by zero") :=
  ⟨by simp [OfTimeSeriesTable, wind], by simp [HasTags, wind], by decide +kernel⟩

example : OfTimeSeriesTable windOf ∧ HasTags windOf ∧ zeroFails windOf = true ∧ generate plain zeroFails "share" "division by zero" windOf =
    some (.error "Type of column with name 'park' is not supported.") :=
  ⟨by simp [OfTimeSeriesTable, windOf], by simp [HasTags, windOf], by decide +kernel, by decide +kernel⟩

example : generateAll plain wind [⟨"double", fun _ => false, ""⟩, ⟨"share", zeroFails, "division by zero"⟩, ⟨"part", zeroFails, "remainder"⟩] =
    some (.error "Failed to compute 'share' for {time: 1000, speed: 0} due to: division by zero") := by decide +kernel

example : RowByRow zeroFails := zeroFails_rowByRow

end ModelarDB.Props
