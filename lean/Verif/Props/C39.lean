import Verif.Props.C40
/-
C39: queries without a field column see every row.
-/
namespace ModelarDB.Props
open Model Model.Query Model.TableDefinition Spec Lemmas

/-- The segments of a table: for each stored field the batches of segments that are read for it. They hold the data points of the rows. -/
structure Stored {ε σ : Type} (m : Metadata ε) (segment : SegmentOf σ) (lt : List String → List String → Prop)
    (filter : Option (Int → List String → Bool)) (batchSize : Nat) (rows : List TableRow) (events : Nat → List (Event (List σ))) : Prop where
  rowsSorted : rows.Pairwise fun r s => Before lt r.tags s.tags r.time s.time
  rowTags : ∀ row ∈ rows, row.tags.length = m.tagIndices.length
  neverFails : ∀ i ∈ m.fieldIndices, NeverFails (events i)
  valid : ∀ i ∈ m.fieldIndices, ∀ s ∈ (itemsOf (events i)).flatten, segment.Valid s
  disjoint : ∀ i ∈ m.fieldIndices, segment.Disjoint (itemsOf (events i)).flatten
  sorted : ∀ i ∈ m.fieldIndices, segment.Sorted lt (itemsOf (events i)).flatten
  contents : ∀ i ∈ m.fieldIndices, (kept (onPoints filter) ((itemsOf (events i)).flatten.flatMap segment.points)).Perm
    ((keptRows filter rows).map (TableRow.point i))
  full : ∀ i ∈ m.fieldIndices, FullBatches segment.points (onPoints filter) batchSize (itemsOf (events i))

theorem keptRows_subset {filter : Option (Int → List String → Bool)} {rows : List TableRow} : ∀ row ∈ keptRows filter rows, row ∈ rows := by
  intro row h
  cases filter with
  | none => exact h
  | some f => exact (List.mem_filter.mp h).1

/-- The data points of all fields that are read and kept are those of the same rows, in the same order. -/
structure Aligned {ε σ : Type} (m : Metadata ε) (points : σ → List Point) (filter : Option (Int → List String → Bool)) (batchSize : Nat)
    (rows : List TableRow) (events : Nat → List (Event (List σ))) : Prop where
  rowTags : ∀ row ∈ rows, row.tags.length = m.tagIndices.length
  neverFails : ∀ i ∈ m.fieldIndices, NeverFails (events i)
  order : ∀ i ∈ m.fieldIndices, kept (onPoints filter) ((itemsOf (events i)).flatten.flatMap points) =
    (keptRows filter rows).map (TableRow.point i)
  full : ∀ i ∈ m.fieldIndices, FullBatches points (onPoints filter) batchSize (itemsOf (events i))

theorem Stored.aligned {ε σ : Type} {m : Metadata ε} {segment : SegmentOf σ} {lt : List String → List String → Prop} (hirrefl : ∀ a, ¬ lt a a)
    (htrans : ∀ a b c, lt a b → lt b c → lt a c) {filter : Option (Int → List String → Bool)} {batchSize : Nat} {rows : List TableRow}
    {events : Nat → List (Event (List σ))} (h : Stored m segment lt filter batchSize rows events) :
    Aligned m segment.points filter batchSize rows events :=
  ⟨h.rowTags, h.neverFails, fun i hi => points_aligned segment lt hirrefl htrans filter rows h.rowsSorted _ (h.valid i hi) (h.disjoint i hi)
    (h.sorted i hi) i (h.contents i hi), h.full⟩

/-- A query returns for every row the values of the columns of the join, if all fields it reads are stored and the data points of all of them are
read in the same order. -/
theorem query_rows_aligned {ε σ : Type} {env : Env ε} {hashOrder : List Nat → List Nat} {name : String} {qs : List Column} {bs : List ErrorBound}
    {gs : List (Option (Generated ε))} {m : Metadata ε} (hm : tryNew name qs bs gs = .ok m) (hunique : (qs.map (·.name)).Nodup)
    (hfree : ∀ tag ∈ tagNamesOf m, FreeName tag) {projection : List Nat} {plan : Plan ε} (hplan : planScan env hashOrder m projection = .ok plan) (hexec : plan.executable = true)
    (hfields : ∀ i ∈ plan.fields, i ∈ m.fieldIndices)
    (points : σ → List Point) (filter : Option (Int → List String → Bool)) (batchSize : Nat) (hbatch : 1 ≤ batchSize)
    (rows : List TableRow) (events : Nat → List (Event (List σ))) (hst : Aligned m points filter batchSize rows events) :
    ∃ out, ReadsAs (pollJoin (tagNamesOf m) plan.order (pollGrid points (onPoints filter) batchSize pollEvents))
        (inputsOf plan.fields events) out ∧
      (out.flatMap rowsOfColumns).map (fun cells => cells.map some) =
        (keptRows filter rows).map fun row => plan.joinSchema.map fun c => storedCell m row c.name := by
  obtain ⟨fallback, fields, hres, hjoin, hcols, _, hpf⟩ := planScan_ok hplan
  have hmq : m.querySchema = qs := by obtain ⟨_, _, _, _, _, _, _, h8⟩ := tryNew_ok.mp hm; rw [h8]
  have hmg : m.generated = gs := by obtain ⟨_, _, _, _, _, _, _, h8⟩ := tryNew_ok.mp hm; rw [h8]
  have hc := consistent_of_tryNew hm
  have hn := schema_nodup hc hunique
  rw [← hmq, ← hmg] at hc
  have hlen : plan.order.length = plan.joinSchema.length ∧ plan.order ≠ [] := by
    simp only [Plan.executable, Bool.and_eq_true, decide_eq_true_eq] at hexec
    exact ⟨hexec.1, by simpa [List.isEmpty_iff] using hexec.2⟩
  have hgf := (planColumns_length hcols).2 (by rw [hlen.1, hjoin])
  obtain ⟨_, hvalid, _⟩ := planColumns_generate hgf hcols
  obtain ⟨ha1, ha2, ha3, ha4⟩ := planColumns_answerable hc hn hgf hcols
  have hextra : ∃ extra, plan.fields = fields ++ extra := by
    rw [hpf]
    split
    · rename_i h
      rw [List.isEmpty_iff] at h
      exact ⟨[fallback], by rw [h]; rfl⟩
    · exact ⟨[], by simp⟩
  obtain ⟨extra, hextra⟩ := hextra
  have hne : plan.fields ≠ [] := by
    rw [hpf]
    split
    · simp
    · rename_i h
      simpa [List.isEmpty_iff] using h
  have hans : Answerable (tagNamesOf m) plan.order plan.fields := by
    refine ⟨hlen.2, hne, fun tag htag => ⟨ha1 tag htag, hfree tag (ha1 tag htag)⟩, ?_⟩
    rw [ha2, hextra, List.length_append]
    omega
  obtain ⟨out, h1, h2⟩ := join_aligned points filter batchSize hbatch (tagNamesOf m) plan.order plan.fields hans rows
    (fun row hr => by rw [tagNames_length hc]; exact hst.rowTags row hr) events (fun i hi => hst.neverFails i (hfields i hi))
    (fun i hi => hst.full i (hfields i hi)) (fun i hi => hst.order i (hfields i hi))
  refine ⟨out, h1, ?_⟩
  have hcells : ∀ row ∈ keptRows filter rows, ∃ cells, cellsOf (tagNamesOf m) row plan.order plan.fields = some cells ∧
      (plan.joinSchema.map fun c => storedCell m row c.name) = cells.map some := by
    intro row hr
    obtain ⟨cells, g1, g2⟩ := planColumns_cells hc hn row (hst.rowTags row (keptRows_subset row hr)) extra hgf hcols
    refine ⟨cells, by rw [hextra]; exact g1, ?_⟩
    rw [← g2, hjoin, joinSchema_eq hvalid]
    have : ∀ l : List Nat, (∀ i ∈ l, ∃ c, m.querySchema[i]? = some c) →
        ((l.filterMap fun i => m.querySchema[i]?).map fun c => storedCell m row c.name) =
          l.map fun i => (m.querySchema[i]?).bind fun c => storedCell m row c.name := by
      intro l hl
      induction l with
      | nil => rfl
      | cons i l ih =>
        obtain ⟨c, hc⟩ := hl i (by simp)
        rw [List.filterMap_cons_some (b := c) hc, List.map_cons, List.map_cons, ih fun j hj => hl j (List.mem_cons_of_mem _ hj), hc]
        rfl
    refine this _ fun i hi => ?_
    obtain ⟨c, _, hc, _⟩ := hvalid i (List.mem_filter.mp hi).1
    exact ⟨c, hc⟩
  clear h1 hexec hpf hplan
  generalize out.flatMap rowsOfColumns = result at h2 ⊢
  generalize keptRows filter rows = kept at h2 hcells ⊢
  induction kept generalizing result with
  | nil =>
    cases result with
    | nil => rfl
    | cons _ _ => simp at h2
  | cons row kept ih =>
    cases result with
    | nil => simp at h2
    | cons cells result =>
      simp only [List.map_cons, List.cons.injEq] at h2
      obtain ⟨c, g1, g2⟩ := hcells row (by simp)
      rw [g1] at h2
      obtain ⟨h2, h3⟩ := h2
      cases h2
      rw [List.map_cons, List.map_cons, g2, ih result h3 fun r hr => hcells r (List.mem_cons_of_mem _ hr)]

/-- A query returns for every row the values of the columns of the join, if all fields it reads are stored. -/
theorem query_rows {ε σ : Type} {env : Env ε} {hashOrder : List Nat → List Nat} {name : String} {qs : List Column} {bs : List ErrorBound}
    {gs : List (Option (Generated ε))} {m : Metadata ε} (hm : tryNew name qs bs gs = .ok m) (hunique : (qs.map (·.name)).Nodup)
    (hfree : ∀ tag ∈ tagNamesOf m, FreeName tag) {projection : List Nat} {plan : Plan ε} (hplan : planScan env hashOrder m projection = .ok plan) (hexec : plan.executable = true)
    (hfields : ∀ i ∈ plan.fields, i ∈ m.fieldIndices)
    (segment : SegmentOf σ) (lt : List String → List String → Prop) (hirrefl : ∀ a, ¬ lt a a)
    (htrans : ∀ a b c, lt a b → lt b c → lt a c) (filter : Option (Int → List String → Bool)) (batchSize : Nat) (hbatch : 1 ≤ batchSize)
    (rows : List TableRow) (events : Nat → List (Event (List σ))) (hst : Stored m segment lt filter batchSize rows events) :
    ∃ out, ReadsAs (pollJoin (tagNamesOf m) plan.order (pollGrid segment.points (onPoints filter) batchSize pollEvents))
        (inputsOf plan.fields events) out ∧
      (out.flatMap rowsOfColumns).map (fun cells => cells.map some) =
        (keptRows filter rows).map fun row => plan.joinSchema.map fun c => storedCell m row c.name :=
  query_rows_aligned hm hunique hfree hplan hexec hfields segment.points filter batchSize hbatch rows events (hst.aligned hirrefl htrans)

theorem increasing_ge {l : List Nat} (h : l.Pairwise (· < ·)) : ∀ i : Nat, ∀ x, l[i]? = some x → i ≤ x := by
  intro i
  induction i with
  | zero => intro x _; omega
  | succ i ih =>
    intro x hx
    obtain ⟨hlt, rfl⟩ := List.getElem?_eq_some_iff.mp hx
    have h1 := ih l[i] (List.getElem?_eq_getElem (by omega))
    have h2 := List.pairwise_iff_getElem.mp h i (i + 1) (by omega) hlt (by omega)
    omega

theorem increasing_complete {l : List Nat} (h : l.Pairwise (· < ·)) (f : Nat) (hall : ∀ i ≤ f, i ∈ l) : ∀ i ≤ f, l[i]? = some i := by
  intro i
  induction i using Nat.strongRecOn with
  | ind i ih =>
    intro hi
    obtain ⟨k, hk⟩ := List.mem_iff_getElem?.mp (hall i hi)
    have hki := increasing_ge h k i hk
    rcases Nat.lt_or_eq_of_le hki with hlt | rfl
    · have := ih k hlt (by omega)
      rw [this] at hk
      cases hk
      omega
    · exact hk

/-- The field that is read for queries without fields is stored if no generated column is before the first field that is stored. -/
theorem fallback_stored {ε : Type} {name : String} {qs : List Column} {bs : List ErrorBound} {gs : List (Option (Generated ε))}
    {m : Metadata ε} (hm : tryNew name qs bs gs = .ok m) {f : Nat} (hf : fallbackFieldColumn m = some f)
    (hbefore : ∀ i < f, gs[i]? = some none) : f ∈ m.fieldIndices := by
  have hmq : m.querySchema = qs := by obtain ⟨_, _, _, _, _, _, _, h8⟩ := tryNew_ok.mp hm; rw [h8]
  have hmg : m.generated = gs := by obtain ⟨_, _, _, _, _, _, _, h8⟩ := tryNew_ok.mp hm; rw [h8]
  have hc := consistent_of_tryNew hm
  have hprop := List.find?_some hf
  simp only [Bool.and_eq_true, decide_eq_true_eq, hmq, hmg] at hprop
  obtain ⟨h1, h2⟩ := hprop
  have hgf : gs[f]? = some none := by
    cases h : gs[f]? with
    | none => rw [h] at h1; cases h1
    | some g => cases g with
      | none => rfl
      | some g => rw [h] at h1; cases h1
  obtain ⟨c, hcf, htype⟩ := Option.map_eq_some_iff.mp h2
  have hall : ∀ i ≤ f, i ∈ m.querySchemaToSchema := by
    intro i hi
    rw [hc.positions]
    rcases Nat.lt_or_eq_of_le hi with h | rfl
    · exact hbefore i h
    · exact hgf
  have hj := increasing_complete hc.increasing f hall f (Nat.le_refl _)
  exact (hc.fields f).mpr ⟨c, by rw [(hc.column f f hj).2.1, hcf], htype⟩

/-- **C39** in the parts that hold: a query that reads no field returns one row for each row of the table, with its timestamp and tags, if no
generated column is before the first stored field in the definition of the table and no tag is called `timestamp` or `value`. The conditions on the stored segments are those of C36.
Not shown is the property for tables with a generated column before the first stored field or such a tag, for these it is false of the code,
see `C39_no_rows` and `C57_tag_name_panics`. -/
theorem C39_rows_partial {ε σ : Type} {env : Env ε} {hashOrder : List Nat → List Nat} {name : String} {qs : List Column}
    {bs : List ErrorBound} {gs : List (Option (Generated ε))} {m : Metadata ε} (hm : tryNew name qs bs gs = .ok m)
    (hunique : (qs.map (·.name)).Nodup) (hfree : ∀ tag ∈ tagNamesOf m, FreeName tag) {projection : List Nat} {plan : Plan ε}
    (hplan : planScan env hashOrder m projection = .ok plan)
    (hexec : plan.executable = true) (hnofield : .field ∉ plan.order)
    (hbefore : ∀ f, fallbackFieldColumn m = some f → ∀ i < f, gs[i]? = some none)
    (segment : SegmentOf σ) (lt : List String → List String → Prop) (hirrefl : ∀ a, ¬ lt a a)
    (htrans : ∀ a b c, lt a b → lt b c → lt a c) (filter : Option (Int → List String → Bool)) (batchSize : Nat) (hbatch : 1 ≤ batchSize)
    (rows : List TableRow) (events : Nat → List (Event (List σ))) (hst : Stored m segment lt filter batchSize rows events) :
    ∃ out, ReadsAs (pollJoin (tagNamesOf m) plan.order (pollGrid segment.points (onPoints filter) batchSize pollEvents))
        (inputsOf plan.fields events) out ∧
      (out.flatMap rowsOfColumns).map (fun cells => cells.map some) =
        (keptRows filter rows).map fun row => plan.joinSchema.map fun c => storedCell m row c.name := by
  refine query_rows hm hunique hfree hplan hexec ?_ segment lt hirrefl htrans filter batchSize hbatch rows events hst
  obtain ⟨fallback, fields, hres, hjoin, hcols, hfall, hpf⟩ := planScan_ok hplan
  have hmq : m.querySchema = qs := by obtain ⟨_, _, _, _, _, _, _, h8⟩ := tryNew_ok.mp hm; rw [h8]
  have hmg : m.generated = gs := by obtain ⟨_, _, _, _, _, _, _, h8⟩ := tryNew_ok.mp hm; rw [h8]
  have hc := consistent_of_tryNew hm
  have hn := schema_nodup hc hunique
  rw [← hmq, ← hmg] at hc
  have hlen : plan.order.length = plan.joinSchema.length := by
    simp only [Plan.executable, Bool.and_eq_true, decide_eq_true_eq] at hexec
    exact hexec.1
  obtain ⟨_, ha2, _, _⟩ := planColumns_answerable hc hn ((planColumns_length hcols).2 (by rw [hlen, hjoin])) hcols
  rw [List.count_eq_zero.mpr hnofield] at ha2
  have : fields = [] := List.eq_nil_of_length_eq_zero ha2.symm
  rw [hpf, this]
  intro i hi
  simp only [List.isEmpty_nil, if_true, List.mem_cons, List.not_mem_nil, or_false] at hi
  subst hi
  exact fallback_stored hm hfall (hbefore _ hfall)

/-! ### A table for which the conditions hold -/

/-- `ts TIMESTAMP, tag TAG, a FIELD, sum FIELD AS (a + b), b FIELD`. -/
def lastTable : Except Failure (Metadata (List String)) :=
  createFromSql listEnv "t" [.timestamp "ts", .tag "tag", .field "a", .fieldAs "sum" ["a", "b"], .field "b"]

/-- The definition of the table. -/
def lastMetadata : Metadata (List String) :=
  { name := "t", timestampIndex := 0, fieldIndices := [2, 3], tagIndices := [1], errorBounds := [.lossless, .lossless, .lossless, .lossless]
    generated := [none, none, none, some ⟨["a", "b"], [2, 4]⟩, none]
    schema := [⟨"ts", .timestamp, false⟩, ⟨"tag", .string, false⟩, ⟨"a", .value, false⟩, ⟨"b", .value, false⟩]
    querySchema := [⟨"ts", .timestamp, false⟩, ⟨"tag", .string, false⟩, ⟨"a", .value, false⟩, ⟨"sum", .value, false⟩, ⟨"b", .value, false⟩]
    querySchemaToSchema := [0, 1, 2, 4]
    compressedSchema := compressedSchemaBase ++ [⟨"tag", .string, false⟩] }

theorem lastTable_eq : lastTable = .ok lastMetadata := by decide +kernel

/-- The plan of a query for the tag and the timestamp. -/
def lastPlan : Plan (List String) :=
  ⟨[⟨"tag", .string, false⟩, ⟨"ts", .timestamp, false⟩], [⟨"tag", .string, false⟩, ⟨"ts", .timestamp, false⟩], [.tag "tag", .timestamp], [2], []⟩

/-- The batches of the two fields. -/
def lastEvents (i : Nat) : List (Event (List ListSegment)) := fiveEvents (i - 1)

/-- The rows as they are stored: the fields are the third and fourth column. -/
def lastRows : List TableRow := fiveRows.map fun row => { row with values := fun i => row.values (i - 1) }

theorem lastStored : Stored lastMetadata listSegment tagsLt none 2 lastRows lastEvents where
  rowsSorted := by simp only [lastRows, fiveRows, List.map_cons, List.map_nil, List.pairwise_cons, List.mem_cons, Before]; simp; decide
  rowTags := by simp [lastRows, fiveRows, lastMetadata]
  neverFails := by
    simp only [lastMetadata, List.mem_cons, List.not_mem_nil, or_false, forall_eq_or_imp, forall_eq, NeverFails]; constructor <;> decide
  valid := by
    simp only [lastMetadata, List.mem_cons, List.not_mem_nil, or_false, forall_eq_or_imp, forall_eq]
    refine ⟨fun s hs => ListSegment.valid ?_, fun s hs => ListSegment.valid ?_⟩ <;> revert s <;> decide
  disjoint := by
    simp only [lastMetadata, List.mem_cons, List.not_mem_nil, or_false, forall_eq_or_imp, forall_eq, SegmentOf.Disjoint]; constructor <;> decide
  sorted := by
    simp only [lastMetadata, List.mem_cons, List.not_mem_nil, or_false, forall_eq_or_imp, forall_eq, SegmentOf.Sorted]; constructor <;> decide
  contents := by
    simp only [lastMetadata, List.mem_cons, List.not_mem_nil, or_false, forall_eq_or_imp, forall_eq]
    refine ⟨List.Perm.of_eq ?_, List.Perm.of_eq ?_⟩ <;> decide
  full := by
    simp only [lastMetadata, List.mem_cons, List.not_mem_nil, or_false, forall_eq_or_imp, forall_eq, FullBatches]; constructor <;> decide

/-- A query for the tag and the timestamp returns all five rows. -/
example : planScan listEnv id lastMetadata [1, 0] = .ok lastPlan ∧
    ∃ out, ReadsAs (pollJoin ["tag"] lastPlan.order (pollGrid listSegment.points (onPoints none) 2 pollEvents))
        (inputsOf lastPlan.fields lastEvents) out ∧
      (out.flatMap rowsOfColumns).map (fun cells => cells.map some) =
        [[some (.tag "A"), some (.time 1)], [some (.tag "A"), some (.time 2)], [some (.tag "A"), some (.time 3)],
          [some (.tag "B"), some (.time 1)], [some (.tag "B"), some (.time 2)]] := by
  have h1 : planScan listEnv id lastMetadata [1, 0] = .ok lastPlan := by decide +kernel
  have hm : tryNew "t" lastMetadata.querySchema [.lossless, .lossless, .lossless, .lossless, .lossless] lastMetadata.generated =
    .ok lastMetadata := by decide +kernel
  refine ⟨h1, ?_⟩
  exact C39_rows_partial hm (by decide) (by decide) h1 (by decide +kernel) (by decide +kernel)
    (fun f hf => by
      have : fallbackFieldColumn lastMetadata = some 2 := by decide +kernel
      rw [this] at hf
      cases hf
      decide)
    listSegment tagsLt (fun a h => List.lt_irrefl a h) (fun a b c h g => List.lt_trans h g) none 2 (by decide) lastRows lastEvents lastStored

/-! ### A generated column before the first field -/

/-- `ts TIMESTAMP, double FIELD AS (v + v), v FIELD`. -/
def doubleTable : Except Failure (Metadata (List String)) :=
  createFromSql listEnv "t" [.timestamp "ts", .fieldAs "double" ["v", "v"], .field "v"]

/-- The segments of the field, which is the column with index 1 of the stored columns, and of all other columns. -/
def doubleEvents (i : Nat) : List (Event (List ListSegment)) := if i = 1 then [.item [⟨[], (1, 10), [(2, 20)]⟩]] else []

/-- **C39** is false of the code if a generated column is before the first stored field: the table has two rows and a query for the field
returns both, but a query for the timestamp reads a field that does not exist and returns nothing. -/
theorem C39_no_rows : ∃ m, doubleTable = .ok m ∧ m.fieldIndices = [1] ∧
    (∃ plan, planScan listEnv id m [0, 2] = .ok plan ∧ plan.executable = true ∧
      ∃ out, drain (pollJoin (tagNamesOf m) plan.order (pollGrid listSegment.points none 8192 pollEvents)) 9
          (inputsOf plan.fields doubleEvents) = (out, .finished) ∧
        out.flatMap rowsOfColumns = [[.time 1, .value 10], [.time 2, .value 20]]) ∧
    ∃ plan, planScan listEnv id m [0] = .ok plan ∧ plan.executable = true ∧ plan.fields = [2] ∧
      drain (pollJoin (tagNamesOf m) plan.order (pollGrid listSegment.points none 8192 pollEvents)) 9
          (inputsOf plan.fields doubleEvents) = ([], .finished) := by
  refine ⟨_, rfl, by decide +kernel, ⟨_, rfl, by decide +kernel, _, rfl, by decide +kernel⟩, _, rfl, by decide +kernel, by decide +kernel, rfl⟩

end ModelarDB.Props
