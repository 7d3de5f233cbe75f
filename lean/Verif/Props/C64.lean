import Verif.Spec.FlightPut
import Mathlib.Data.List.Forall2
import Mathlib.Tactic.Ring
/-
C64: Data that is put into a table is stored as it was sent.
-/
namespace ModelarDB.Props
open Model Model.FlightPut Spec

theorem toLe_length : ∀ (w v : Nat), (toLe w v).length = w
  | 0, _ => rfl
  | w + 1, v => by rw [toLe, List.length_cons, toLe_length w]

theorem ofLe_toLe : ∀ (w v : Nat), v < 256 ^ w → ofLe (toLe w v) = v
  | 0, v, h => by
    rw [pow_zero] at h
    rw [toLe, ofLe]
    omega
  | w + 1, v, h => by
    rw [toLe, ofLe, ofLe_toLe w (v / 256)]
    · omega
    · rw [pow_succ] at h
      exact Nat.div_lt_of_lt_mul (by rw [Nat.mul_comm]; exact h)

theorem decodeFixed_encode (width : Nat) : ∀ (values rest : List Nat), (∀ v ∈ values, v < 256 ^ width) →
    decodeFixed width values.length (values.flatMap (toLe width) ++ rest) = some values
  | [], _, _ => rfl
  | v :: values, rest, h => by
    rw [List.length_cons, List.flatMap_cons, List.append_assoc, decodeFixed, if_pos (by rw [List.length_append, toLe_length]; omega)]
    have h1 : (toLe width v ++ (values.flatMap (toLe width) ++ rest)).take width = toLe width v := by
      rw [List.take_append_of_le_length (by rw [toLe_length]), List.take_of_length_le (by rw [toLe_length])]
    have h2 : (toLe width v ++ (values.flatMap (toLe width) ++ rest)).drop width = values.flatMap (toLe width) ++ rest := by
      rw [List.drop_append_of_le_length (by rw [toLe_length]), List.drop_of_length_le (by rw [toLe_length]), List.nil_append]
    rw [h1, h2, decodeFixed_encode width values rest fun x hx => h x (List.mem_cons_of_mem _ hx), ofLe_toLe width v (h v (by simp))]
    rfl

theorem offsets_length : ∀ (s : Nat) (ts : List (List Nat)), (offsets s ts).length = ts.length + 1
  | _, [] => rfl
  | s, t :: ts => by rw [offsets, List.length_cons, offsets_length, List.length_cons]

theorem offsets_le : ∀ (s : Nat) (ts : List (List Nat)), ∀ o ∈ offsets s ts, o ≤ s + ts.flatten.length
  | s, [], o, h => by
    rw [offsets, List.mem_singleton] at h
    omega
  | s, t :: ts, o, h => by
    rw [offsets, List.mem_cons] at h
    rw [List.flatten_cons, List.length_append]
    rcases h with rfl | h
    · omega
    · have := offsets_le _ ts o h
      omega

theorem offsets_cons (s : Nat) (ts : List (List Nat)) : ∃ rest, offsets s ts = s :: rest := by
  cases ts with
  | nil => exact ⟨[], rfl⟩
  | cons t ts => exact ⟨_, rfl⟩

theorem decodeTexts_encode (utf8 : List Nat → Bool) : ∀ (ts : List (List Nat)) (pre : List Nat), (∀ t ∈ ts, utf8 t = true) →
    (pre ++ ts.flatten).length < 2 ^ 31 → decodeTexts utf8 (pre ++ ts.flatten) (offsets pre.length ts) = some ts
  | [], pre, _, _ => by
    rw [offsets, decodeTexts, if_pos (by simp)]
  | t :: ts, pre, hu, hl => by
    have hlen : (pre ++ (t :: ts).flatten).length = pre.length + (t.length + ts.flatten.length) := by
      rw [List.length_append, List.flatten_cons, List.length_append]
    have ht : ((pre ++ (t :: ts).flatten).drop pre.length).take (pre.length + t.length - pre.length) = t := by
      rw [List.drop_left, List.flatten_cons, Nat.add_sub_cancel_left, List.take_left]
    have hpre : pre ++ (t :: ts).flatten = (pre ++ t) ++ ts.flatten := by
      rw [List.flatten_cons, List.append_assoc]
    have ih := decodeTexts_encode utf8 ts (pre ++ t) (fun x hx => hu x (List.mem_cons_of_mem _ hx)) (by rw [← hpre]; exact hl)
    rw [← hpre, List.length_append] at ih
    obtain ⟨rest, hrest⟩ := offsets_cons (pre.length + t.length) ts
    rw [offsets]
    rw [hrest] at ih ⊢
    rw [decodeTexts, ht, if_pos ⟨by omega, by omega, by omega, hu t (by simp)⟩, ih]
    rfl

/-- A column is decoded if the type has the layout of the one it was encoded with. -/
theorem decodeColumn_encode (utf8 : List Nat → Bool) {n : Nat} {type : ColumnType} {c : Column} (h : TypedColumn utf8 n type c)
    (rest : List (List Nat)) : c.length = n ∧ decodeColumn utf8 n type (encodeColumn type c ++ rest) = some (c, rest) := by
  cases type with
  | fixed name width =>
    cases c with
    | text _ => exact h.elim
    | fixed values =>
      obtain ⟨rfl, hv⟩ := h
      refine ⟨rfl, ?_⟩
      have := decodeFixed_encode width values [] hv
      rw [List.append_nil] at this
      show (decodeFixed width values.length (values.flatMap (toLe width))).map _ = _
      rw [this]
      rfl
  | text =>
    cases c with
    | fixed _ => exact h.elim
    | text values =>
      obtain ⟨rfl, hu, hl⟩ := h
      refine ⟨rfl, ?_⟩
      have h1 := decodeFixed_encode 4 (offsets 0 values) [] (by
        intro o ho
        have := offsets_le 0 values o ho
        have h2 : (2 : Nat) ^ 31 < 256 ^ 4 := by decide
        omega)
      rw [List.append_nil, offsets_length] at h1
      have h2 := decodeTexts_encode utf8 values [] hu (by simpa using hl)
      show ((decodeFixed 4 (values.length + 1) ((offsets 0 values).flatMap (toLe 4))).bind fun os => (decodeTexts utf8 values.flatten os).map _) = _
      rw [h1, Option.bind_some]
      rw [List.nil_append] at h2
      rw [show offsets 0 values = offsets ([] : List Nat).length values from rfl, h2]
      rfl

theorem decodeColumns_encode (utf8 : List Nat → Bool) (n : Nat) : ∀ (schema : List Field) (columns : List Column) (names : List String)
    (restNodes : List Nat) (rest : List (List Nat)), List.Forall₂ (fun (f : Field) c => TypedColumn utf8 n f.type c) schema columns →
    names.length = schema.length →
    decodeColumns utf8 (List.zipWith (fun name (f : Field) => ⟨name, f.type⟩) names schema) (columns.map Column.length ++ restNodes)
      (((schema.zip columns).flatMap fun x => encodeColumn x.1.type x.2) ++ rest) = some columns ∧ ∀ c ∈ columns, c.length = n
  | _, _, names, _, _, .nil, hn => by
    rw [List.length_nil, List.length_eq_zero_iff] at hn
    subst hn
    exact ⟨rfl, by simp⟩
  | f :: fs, c :: cs, names, restNodes, rest, .cons h hs, hn => by
    cases names with
    | nil => simp at hn
    | cons name names =>
      rw [List.length_cons, List.length_cons, Nat.add_right_cancel_iff] at hn
      obtain ⟨h1, h2⟩ := decodeColumns_encode utf8 n fs cs names restNodes rest hs hn
      obtain ⟨h3, h4⟩ := decodeColumn_encode utf8 h (((fs.zip cs).flatMap fun x => encodeColumn x.1.type x.2) ++ rest)
      refine ⟨?_, ?_⟩
      · rw [List.zipWith_cons_cons, List.map_cons, List.cons_append, List.zip_cons_cons, List.flatMap_cons, List.append_assoc, h3]
        show (decodeColumn utf8 n f.type _).bind _ = _
        rw [h4]
        show ((decodeColumns utf8 _ _ _).map _) = _
        rw [h1]
        rfl
      · intro x hx
        rcases List.mem_cons.mp hx with rfl | hx
        · exact h3
        · exact h2 x hx

theorem put_decode_encode (utf8 : List Nat → Bool) {table : List Field} {b : Batch} (ht : TypedBatch utf8 b)
    (hb : b.schema.map (·.type) = table.map (·.type)) : decode utf8 table b.length (encode b) = some ⟨table, b.length, b.columns⟩ := by
  have hlen : (table.map (·.name)).length = b.schema.length := by
    have := congrArg List.length hb
    simpa using this.symm
  have htable : List.zipWith (fun name (f : Field) => (⟨name, f.type⟩ : Field)) (table.map (·.name)) b.schema = table := by
    have h1 : List.zipWith (fun name (f : Field) => (⟨name, f.type⟩ : Field)) (table.map (·.name)) b.schema =
        List.zipWith (fun name type => (⟨name, type⟩ : Field)) (table.map (·.name)) (b.schema.map (·.type)) := by
      rw [List.zipWith_map_right]
    rw [h1, hb, List.zipWith_map, List.zipWith_self]
    exact List.map_id _
  obtain ⟨h1, h2⟩ := decodeColumns_encode utf8 b.length b.schema b.columns (table.map (·.name)) [] [] ht hlen
  rw [List.append_nil, List.append_nil, htable] at h1
  unfold decode encode
  dsimp only
  rw [h1, Option.bind_some, if_pos]
  rw [List.all_eq_true]
  intro c hc
  rw [h2 c hc]
  exact beq_self_eq_true _

theorem ingest_types (utf8 : List Nat → Bool) (stores : Nat → Bool) (table : List Field) : ∀ (sent : List Batch) (i : Nat),
    (∀ b ∈ sent, TypedBatch utf8 b) → (∀ b ∈ sent, b.schema.map (·.type) = table.map (·.type)) →
    (∀ j, i ≤ j → j < i + sent.length → stores j = true) →
    ingest utf8 table stores i (sent.map fun b => (b.length, encode b)) = (sent.map fun b => ⟨table, b.length, b.columns⟩, true)
  | [], _, _, _, _ => rfl
  | b :: sent, i, ht, hs, hi => by
    have ih := ingest_types utf8 stores table sent (i + 1) (fun x hx => ht x (List.mem_cons_of_mem _ hx))
      (fun x hx => hs x (List.mem_cons_of_mem _ hx)) (fun j h1 h2 => hi j (by omega) (by rw [List.length_cons]; omega))
    rw [List.map_cons, ingest, put_decode_encode utf8 (ht b (by simp)) (hs b (by simp))]
    dsimp only
    rw [if_pos (hi i (le_refl i) (by rw [List.length_cons]; omega)), ih]
    rfl

/-- What the code does: if the types are those of the table, the columns are stored in the order they were sent, whatever their names are. -/
theorem C64_by_position (utf8 : List Nat → Bool) (stores : Nat → Bool) (table : List Field) (sent : List Batch)
    (ht : ∀ b ∈ sent, TypedBatch utf8 b) (hs : ∀ b ∈ sent, b.schema.map (·.type) = table.map (·.type))
    (hi : ∀ i < sent.length, stores i = true) :
    put utf8 stores table sent = (sent.map fun b => ⟨table, b.length, b.columns⟩, true) :=
  ingest_types utf8 stores table sent 0 ht hs fun j _ h => hi j (by omega)

/-- **C64**, partial: batches that have the schema of the table are stored with all their rows and values if the storage engine does not fail. -/
theorem C64_put_partial (utf8 : List Nat → Bool) (stores : Nat → Bool) (table : List Field) (sent : List Batch)
    (ht : ∀ b ∈ sent, TypedBatch utf8 b) (hs : ∀ b ∈ sent, b.schema = table) (hi : ∀ i < sent.length, stores i = true) :
    put utf8 stores table sent = (sent, true) ∧ PutsExactly table sent (put utf8 stores table sent) := by
  have h : put utf8 stores table sent = (sent, true) := by
    rw [C64_by_position utf8 stores table sent ht (fun b hb => by rw [hs b hb]) hi]
    congr 1
    have : ∀ b ∈ sent, (⟨table, b.length, b.columns⟩ : Batch) = b := by
      intro b hb
      rw [← hs b hb]
    rw [List.map_congr_left this, List.map_id']
  refine ⟨h, .inl ?_⟩
  rw [h]
  refine ⟨rfl, hs, rfl, ?_⟩
  intro i s r h1 h2
  rw [h1] at h2
  injection h2 with h2
  subst h2
  exact fun _ _ => rfl

/-- C64, exactly: if the storage engine does not fail and the types are those of the table, the request does what it should exactly if the schemas are
that of the table. So it is false for all batches with the types of the table whose columns have other names or another order. -/
theorem C64_types_iff (utf8 : List Nat → Bool) (stores : Nat → Bool) (table : List Field) (sent : List Batch)
    (ht : ∀ b ∈ sent, TypedBatch utf8 b) (hs : ∀ b ∈ sent, b.schema.map (·.type) = table.map (·.type))
    (hi : ∀ i < sent.length, stores i = true) :
    PutsExactly table sent (put utf8 stores table sent) ↔ ∀ b ∈ sent, b.schema = table := by
  constructor
  · rintro (⟨_, h, _⟩ | ⟨h, _⟩)
    · exact h
    · rw [C64_by_position utf8 stores table sent ht hs hi] at h
      cases h
  · exact fun h => (C64_put_partial utf8 stores table sent ht h hi).2

/-- **C64**, partial: batches with the schema of the table are stored up to the first one the storage engine cannot ingest, and only then the request
fails. So a request that fails can have stored data. -/
theorem C64_failed_partial (utf8 : List Nat → Bool) (stores : Nat → Bool) (table : List Field) (before : List Batch) (failing : Batch)
    (after : List Batch) (ht : ∀ b ∈ before ++ [failing], TypedBatch utf8 b) (hs : ∀ b ∈ before ++ [failing], b.schema = table)
    (hi : ∀ i < before.length, stores i = true) (hf : stores before.length = false) :
    put utf8 stores table (before ++ failing :: after) = (before, false) := by
  have key : ∀ (before : List Batch) (i : Nat), (∀ b ∈ before ++ [failing], TypedBatch utf8 b) → (∀ b ∈ before ++ [failing], b.schema = table) →
      (∀ j, i ≤ j → j < i + before.length → stores j = true) → stores (i + before.length) = false →
      ingest utf8 table stores i ((before ++ failing :: after).map fun b => (b.length, encode b)) = (before, false) := by
    intro before
    induction before with
    | nil =>
      intro i ht hs _ hf
      rw [List.nil_append, List.map_cons, ingest, put_decode_encode utf8 (ht failing (by simp)) (by rw [hs failing (by simp)])]
      dsimp only
      rw [List.length_nil, Nat.add_zero] at hf
      rw [hf]
      rfl
    | cons b before ih =>
      intro i ht hs hi hf
      rw [List.length_cons] at hi hf
      have := ih (i + 1) (fun x hx => ht x (List.mem_cons_of_mem _ hx)) (fun x hx => hs x (List.mem_cons_of_mem _ hx))
        (fun j h1 h2 => hi j (by omega) (by omega)) (by rw [← hf]; congr 1; omega)
      rw [List.cons_append, List.map_cons, ingest, put_decode_encode utf8 (ht b (by simp)) (by rw [hs b (by simp)])]
      dsimp only
      rw [if_pos (hi i (le_refl i) (by omega)), this]
      simp only [Prod.mk.injEq, List.cons.injEq, and_true]
      rw [← hs b (by simp)]
  exact key before 0 ht hs (fun j _ h => hi j (by omega)) (by rw [Nat.zero_add]; exact hf)

theorem decodeColumns_nodes (utf8 : List Nat → Bool) : ∀ (schema : List Field) (nodes : List Nat) (buffers : List (List Nat)) (columns : List Column),
    decodeColumns utf8 schema nodes buffers = some columns → schema.length ≤ nodes.length
  | [], _, _, _, _ => Nat.zero_le _
  | _ :: _, [], _, _, h => by simp [decodeColumns] at h
  | f :: fs, n :: ns, buffers, columns, h => by
    rw [decodeColumns, Option.bind_eq_some_iff] at h
    obtain ⟨⟨c, rest⟩, _, h⟩ := h
    rw [Option.map_eq_some_iff] at h
    obtain ⟨cs, h, _⟩ := h
    have := decodeColumns_nodes utf8 fs ns rest cs h
    rw [List.length_cons, List.length_cons]
    omega

/-- **C64**, partial: batches with fewer columns than the table are never stored, whatever their types are. -/
theorem C64_missing_partial (utf8 : List Nat → Bool) (stores : Nat → Bool) (table : List Field) (sent : List Batch) (hne : sent ≠ [])
    (hm : ∀ b ∈ sent, b.columns.length < table.length) : put utf8 stores table sent = ([], false) := by
  cases sent with
  | nil => exact absurd rfl hne
  | cons b sent =>
    have hb := hm b (by simp)
    have : decode utf8 table b.length (encode b) = none := by
      cases hd : decodeColumns utf8 table (encode b).nodes (encode b).buffers with
      | none => rw [decode, hd]; rfl
      | some columns =>
        have := decodeColumns_nodes utf8 table _ _ _ hd
        rw [show (encode b).nodes = b.columns.map Column.length from rfl, List.length_map] at this
        omega
    unfold put
    rw [List.map_cons, ingest, this]

/-! ### Batches with another schema -/

def timestampType : ColumnType := .fixed "Timestamp" 8
def floatType : ColumnType := .fixed "Float32" 4
def windTable : List Field := [⟨"timestamp", timestampType⟩, ⟨"speed", floatType⟩, ⟨"power", floatType⟩, ⟨"park", .text⟩]
/-- UTF-8 that is only one byte for each character. -/
def ascii (text : List Nat) : Bool := text.all (· < 128)

/-- The hypotheses hold for two batches with tags. -/
example : (∀ b ∈ [(⟨windTable, 2, [.fixed [1000, 2000], .fixed [0x41200000, 0x41300000], .fixed [0, 0x3f800000], .text [[65, 66], [67]]]⟩ : Batch),
      ⟨windTable, 1, [.fixed [3000], .fixed [0x41200000], .fixed [7], .text [[]]]⟩], TypedBatch ascii b ∧ b.schema = windTable) ∧
    put ascii (fun _ => true) windTable
      [⟨windTable, 1, [.fixed [3000], .fixed [0x41200000], .fixed [7], .text [[65, 66]]]⟩] =
      ([⟨windTable, 1, [.fixed [3000], .fixed [0x41200000], .fixed [7], .text [[65, 66]]]⟩], true) := by
  refine ⟨?_, by decide⟩
  intro b hb
  simp only [List.mem_cons, List.not_mem_nil, or_false] at hb
  rcases hb with rfl | rfl <;>
    exact ⟨.cons (by decide) (.cons (by decide) (.cons (by decide) (.cons (by decide) .nil))), rfl⟩

/-- A batch without the last column is refused. -/
example : put ascii (fun _ => true) windTable [⟨windTable.take 3, 1, [.fixed [3000], .fixed [0x41200000], .fixed [7]]⟩] = ([], false) := by
  decide

/-- The columns of the table in another order. -/
def swapped : Batch :=
  ⟨[⟨"timestamp", timestampType⟩, ⟨"power", floatType⟩, ⟨"speed", floatType⟩, ⟨"park", .text⟩], 1,
    [.fixed [1000], .fixed [0x41200000], .fixed [0], .text [[65]]]⟩

/-- C64 is false: if the columns are sent in another order the values are stored in the wrong columns without an error. -/
theorem C64_other_order : (put ascii (fun _ => true) windTable [swapped]).2 = true ∧
    (∃ r, (put ascii (fun _ => true) windTable [swapped]).1 = [r] ∧
      valueOf r 0 "speed" = valueOf swapped 0 "power" ∧ valueOf r 0 "speed" ≠ valueOf swapped 0 "speed") ∧
    ¬ PutsExactly windTable [swapped] (put ascii (fun _ => true) windTable [swapped]) := by
  refine ⟨by decide, ⟨_, rfl, by decide, by decide⟩, ?_⟩
  rintro (⟨_, h, _⟩ | ⟨h, _⟩)
  · exact absurd (h swapped (by simp)) (by decide)
  · exact absurd h (by decide)

example : ¬ PutsExactly windTable [swapped] (put ascii (fun _ => true) windTable [swapped]) := by
  have ht : ∀ b ∈ [swapped], TypedBatch ascii b := by
    intro b hb
    rw [List.mem_singleton.mp hb]
    exact .cons (by decide) (.cons (by decide) (.cons (by decide) (.cons (by decide) .nil)))
  rw [C64_types_iff ascii _ windTable [swapped] ht (by decide) (fun _ _ => rfl)]
  decide

/-- The speed is sent as an integer, the bits of one are the bits of a number below 10⁻⁴⁴. -/
def integers : Batch :=
  ⟨[⟨"timestamp", timestampType⟩, ⟨"speed", .fixed "Int32" 4⟩, ⟨"power", floatType⟩, ⟨"park", .text⟩], 1,
    [.fixed [1000], .fixed [1], .fixed [0], .text [[65]]]⟩

/-- C64 is false: values of another type with the same number of bytes are stored as if their bits were of the type of the table. -/
theorem C64_other_type : (put ascii (fun _ => true) windTable [integers]).2 = true ∧
    (∃ r, (put ascii (fun _ => true) windTable [integers]).1 = [r] ∧ valueOf r 0 "speed" = some (floatType, .inl 1) ∧
      valueOf integers 0 "speed" = some (.fixed "Int32" 4, .inl 1)) ∧
    ¬ PutsExactly windTable [integers] (put ascii (fun _ => true) windTable [integers]) := by
  refine ⟨by decide, ⟨_, rfl, by decide, by decide⟩, ?_⟩
  rintro (⟨_, h, _⟩ | ⟨h, _⟩)
  · exact absurd (h integers (by simp)) (by decide)
  · exact absurd h (by decide)

/-- There is a column that the table does not have. -/
def additional : Batch :=
  ⟨windTable ++ [⟨"direction", floatType⟩], 1, [.fixed [1000], .fixed [1], .fixed [0], .text [[65]], .fixed [5]]⟩

/-- C64 is false for all batches with additional columns: if the first columns have the types of the table, the others are dropped without an error,
whatever their names, types and values are. -/
theorem C64_additional_all (utf8 : List Nat → Bool) (stores : Nat → Bool) (table fields others : List Field) (columns dropped : List Column) (n : Nat)
    (ht : TypedBatch utf8 ⟨fields, n, columns⟩) (hs : fields.map (·.type) = table.map (·.type)) (ho : others ≠ []) (hi : stores 0 = true) :
    put utf8 stores table [⟨fields ++ others, n, columns ++ dropped⟩] = ([⟨table, n, columns⟩], true) ∧
      ¬ PutsExactly table [⟨fields ++ others, n, columns ++ dropped⟩] (put utf8 stores table [⟨fields ++ others, n, columns ++ dropped⟩]) := by
  have hput : put utf8 stores table [⟨fields ++ others, n, columns ++ dropped⟩] = ([⟨table, n, columns⟩], true) := by
    have hlen : (table.map (·.name)).length = fields.length := by
      have := congrArg List.length hs
      simpa using this.symm
    have htable : List.zipWith (fun name (f : Field) => (⟨name, f.type⟩ : Field)) (table.map (·.name)) fields = table := by
      have h1 : List.zipWith (fun name (f : Field) => (⟨name, f.type⟩ : Field)) (table.map (·.name)) fields =
          List.zipWith (fun name type => (⟨name, type⟩ : Field)) (table.map (·.name)) (fields.map (·.type)) := by
        rw [List.zipWith_map_right]
      rw [h1, hs, List.zipWith_map, List.zipWith_self]
      exact List.map_id _
    obtain ⟨h1, h2⟩ := decodeColumns_encode utf8 n fields columns (table.map (·.name)) (dropped.map Column.length)
      ((others.zip dropped).flatMap fun x => encodeColumn x.1.type x.2) ht hlen
    rw [htable] at h1
    have hd : decode utf8 table n (encode ⟨fields ++ others, n, columns ++ dropped⟩) = some ⟨table, n, columns⟩ := by
      unfold decode encode
      dsimp only
      rw [List.zip_append ht.length_eq, List.flatMap_append, List.map_append, h1, Option.bind_some, if_pos]
      rw [List.all_eq_true]
      intro c hc
      rw [h2 c hc]
      exact beq_self_eq_true _
    simp only [put, List.map_cons, List.map_nil, ingest, hd, hi, if_true]
  refine ⟨hput, ?_⟩
  rw [hput]
  rintro (⟨_, h, _⟩ | ⟨h, _⟩)
  · have h3 := congrArg List.length (h _ (List.mem_singleton.mpr rfl))
    have h4 := congrArg List.length hs
    have h5 := List.length_pos_iff.mpr ho
    rw [List.length_append] at h3
    rw [List.length_map, List.length_map] at h4
    omega
  · cases h

/-- C64 is false: a column that the table does not have is dropped without an error if it is the last one. -/
theorem C64_additional : (put ascii (fun _ => true) windTable [additional]).2 = true ∧
    (∃ r, (put ascii (fun _ => true) windTable [additional]).1 = [r] ∧ valueOf r 0 "direction" = none ∧
      valueOf additional 0 "direction" = some (floatType, .inl 5)) ∧
    ¬ PutsExactly windTable [additional] (put ascii (fun _ => true) windTable [additional]) := by
  refine ⟨by decide, ⟨_, rfl, by decide, by decide⟩, ?_⟩
  rintro (⟨_, h, _⟩ | ⟨h, _⟩)
  · exact absurd (h additional (by simp)) (by decide)
  · exact absurd h (by decide)

theorem decodeFixed_length (width : Nat) : ∀ (n : Nat) (buffer values : List Nat), decodeFixed width n buffer = some values →
    n * width ≤ buffer.length
  | 0, _, _, _ => by simp
  | n + 1, buffer, values, h => by
    unfold decodeFixed at h
    split at h
    · next hw =>
      obtain ⟨vs, h1, _⟩ := Option.map_eq_some_iff.mp h
      have := decodeFixed_length width n _ _ h1
      rw [List.length_drop] at this
      rw [Nat.add_mul, Nat.one_mul]
      omega
    · cases h

theorem toLes_length (w : Nat) : ∀ values : List Nat, (values.flatMap (toLe w)).length = values.length * w
  | [] => by simp
  | v :: values => by
    rw [List.flatMap_cons, List.length_append, toLe_length, toLes_length w values, List.length_cons, Nat.add_mul, Nat.one_mul, Nat.add_comm]

theorem decodeColumns_narrower (utf8 : List Nat → Bool) {n : Nat} (hn : 0 < n) {type type' : String} {w w' : Nat} (hw : w' < w) (name : String)
    (values : List Nat) (hv : values.length = n) (others : List Field) (restNodes : List Nat) (rest : List (List Nat)) :
    ∀ (schema : List Field) (columns : List Column) (names : List String),
    List.Forall₂ (fun (f : Field) c => TypedColumn utf8 n f.type c) schema columns → names.length = schema.length →
    decodeColumns utf8 (List.zipWith (fun name (f : Field) => ⟨name, f.type⟩) names schema ++ ⟨name, .fixed type w⟩ :: others)
      (columns.map Column.length ++ n :: restNodes)
      (((schema.zip columns).flatMap fun x => encodeColumn x.1.type x.2) ++ (encodeColumn (.fixed type' w') (.fixed values) ++ rest)) = none
  | _, _, names, .nil, hl => by
    rw [List.length_nil, List.length_eq_zero_iff] at hl
    subst hl
    have hd : decodeFixed w n (values.flatMap (toLe w')) = none := by
      cases h : decodeFixed w n (values.flatMap (toLe w')) with
      | none => rfl
      | some vs =>
        have := decodeFixed_length w n _ _ h
        rw [toLes_length, hv] at this
        exact absurd (Nat.le_of_mul_le_mul_left this hn) (by omega)
    show ((decodeFixed w n (values.flatMap (toLe w'))).map fun vs => (Column.fixed vs, rest)).bind _ = none
    rw [hd]
    rfl
  | f :: fs, c :: cs, names, .cons h hs, hl => by
    cases names with
    | nil => simp at hl
    | cons name' names =>
      rw [List.length_cons, List.length_cons, Nat.add_right_cancel_iff] at hl
      have h1 := decodeColumns_narrower utf8 hn (type := type) (type' := type') hw name values hv others restNodes rest fs cs names hs hl
      obtain ⟨h3, h4⟩ := decodeColumn_encode utf8 h
        (((fs.zip cs).flatMap fun x => encodeColumn x.1.type x.2) ++ (encodeColumn (.fixed type' w') (.fixed values) ++ rest))
      rw [List.zipWith_cons_cons, List.map_cons, List.cons_append, List.cons_append, List.zip_cons_cons, List.flatMap_cons, List.append_assoc, h3]
      show (decodeColumn utf8 n f.type _).bind _ = _
      rw [h4]
      show ((decodeColumns utf8 _ _ _).map _) = _
      rw [h1]
      rfl

/-- **C64**, partial: rows with a column whose values have fewer bytes than those of the table are never stored if the columns before have the types of the
table, whatever the columns after it are. -/
theorem C64_narrower_partial (utf8 : List Nat → Bool) (stores : Nat → Bool) (fields others table : List Field) (columns rest : List Column)
    (sentFields sentOthers : List Field) (name sentName type type' : String) (w w' n : Nat) (values : List Nat) (after : List Batch) (hn : 0 < n)
    (hw : w' < w) (hv : values.length = n) (ht : TypedBatch utf8 ⟨sentFields, n, columns⟩)
    (hs : sentFields.map (·.type) = fields.map (·.type)) (htable : table = fields ++ ⟨name, .fixed type w⟩ :: others) :
    put utf8 stores table (⟨sentFields ++ ⟨sentName, .fixed type' w'⟩ :: sentOthers, n, columns ++ .fixed values :: rest⟩ :: after) = ([], false) := by
  have hlen : (fields.map (·.name)).length = sentFields.length := by
    have := congrArg List.length hs
    simpa using this.symm
  have hfields : List.zipWith (fun name (f : Field) => (⟨name, f.type⟩ : Field)) (fields.map (·.name)) sentFields = fields := by
    have h1 : List.zipWith (fun name (f : Field) => (⟨name, f.type⟩ : Field)) (fields.map (·.name)) sentFields =
        List.zipWith (fun name type => (⟨name, type⟩ : Field)) (fields.map (·.name)) (sentFields.map (·.type)) := by
      rw [List.zipWith_map_right]
    rw [h1, hs, List.zipWith_map, List.zipWith_self]
    exact List.map_id _
  have hd := decodeColumns_narrower utf8 hn hw (type := type) (type' := type') name values hv others (rest.map Column.length)
    ((sentOthers.zip rest).flatMap fun x => encodeColumn x.1.type x.2) sentFields columns (fields.map (·.name)) ht hlen
  rw [hfields, ← htable] at hd
  have hdec : decode utf8 table n (encode ⟨sentFields ++ ⟨sentName, .fixed type' w'⟩ :: sentOthers, n, columns ++ .fixed values :: rest⟩) = none := by
    unfold decode encode
    dsimp only
    rw [List.zip_append ht.length_eq, List.flatMap_append, List.map_append, List.zip_cons_cons, List.flatMap_cons, List.map_cons,
      show Column.length (.fixed values) = n from hv, hd]
    rfl
  simp only [put, List.map_cons, ingest, hdec]

/-- The speed is sent as numbers of two bytes. -/
example : put ascii (fun _ => true) windTable [⟨[⟨"timestamp", timestampType⟩, ⟨"speed", .fixed "Float16" 2⟩, ⟨"power", floatType⟩, ⟨"park", .text⟩], 1,
    [.fixed [1000], .fixed [5], .fixed [0], .text [[65]]]⟩] = ([], false) :=
  C64_narrower_partial ascii _ [⟨"timestamp", timestampType⟩] [⟨"power", floatType⟩, ⟨"park", .text⟩] windTable [.fixed [1000]] [.fixed [0], .text [[65]]]
    [⟨"timestamp", timestampType⟩] [⟨"power", floatType⟩, ⟨"park", .text⟩] "speed" "speed" "Float32" "Float16" 4 2 1 [5] [] (by decide) (by decide) rfl
    (.cons (by decide) .nil) rfl (by decide)

/-- Values of eight bytes are read as twice as many values of four bytes. -/
def doubles : Batch :=
  ⟨[⟨"timestamp", timestampType⟩, ⟨"speed", .fixed "Float64" 8⟩, ⟨"power", floatType⟩, ⟨"park", .text⟩], 2,
    [.fixed [1000, 2000], .fixed [0x4024000000000000, 0x4026000000000000], .fixed [0, 0], .text [[65], [66]]]⟩

/-- C64 is false: of values with more bytes only the first half of the buffer is read, so the second value is the upper half of the first. -/
theorem C64_wider_type : ∃ r, put ascii (fun _ => true) windTable [doubles] = ([r], true) ∧
    valueOf r 0 "speed" = some (floatType, .inl 0) ∧ valueOf r 1 "speed" = some (floatType, .inl 0x40240000) :=
  ⟨_, rfl, by decide, by decide⟩

/-- C64 is false: if the storage engine fails for the second part of a batch the request fails although the first part is stored. -/
theorem C64_failed : ∃ (first second : Batch), TypedBatch ascii first ∧ TypedBatch ascii second ∧ first.schema = windTable ∧ second.schema = windTable ∧
    put ascii (· == 0) windTable [first, second] = ([first], false) ∧
    ¬ PutsExactly windTable [first, second] (put ascii (· == 0) windTable [first, second]) := by
  refine ⟨⟨windTable, 1, [.fixed [1000], .fixed [1], .fixed [0], .text [[65]]]⟩, ⟨windTable, 1, [.fixed [2000], .fixed [1], .fixed [0], .text [[65]]]⟩,
    .cons (by decide) (.cons (by decide) (.cons (by decide) (.cons (by decide) .nil))),
    .cons (by decide) (.cons (by decide) (.cons (by decide) (.cons (by decide) .nil))), rfl, rfl, by decide, ?_⟩
  rintro (⟨h, _⟩ | ⟨_, h⟩)
  · exact absurd h (by decide)
  · exact absurd h (by decide)

end ModelarDB.Props
