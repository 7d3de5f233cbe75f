import Verif.Lemmas.TableDefinition
/-
C33: Stored columns and query columns correspond.
-/
namespace ModelarDB.Props
open Model Model.TableDefinition Spec Lemmas

/-- **C33.** In every definition that is accepted, the stored columns are the columns that are not generated, in the same order and with
their error bounds, the positions of the timestamp, field and tag columns refer to the stored columns, and the columns of a segment are
followed by the tags. See `Consistent`. -/
theorem C33_columns_correspond {ε : Type} (name : String) (querySchema : List Column) (bounds : List ErrorBound)
    (generated : List (Option (Generated ε))) (m : Metadata ε) (h : tryNew name querySchema bounds generated = .ok m) :
    Consistent querySchema bounds generated m ∧ m.name = name ∧ m.querySchema = querySchema ∧ m.generated = generated := by
  refine ⟨consistent_of_tryNew h, ?_⟩
  obtain ⟨-, -, -, -, -, -, -, h⟩ := tryNew_ok.mp h
  rw [h]
  exact ⟨rfl, rfl, rfl⟩

/-- **C33**, for names: the position of a stored column picks the column with its name, whatever order the columns have. -/
theorem C33_same_name {ε : Type} (name : String) (querySchema : List Column) (bounds : List ErrorBound)
    (generated : List (Option (Generated ε))) (m : Metadata ε) (h : tryNew name querySchema bounds generated = .ok m) (j i : Nat)
    (hj : m.querySchemaToSchema[j]? = some i) :
    ∃ c, m.schema[j]? = some c ∧ querySchema[i]? = some c ∧ (m.isTag j = true ↔ c.type = .string) := by
  have hc := consistent_of_tryNew h
  obtain ⟨hi, hs, -⟩ := hc.column j i hj
  have hq := List.getElem?_eq_getElem hi
  refine ⟨querySchema[i], hs.trans hq, hq, ?_⟩
  unfold Metadata.isTag
  rw [List.contains_iff_mem, hc.tags, hs, hq]
  simp

/-- A table whose second column is generated. -/
def exampleColumns : List Column :=
  [⟨"ts", .timestamp, false⟩, ⟨"double", .value, false⟩, ⟨"tag", .string, false⟩, ⟨"v", .value, false⟩]

/-- It is accepted. The stored columns are `ts`, `tag` and `v`. -/
example : ∃ m, tryNew "t" exampleColumns [.lossless, .lossless, .lossless, .absolute (.fin false 2)]
      [none, some ⟨"v * 2", [3]⟩, none, none] = .ok m ∧
    m.querySchemaToSchema = [0, 2, 3] ∧ m.schema.map (·.name) = ["ts", "tag", "v"] ∧ m.tagIndices = [1] ∧ m.fieldIndices = [2] ∧
    m.errorBounds = [.lossless, .lossless, .absolute (.fin false 2)] := by
  refine ⟨_, rfl, ?_⟩
  decide +kernel

end ModelarDB.Props
