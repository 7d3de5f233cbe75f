import Verif.Model.TableDefinition
import Mathlib.Data.List.Forall2
/-
What it means that the parts of a table definition fit together, and that two definitions are the same.
-/
namespace ModelarDB.Spec
open Model Model.TableDefinition

variable {ε : Type}

/-- The stored columns are the columns that are not generated, in the same order and with their error bounds, and all positions refer to
them. -/
structure Consistent (querySchema : List Column) (bounds : List ErrorBound) (generated : List (Option (Generated ε))) (m : Metadata ε) :
    Prop where
  /-- The positions of the stored columns are increasing. -/
  increasing : m.querySchemaToSchema.Pairwise (· < ·)
  /-- They are the positions of the columns that are not generated. -/
  positions : ∀ i : Nat, i ∈ m.querySchemaToSchema ↔ generated[i]? = some none
  /-- A stored column is the column at its position, with its error bound. -/
  length : m.schema.length = m.querySchemaToSchema.length ∧ m.errorBounds.length = m.querySchemaToSchema.length
  column : ∀ j i : Nat, m.querySchemaToSchema[j]? = some i → i < querySchema.length ∧ m.schema[j]? = querySchema[i]? ∧ m.errorBounds[j]? = bounds[i]?
  /-- There is one timestamp column and it is at the given position. -/
  timestamp : ∀ j : Nat, (∃ c, m.schema[j]? = some c ∧ c.type = .timestamp) ↔ j = m.timestampIndex
  /-- The positions of field columns and of tag columns. -/
  fields : ∀ j : Nat, j ∈ m.fieldIndices ↔ ∃ c, m.schema[j]? = some c ∧ c.type = .value
  tags : ∀ j : Nat, j ∈ m.tagIndices ↔ ∃ c, m.schema[j]? = some c ∧ c.type = .string
  fieldsIncreasing : m.fieldIndices.Pairwise (· < ·)
  tagsIncreasing : m.tagIndices.Pairwise (· < ·)
  aField : m.fieldIndices ≠ []
  /-- Each stored column is one of the three. -/
  covered : ∀ j : Nat, j < m.schema.length → j = m.timestampIndex ∨ j ∈ m.fieldIndices ∨ j ∈ m.tagIndices
  /-- The tag columns follow the columns of the segments. -/
  compressedLength : m.compressedSchema.length = compressedSchemaBase.length + m.tagIndices.length
  compressedBase : ∀ k : Nat, k < compressedSchemaBase.length → m.compressedSchema[k]? = compressedSchemaBase[k]?
  compressedTag : ∀ k j : Nat, m.tagIndices[k]? = some j → m.compressedSchema[compressedSchemaBase.length + k]? = m.schema[j]?
  /-- Generated columns are computed from stored columns. -/
  sources : ∀ (i : Nat) (g : Generated ε), generated[i]? = some (some g) → ∀ s ∈ g.sources, generated[s]? = some none

/-- The same expression of the same columns, in any order. -/
def SameGenerated (g h : Generated ε) : Prop := g.expr = h.expr ∧ g.sources.Perm h.sources

/-- The same definition: everything but the order of the source columns of expressions is equal. -/
def SameDefinition (m n : Metadata ε) : Prop :=
  n = { m with generated := n.generated } ∧ List.Forall₂ (Option.Rel SameGenerated) m.generated n.generated

/-- An error bound that means something: an absolute error bound is a positive finite number and a relative one is in `(0, 100]`. -/
def Meaningful : ErrorBound → Prop
  | .absolute v => ∃ q : ℚ, v = .fin false q ∧ 0 < q
  | .relative v => ∃ q : ℚ, v = .fin false q ∧ 0 < q ∧ q ≤ 100
  | .lossless => True

/-- A number with a magnitude that is not negative. -/
def Proper : FVal → Prop
  | .fin _ q => 0 ≤ q
  | _ => True

end ModelarDB.Spec
