import Verif.Spec.Embedded
import Mathlib.Tactic.Tauto
/-
C44: schema compatibility is sound.
-/
namespace ModelarDB.Props
open Model Model.Embedded Spec.Embedded

variable {κ δ ν σ : Type} [DecidableEq κ] [DecidableEq δ]

theorem compatible_iff (s t : List (Column δ)) :
    schemasAreCompatible s t = true ↔ List.Forall₂ (fun a b : Column δ => a.type = b.type ∧ (a.nullable = true → b.nullable = true)) s t := by
  unfold schemasAreCompatible
  induction s generalizing t with
  | nil => cases t <;> simp
  | cons a s ih =>
    cases t with
    | nil => simp
    | cons b t =>
      have ih := ih t
      rw [List.forall₂_cons, ← ih, List.length_cons, List.length_cons, List.zip_cons_cons, List.all_cons]
      by_cases hl : s.length = t.length
      · by_cases ht : a.type = b.type
        · cases ha : a.nullable <;> cases hb : b.nullable <;> simp [hl, ht, ha, hb]
        · simp [ht]
      · simp [hl]

omit [DecidableEq δ] in
theorem rowValid_of {s t : List (Column δ)}
    (h : List.Forall₂ (fun a b : Column δ => a.type = b.type ∧ (a.nullable = true → b.nullable = true)) s t) (row : List (Cell δ ν))
    (hr : RowValid s row) : RowValid t row := by
  unfold RowValid at hr ⊢
  induction h generalizing row with
  | nil => exact hr
  | cons hab _ ih =>
    cases hr with
    | cons hc hr =>
      rename_i c row
      refine List.Forall₂.cons ?_ (ih row hr)
      cases c with
      | none => exact hab.2 hc
      | some c => exact Eq.trans hc hab.1

/-- **C44**: a schema is compatible with another exactly if every row that is valid for the first is valid for the second. -/
theorem C44_compatible [Inhabited ν] (s t : List (Column δ)) :
    schemasAreCompatible s t = true ↔ ∀ row : List (Cell δ ν), RowValid s row → RowValid t row := by
  rw [compatible_iff]
  unfold RowValid
  constructor
  · exact rowValid_of
  · induction s generalizing t with
    | nil =>
      intro h
      have := h [] List.Forall₂.nil
      cases this
      exact List.Forall₂.nil
    | cons a s ih =>
      intro h
      -- A row without nulls.
      have full : ∀ l : List (Column δ), List.Forall₂ CellValid l (l.map fun f => some (f.type, (default : ν))) := by
        intro l
        induction l with
        | nil => exact List.Forall₂.nil
        | cons f l ih => exact List.Forall₂.cons rfl ih
      have h1 := h _ (List.Forall₂.cons (show CellValid a (some (a.type, (default : ν))) from rfl) (full s))
      cases t with
      | nil => cases h1
      | cons b t =>
        refine List.Forall₂.cons ⟨?_, ?_⟩ (ih t ?_)
        · cases h1 with
          | cons hc _ => exact hc
        · intro hn
          have h2 := h _ (List.Forall₂.cons (show CellValid a (none : Cell δ ν) from hn) (full s))
          cases h2 with
          | cons hc _ => exact hc
        · intro row hr
          have h3 := h _ (List.Forall₂.cons (show CellValid a (some (a.type, (default : ν))) from rfl) hr)
          cases h3 with
          | cons _ hr => exact hr

/-- **C44**: compatibility is reflexive and transitive. -/
theorem C44_preorder (s t u : List (Column δ)) :
    schemasAreCompatible s s = true ∧
    (schemasAreCompatible s t = true → schemasAreCompatible t u = true → schemasAreCompatible s u = true) := by
  simp only [C44_compatible (ν := Unit)]
  exact ⟨fun _ h => h, fun h1 h2 row h => h2 row (h1 row h)⟩

/-- **C44**: a write that succeeds only had rows that are valid for the table, and what it adds is what the batch is encoded to. The other tables
stay as they are. -/
theorem C44_write (encode : Table δ σ → Batch δ ν → Option (List σ)) (st st' : State κ δ σ) (key : κ) (batch : Batch δ ν)
    (hb : ∀ row ∈ batch.rows, RowValid batch.schema row) (h : write encode st key batch = .ok st') :
    ∃ t items, st key = some t ∧ batch.rows ≠ [] ∧ (∀ row ∈ batch.rows, RowValid t.schema row) ∧ encode t batch = some items ∧
      st' key = some { t with items := t.items ++ items } ∧ ∀ k, k ≠ key → st' k = st k := by
  unfold write at h
  split at h
  · cases h
  · rename_i hne
    split at h
    · cases h
    · rename_i t ht
      split at h
      · cases h
      · rename_i hc
        split at h
        · cases h
        · rename_i items he
          injection h with h
          subst h
          refine ⟨t, items, ht, ?_, ?_, he, ?_, ?_⟩
          · rintro hr
            rw [hr] at hne
            exact hne rfl
          · intro row hr
            have hc : schemasAreCompatible batch.schema t.schema = true := by simpa using hc
            exact rowValid_of ((compatible_iff _ _).mp hc) row (hb row hr)
          · rw [State.append, ht]
            simp [State.set]
          · intro k hk
            rw [State.append, ht]
            simp [State.set, hk]

/-- A column without nulls can be written to one with nulls but not the reverse. -/
example : schemasAreCompatible [⟨"a", 0, false⟩, ⟨"b", 1, true⟩] [⟨"x", 0, true⟩, ⟨"y", 1, true⟩] = true ∧
    schemasAreCompatible [⟨"a", 0, true⟩] [⟨"a", (0 : Nat), false⟩] = false ∧
    schemasAreCompatible [⟨"a", 0, true⟩] [⟨"a", (1 : Nat), true⟩] = false ∧
    schemasAreCompatible [⟨"a", 0, true⟩] ([] : List (Column Nat)) = false := by
  decide +kernel

/-- A write that succeeds. -/
example : ∃ st', write (κ := Nat) (δ := Nat) (ν := Nat) (σ := List (Cell Nat Nat)) (fun _ b => some b.rows)
      (fun k => if k = 0 then some ⟨.normal, [⟨"a", 0, true⟩], [], [[none]]⟩ else none) 0 ⟨[⟨"b", 0, false⟩], [[some (0, 7)]]⟩ = .ok st' ∧
    itemsOf st' 0 = [[none], [some (0, 7)]] :=
  ⟨_, rfl, rfl⟩

end ModelarDB.Props
