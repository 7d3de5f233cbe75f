import Verif.Props.C36
/-
C37: a failed read is reported.
-/
namespace ModelarDB.Props
open Model.Query Spec Lemmas

/-- The input of a field that will still fail. -/
def WillFail {σ : Type} (g : GridStream (List (Event (List σ)))) : Prop := .error ∈ g.input

theorem pollGrid_willFail {σ : Type} (points : σ → List Point) (p : Option (Point → Bool)) (n : Nat)
    (g : GridStream (List (Event (List σ)))) (h : WillFail g) :
    (pollGrid points p n pollEvents g).1 = .error ∨
      (pollGrid points p n pollEvents g).1 ≠ .done ∧ WillFail (pollGrid points p n pollEvents g).2 := by
  unfold WillFail at h ⊢
  unfold pollGrid
  split
  · cases hi : g.input with
    | nil => rw [hi] at h; cases h
    | cons e es =>
      rw [hi] at h
      cases e with
      | pending =>
        right
        simp only [pollEvents]
        exact ⟨by simp, by simpa using h⟩
      | error => left; rfl
      | item b =>
        right
        simp only [pollEvents]
        obtain ⟨g', he, hin, _⟩ := emitNext_eq n (⟨es, gridAndAppend points p g.current g.offset b, 0⟩ : GridStream _)
        rw [he]
        refine ⟨by simp, ?_⟩
        rw [hin]
        simpa using h
  · right
    obtain ⟨g', he, hin, _⟩ := emitNext_eq n g
    rw [he]
    exact ⟨by simp, by rw [hin]; exact h⟩

/-- **C37** for queries that read one field, whatever the batches and the time at which they are ready: if reading the field fails the query
does not end normally. -/
theorem C37_one_field_partial {σ : Type} (points : σ → List Point) (predicate : Option (Point → Bool)) (batchSize : Nat)
    (tagNames : List String) (order : List JoinColumn) (events : Nat → List (Event (List σ))) (i : Nat) (herror : .error ∈ events i) (m : Nat) :
    (drain (pollJoin tagNames order (pollGrid points predicate batchSize pollEvents)) m (inputsOf [i] events)).2 ≠ .finished := by
  suffices h : ∀ (g : GridStream (List (Event (List σ)))), WillFail g →
      (drain (pollJoin tagNames order (pollGrid points predicate batchSize pollEvents)) m [(none, g)]).2 ≠ .finished from
    h _ herror
  intro g hg
  induction m generalizing g with
  | zero => simp [drain]
  | succ m ih =>
    rw [drain]
    rcases hp : pollGrid points predicate batchSize pollEvents g with ⟨r, g'⟩
    have hw := pollGrid_willFail points predicate batchSize g hg
    rw [hp] at hw
    cases r with
    | error => simp [pollJoin, pollInputs, hp]
    | done => simp at hw
    | pending =>
      simp only [pollJoin, pollInputs, hp]
      refine ih g' ?_
      rcases hw with h | h
      · cases h
      · exact h.2
    | item b =>
      have hg' : WillFail g' := by
        rcases hw with h | h
        · cases h
        · exact h.2
      simp only [pollJoin, pollInputs, hp, allBatches, Option.map_some, bind, Option.bind_some]
      cases sortedJoin tagNames order (sliceToSmallest [b]) with
      | none => simp
      | some columns =>
        simp only [Option.bind_some, pure, List.map_cons, List.map_nil]
        exact ih g' hg'

/-- **C37** for queries that read several fields, in the part that holds: the query fails if reading a field fails and a batch of each field
after it is there or becomes ready at the same time. The other cases are not shown, the property is false for them, see `C37_error_lost`. -/
theorem C37_reported_partial {S : Type} (poll : Poller S (List Point)) (tagNames : List String) (order : List JoinColumn)
    (before after : List (Option (List Point) × S)) (s : S) (hs : (poll s).1 = .error)
    (hafter : ∀ slot ∈ after, slot.1.isSome ∨ ∃ b, (poll slot.2).1 = .item b) :
    ∃ slots, pollJoin tagNames order poll (before ++ (none, s) :: after) = some (.error, slots) := by
  have hrest : ∀ reason, (pollInputs poll reason after).1 = reason := by
    induction after with
    | nil => intro reason; rfl
    | cons slot after ih =>
      intro reason
      have ih := ih fun x hx => hafter x (List.mem_cons_of_mem _ hx)
      obtain ⟨b, t⟩ := slot
      cases b with
      | some b => simp only [pollInputs]; exact ih reason
      | none =>
        rcases hafter (none, t) (by simp) with h | ⟨b, h⟩
        · cases h
        · rcases hp : poll t with ⟨r, t'⟩
          rw [hp] at h
          dsimp only at h
          subst h
          simp only [pollInputs, hp]
          exact ih reason
  have hall : ∀ reason, (pollInputs poll reason (before ++ (none, s) :: after)).1 = some .error := by
    induction before with
    | nil =>
      intro reason
      rcases hp : poll s with ⟨r, s'⟩
      rw [hp] at hs
      dsimp only at hs
      subst hs
      simp only [List.nil_append, pollInputs, hp]
      exact hrest _
    | cons slot before ih =>
      intro reason
      obtain ⟨b, t⟩ := slot
      cases b with
      | some b => simp only [List.cons_append, pollInputs]; exact ih reason
      | none =>
        rcases hp : poll t with ⟨r, t'⟩
        cases r with
        | item b => simp only [List.cons_append, pollInputs, hp]; exact ih reason
        | pending => simp only [List.cons_append, pollInputs, hp]; exact ih _
        | error => simp only [List.cons_append, pollInputs, hp]; exact ih _
        | done => simp only [List.cons_append, pollInputs, hp]; exact ih _
  refine ⟨(pollInputs poll none (before ++ (none, s) :: after)).2, ?_⟩
  unfold pollJoin
  rw [show pollInputs poll none (before ++ (none, s) :: after) =
    (some .error, (pollInputs poll none (before ++ (none, s) :: after)).2) from Prod.ext (hall none) rfl]

/-- Two fields: reading the first one fails while the second one is not ready. -/
def failingEvents (i : Nat) : List (Event (List ListSegment)) :=
  if i = 1 then [.error, .item [⟨[], (1, 11), []⟩]] else [.pending, .item [⟨[], (1, 12), []⟩]]

/-- A query for both fields in the other order fails. -/
example : drain (pollJoin [] [.timestamp, .field, .field] (pollGrid listSegment.points none 8192 pollEvents)) 9
    (inputsOf [2, 1] failingEvents) = ([], .failed) := by decide +kernel

example : (pollGrid listSegment.points none 8192 pollEvents (.new (failingEvents 1))).1 = .error := by decide +kernel

/-- The first field fails after a batch while the second one is not ready. The stream of a field that failed is finished. -/
def lostErrorEvents (i : Nat) : List (Event (List ListSegment)) :=
  if i = 1 then [.item [⟨[], (1, 11), []⟩], .error] else [.item [⟨[], (1, 12), []⟩], .pending, .item [⟨[], (2, 22), []⟩]]

/-- **C37** is false of the code if several fields are read: reading the second column fails after the first row, but the query ends normally
with one row although the third column has two. -/
theorem C37_error_lost :
    .error ∈ lostErrorEvents 1 ∧ ∃ out,
      drain (pollJoin [] [.timestamp, .field, .field] (pollGrid listSegment.points none 8192 pollEvents)) 9 (inputsOf [1, 2] lostErrorEvents) =
        (out, .finished) ∧
      out.flatMap rowsOfColumns = [[.time 1, .value 11, .value 12]] := by
  refine ⟨by decide, _, rfl, ?_⟩
  decide +kernel

/-- **C37** is false of the code also without waiting: the error of the second column is lost if the third column has no more rows. -/
theorem C37_error_lost_at_end :
    ∃ out, drain (pollJoin [] [.timestamp, .field, .field] (pollGrid listSegment.points none 8192 pollEvents)) 9
        (inputsOf [1, 2] fun i => if i = 1 then [.error] else []) = (out, .finished) :=
  ⟨[], by decide +kernel⟩

end ModelarDB.Props
