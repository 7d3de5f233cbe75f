import Verif.Spec.EmbeddedCopy
import Verif.Props.C64
/-
C83: Copying the result of a query to a table adds exactly the rows of the result to it, or nothing.
-/
namespace ModelarDB.Props
open Model Model.Embedded Model.EmbeddedCopy Spec.EmbeddedCopy

section
variable {κ δ ν σ τ β : Type} [DecidableEq κ] [DecidableEq δ]

omit [DecidableEq δ] in
theorem copy_collect {batches : List (Option (Batch δ ν))} {bs : List (Batch δ ν)} : collect batches = some bs ↔ batches = bs.map some := by
  induction batches generalizing bs with
  | nil =>
    cases bs <;> simp [collect]
  | cons b batches ih =>
    cases b with
    | none => cases bs <;> simp [collect]
    | some b =>
      rw [collect, Option.map_eq_some_iff]
      constructor
      · rintro ⟨cs, h, rfl⟩
        rw [ih.mp h, List.map_cons]
      · intro h
        cases bs with
        | nil => cases h
        | cons c cs =>
          rw [List.map_cons, List.cons.injEq, Option.some.injEq] at h
          obtain ⟨rfl, h⟩ := h
          exact ⟨cs, ih.mpr h, rfl⟩

omit [DecidableEq δ] in
theorem copy_added {st : State κ δ σ} {key : κ} {t : Table δ σ} (h : st key = some t) (items : List σ) :
    Added key items st (st.append key items) := by
  unfold State.append
  rw [h]
  refine ⟨⟨t, h, by simp [State.set]⟩, ?_⟩
  intro k hk
  simp [State.set, hk]

/-- **C83** for data folders: if copying succeeds the target is a normal table with the schema of the result, exactly the rows of the result are added
to it in order and nothing else changes, and if it fails nothing changes. -/
theorem C83_folder {item : List (Cell δ ν) → σ} {encode : Table δ σ → List (Batch δ ν) → Option (List σ)} (hs : Stores item encode)
    (st : State κ δ σ) (target : Option κ) (answer : Option (Answer δ ν)) :
    ((copyFolder encode st target answer).2 = none → ∃ key t a batches, target = some key ∧ st key = some t ∧ t.kind = .normal ∧ answer = some a ∧
      a.schema = t.schema ∧ Complete a batches ∧ Added key ((rowsOf batches).map item) st (copyFolder encode st target answer).1) ∧
    ((copyFolder encode st target answer).2 ≠ none → (copyFolder encode st target answer).1 = st) := by
  unfold copyFolder
  split
  · simp
  · rename_i key
    split
    · simp
    · rename_i t ht
      split
      · simp
      · rename_i hk
        rw [ne_eq, not_not] at hk
        split
        · simp
        · rename_i a
          split
          · simp
          · rename_i hschema
            rw [ne_eq, not_not] at hschema
            split
            · simp
            · rename_i batches hb
              split
              · simp
              · rename_i items hi
                refine ⟨fun _ => ⟨key, t, a, batches, rfl, ht, hk, rfl, hschema, copy_collect.mp hb, ?_⟩, by simp⟩
                rw [hs.rows t batches items hk hi]
                exact copy_added ht _

/-- **C83** for data folders: the result of a query is copied if the target is a normal table with its schema and it can be read and written. -/
theorem C83_folder_succeeds {encode : Table δ σ → List (Batch δ ν) → Option (List σ)} (st : State κ δ σ) (key : κ) (t : Table δ σ) (a : Answer δ ν)
    (batches : List (Batch δ ν)) (ht : st key = some t) (hk : t.kind = .normal) (hschema : a.schema = t.schema) (hb : Complete a batches)
    (he : (encode t batches).isSome = true) : (copyFolder encode st (some key) (some a)).2 = none := by
  unfold copyFolder
  obtain ⟨items, hi⟩ := Option.isSome_iff_exists.mp he
  simp only [ht, hk, hschema, copy_collect.mpr hb, hi, ne_eq, not_true_eq_false, if_false]

/-- The batches that are written. -/
theorem copy_loop {write : τ → β → τ × Option Error} {Wrote : τ → List β → τ → Prop} (hnil : ∀ st, Wrote st [] st)
    (hcons : ∀ st b st' bs st'', write st b = (st', none) → Wrote st' bs st'' → Wrote st (b :: bs) st'')
    (hfail : ∀ st b st' e, write st b = (st', some e) → Wrote st [] st') : ∀ (batches : List (Option β)) (st : τ),
    ∃ done, Wrote st done (copyLoop write st batches).1 ∧ done.map some <+: batches ∧
      ((copyLoop write st batches).2 = none ↔ batches = done.map some)
  | [], st => ⟨[], hnil st, by simp, by simp [copyLoop]⟩
  | none :: rest, st => ⟨[], hnil st, by simp, by simp [copyLoop]⟩
  | some b :: rest, st => by
    unfold copyLoop
    split
    · rename_i st' e h
      exact ⟨[], hfail _ _ _ _ h, by simp, by simp⟩
    · rename_i st' h
      obtain ⟨done, h1, h2, h3⟩ := copy_loop hnil hcons hfail rest st'
      refine ⟨b :: done, hcons _ _ _ _ _ h h1, by simpa using h2, ?_⟩
      rw [h3]
      simp

/-- A write to a normal table in a data folder. -/
theorem copy_writeFolder {item : List (Cell δ ν) → σ} {encode : Table δ σ → Batch δ ν → Option (List σ)} (hs : StoresEach item encode) {key : κ}
    {st : State κ δ σ} {t : Table δ σ} (ht : st key = some t) (hk : t.kind = .normal) (b : Batch δ ν) :
    (∃ e, writeFolder encode key st b = (st, some e)) ∨
      ∃ st', writeFolder encode key st b = (st', none) ∧ Added key (b.rows.map item) st st' := by
  unfold writeFolder write
  rw [ht]
  by_cases h1 : b.rows.length = 0
  · rw [if_pos h1]
    exact .inl ⟨_, rfl⟩
  · rw [if_neg h1]
    simp only
    by_cases h2 : (!schemasAreCompatible b.schema t.schema) = true
    · rw [if_pos h2]
      exact .inl ⟨_, rfl⟩
    · rw [if_neg h2]
      cases h3 : encode t b with
      | none => exact .inl ⟨_, rfl⟩
      | some items =>
        refine .inr ⟨_, rfl, ?_⟩
        rw [hs.rows t b items hk h3]
        exact copy_added ht _

omit [DecidableEq κ] [DecidableEq δ] in
theorem copy_added_refl {st : State κ δ σ} {key : κ} {t : Table δ σ} (ht : st key = some t) : Added key [] st st :=
  ⟨⟨t, ht, by rw [ht, List.append_nil]⟩, fun _ _ => rfl⟩

omit [DecidableEq κ] [DecidableEq δ] in
theorem copy_added_trans {st st' st'' : State κ δ σ} {key : κ} {xs ys : List σ} (h : Added key xs st st') (h' : Added key ys st' st'') :
    Added key (xs ++ ys) st st'' := by
  obtain ⟨t, h1, h2⟩ := h.table
  obtain ⟨t', h3, h4⟩ := h'.table
  rw [h2] at h3
  injection h3 with h3
  subst h3
  refine ⟨⟨t, h1, by rw [h4, List.append_assoc]⟩, ?_⟩
  intro k hk
  rw [h'.others k hk, h.others k hk]

/-- **C83** for clients that copy to a normal table in a data folder, partial: the rows of the first batches are added and nothing else changes, and
these are all batches if and only if copying succeeds. Missing: nothing is added if copying fails, which is false, see below. -/
theorem C83_client_partial {item : List (Cell δ ν) → σ} {encode : Table δ σ → Batch δ ν → Option (List σ)} (hs : StoresEach item encode) (key : κ)
    (st : State κ δ σ) (t : Table δ σ) (ht : st key = some t) (hk : t.kind = .normal) (a : Answer δ ν) :
    ∃ done, done.map some <+: a.batches ∧
      Added key ((rowsOf done).map item) st (copyClient (writeFolder encode key) st (some a.batches)).1 ∧
      ((copyClient (writeFolder encode key) st (some a.batches)).2 = none ↔ Complete a done) := by
  have key' := copy_loop (write := writeFolder encode key)
    (Wrote := fun st done st' => ∀ t, st key = some t → t.kind = .normal → Added key ((rowsOf done).map item) st st') ?_ ?_ ?_ a.batches st
  · obtain ⟨done, h1, h2, h3⟩ := key'
    exact ⟨done, h2, h1 t ht hk, h3⟩
  · intro st t ht _
    exact copy_added_refl ht
  · intro st b st' bs st'' hw h t ht hk
    rcases copy_writeFolder hs ht hk b with ⟨e, h'⟩ | ⟨st₁, h', hadd⟩
    · rw [hw] at h'
      injection h' with _ h'
      cases h'
    · rw [hw] at h'
      injection h' with h'
      subst h'
      obtain ⟨t', ht', ht''⟩ := hadd.table
      rw [ht] at ht'
      injection ht' with ht'
      subst ht'
      have := copy_added_trans hadd (h _ ht'' hk)
      rwa [← List.map_append] at this
  · intro st b st' e hw t ht hk
    rcases copy_writeFolder hs ht hk b with ⟨e', h'⟩ | ⟨st₁, h', -⟩
    · rw [hw] at h'
      injection h' with h'
      subst h'
      exact copy_added_refl ht
    · rw [hw] at h'
      injection h' with _ h'
      cases h'

/-- **C83** for clients that copy to a data folder, partial: copying succeeds and all rows are added if the result is complete, has no empty batch, and
all batches have a schema that is compatible with that of the table and can be written. -/
theorem C83_client_succeeds_partial {item : List (Cell δ ν) → σ} {encode : Table δ σ → Batch δ ν → Option (List σ)} (hs : StoresEach item encode)
    (key : κ) (st : State κ δ σ) (t : Table δ σ) (ht : st key = some t) (hk : t.kind = .normal) (a : Answer δ ν) (batches : List (Batch δ ν))
    (hb : Complete a batches) (hrows : ∀ b ∈ batches, b.rows ≠ []) (hschema : ∀ b ∈ batches, schemasAreCompatible b.schema t.schema = true)
    (hencode : ∀ b ∈ batches, ∀ t', (encode t' b).isSome = true) :
    (copyClient (writeFolder encode key) st (some a.batches)).2 = none ∧
      Added key ((rowsOf batches).map item) st (copyClient (writeFolder encode key) st (some a.batches)).1 := by
  have hok : ∀ (batches : List (Batch δ ν)) (st : State κ δ σ) (t' : Table δ σ), st key = some t' → t'.kind = .normal → t'.schema = t.schema →
      (∀ b ∈ batches, b.rows ≠ []) → (∀ b ∈ batches, schemasAreCompatible b.schema t.schema = true) → (∀ b ∈ batches, ∀ t', (encode t' b).isSome = true) →
      (copyLoop (writeFolder encode key) st (batches.map some)).2 = none := by
    intro batches
    induction batches with
    | nil => intros; rfl
    | cons b batches ih =>
      intro st t' ht' hk' hsch h1 h2 h3
      rw [List.map_cons, copyLoop]
      obtain ⟨items, hi⟩ := Option.isSome_iff_exists.mp (h3 b (by simp) t')
      have hw : writeFolder encode key st b = (st.append key items, none) := by
        unfold writeFolder write
        rw [if_neg (by simpa using h1 b (by simp)), ht']
        simp only [hsch, h2 b (by simp), hi, Bool.not_true, Bool.false_eq_true, if_false]
      rw [hw]
      refine ih _ { t' with items := t'.items ++ items } ?_ hk' hsch (fun b hb => h1 b (by simp [hb])) (fun b hb => h2 b (by simp [hb]))
        (fun b hb => h3 b (by simp [hb]))
      unfold State.append
      rw [ht']
      simp [State.set]
  have hnone : (copyClient (writeFolder encode key) st (some a.batches)).2 = none := by
    unfold copyClient
    rw [hb]
    exact hok batches st t ht hk rfl hrows hschema hencode
  refine ⟨hnone, ?_⟩
  obtain ⟨done, -, h2, h3⟩ := C83_client_partial hs key st t ht hk a
  have hd := h3.mp hnone
  unfold Complete at hb hd
  rw [hb] at hd
  have : batches = done := List.map_injective_iff.mpr (Option.some_injective _) hd
  rw [this]
  exact h2

end

/-- **C83** for clients that copy to a server, partial: the server ingests all parts of all batches of the result if they have the schema of the table
and the server can store them. -/
theorem C83_to_server_partial (utf8 : List Nat → Bool) (parts : FlightPut.Batch → List FlightPut.Batch) (stores : Nat → Bool)
    (table : List FlightPut.Field) (ingested batches : List FlightPut.Batch) (ht : ∀ b ∈ batches, ∀ p ∈ parts b, Spec.TypedBatch utf8 p)
    (hschema : ∀ b ∈ batches, ∀ p ∈ parts b, p.schema = table) (hstores : ∀ i, stores i = true) :
    copyClient (writeServer utf8 parts stores table) ingested (some (batches.map some)) = (ingested ++ batches.flatMap parts, none) := by
  unfold copyClient
  simp only
  induction batches generalizing ingested with
  | nil => simp [copyLoop]
  | cons b batches ih =>
    have hput := (C64_put_partial utf8 stores table (parts b) (ht b (by simp)) (hschema b (by simp)) fun i _ => hstores i).1
    rw [List.map_cons, copyLoop]
    have hw : writeServer utf8 parts stores table ingested b = (ingested ++ parts b, none) := by
      unfold writeServer
      rw [hput]
    rw [hw]
    simp only
    rw [ih _ (fun b hb => ht b (by simp [hb])) fun b hb => hschema b (by simp [hb])]
    simp

/-! ### Concrete cases -/

/-- Tables with rows of numbers. -/
abbrev CopyState := State String Nat (List (Cell Nat Nat))

/-- A table with two columns, and a time series table with the same columns. -/
def copyTables : CopyState := fun name =>
  if name = "n" then some ⟨.normal, [⟨"a", 1, false⟩, ⟨"b", 1, false⟩], [], [[some (1, 0), some (1, 0)]]⟩
  else if name = "s" then some ⟨.timeSeries, [⟨"a", 1, false⟩, ⟨"b", 1, false⟩], [.lossless, .absolute (.fin false 1)], []⟩
  else none

/-- A batch with one row. -/
def copyBatch (x y : Nat) : Batch Nat Nat := ⟨[⟨"a", 1, false⟩, ⟨"b", 1, false⟩], [[some (1, x), some (1, y)]]⟩

/-- The rows are what is stored. -/
def copyRows (_ : Table Nat (List (Cell Nat Nat))) (batches : List (Batch Nat Nat)) : Option (List (List (Cell Nat Nat))) := some (rowsOf batches)

/-- The rows of one batch. -/
def copyRowsEach (_ : Table Nat (List (Cell Nat Nat))) (batch : Batch Nat Nat) : Option (List (List (Cell Nat Nat))) := some batch.rows

theorem copyRows_stores : Stores id copyRows := ⟨fun _ _ _ _ h => by injection h with h; rw [← h, List.map_id]⟩

theorem copyRowsEach_stores : StoresEach id copyRowsEach := ⟨fun _ _ _ _ h => by injection h with h; rw [← h, List.map_id]⟩

/-- The rows of a table and whether copying succeeded. -/
def copied (name : String) (r : CopyState × Option Error) : Option (List (List (Cell Nat Nat))) × Option Error := ((r.1 name).map (·.items), r.2)

/-- The hypotheses can be met: two batches are copied to the normal table of a data folder by a data folder and by a client. -/
example : copied "n" (copyFolder copyRows copyTables (some "n") (some ⟨(copyBatch 1 2).schema, [some (copyBatch 1 2), some (copyBatch 3 4)]⟩)) =
      (some [[some (1, 0), some (1, 0)], [some (1, 1), some (1, 2)], [some (1, 3), some (1, 4)]], none) ∧
    copied "n" (copyClient (writeFolder copyRowsEach "n") copyTables (some [some (copyBatch 1 2), some (copyBatch 3 4)])) =
      (some [[some (1, 0), some (1, 0)], [some (1, 1), some (1, 2)], [some (1, 3), some (1, 4)]], none) := by
  constructor <;> decide

/-- A result that ends with an error after the first batch. -/
def brokenAnswer : Answer Nat Nat := ⟨(copyBatch 1 2).schema, [some (copyBatch 1 2), none]⟩

/-- **C83** is false for clients: when reading the result fails in the middle the rows before are kept, so that they are in the table twice when copying
is tried again. A data folder adds nothing. -/
theorem C83_client_half :
    copied "n" (copyClient (writeFolder copyRowsEach "n") copyTables (some brokenAnswer.batches)) =
      (some [[some (1, 0), some (1, 0)], [some (1, 1), some (1, 2)]], some .failed) ∧
    copied "n" (copyClient (writeFolder copyRowsEach "n") (copyClient (writeFolder copyRowsEach "n") copyTables (some brokenAnswer.batches)).1
        (some [some (copyBatch 1 2), some (copyBatch 3 4)])) =
      (some [[some (1, 0), some (1, 0)], [some (1, 1), some (1, 2)], [some (1, 1), some (1, 2)], [some (1, 3), some (1, 4)]], none) ∧
    copied "n" (copyFolder copyRows copyTables (some "n") (some brokenAnswer)) = (some [[some (1, 0), some (1, 0)]], some .failed) := by
  refine ⟨?_, ?_, ?_⟩ <;> decide

/-- **C83** is false for clients: a result is copied to a time series table, whose values are then approximated twice, contrary to the documentation. A
data folder refuses. -/
theorem C83_client_time_series :
    (copyClient (writeFolder copyRowsEach "s") copyTables (some [some (copyBatch 1 2)])).2 = none ∧
    (copyFolder copyRows copyTables (some "s") (some ⟨(copyBatch 1 2).schema, [some (copyBatch 1 2)]⟩)).2 = some .notTable := by
  constructor <;> decide

/-- **C83** is false for clients: a result without batches is copied without an error to a table that does not exist, and one with an empty batch cannot be
copied to a data folder. A data folder refuses the first and copies the second. -/
theorem C83_client_empty :
    (copyClient (writeFolder copyRowsEach "missing") copyTables (some [])).2 = none ∧
    (copyFolder copyRows copyTables (some "missing") (some ⟨[], []⟩)).2 = some .notTable ∧
    copied "n" (copyClient (writeFolder copyRowsEach "n") copyTables (some [some (copyBatch 1 2), some { copyBatch 3 4 with rows := [] }, some (copyBatch 5 6)])) =
      (some [[some (1, 0), some (1, 0)], [some (1, 1), some (1, 2)]], some .empty) ∧
    copied "n" (copyFolder copyRows copyTables (some "n")
        (some ⟨(copyBatch 1 2).schema, [some (copyBatch 1 2), some { copyBatch 3 4 with rows := [] }, some (copyBatch 5 6)]⟩)) =
      (some [[some (1, 0), some (1, 0)], [some (1, 1), some (1, 2)], [some (1, 5), some (1, 6)]], none) := by
  refine ⟨?_, ?_, ?_, ?_⟩ <;> decide

/-- **C83** is false for clients that copy to a server: a result with the columns in another order is stored in the wrong columns without an error. -/
theorem C83_to_server_other_order : ∃ r,
    copyClient (writeServer ascii (fun b => [b]) (fun _ => true) windTable) [] (some [some swapped]) = ([r], none) ∧
      Spec.valueOf r 0 "speed" = Spec.valueOf swapped 0 "power" ∧ Spec.valueOf r 0 "speed" ≠ Spec.valueOf swapped 0 "speed" := by
  obtain ⟨h1, ⟨r, h2, h3, h4⟩, -⟩ := C64_other_order
  refine ⟨r, ?_, h3, h4⟩
  unfold copyClient
  simp only [copyLoop, writeServer]
  have : FlightPut.put ascii (fun _ => true) windTable [swapped] = ([r], true) := Prod.ext h2 h1
  rw [this]
  rfl

end ModelarDB.Props
