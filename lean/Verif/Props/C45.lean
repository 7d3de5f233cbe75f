import Verif.Lemmas.Embedded
import Mathlib.Tactic.Tauto
/-
C45: moving a table preserves its rows.
-/
namespace ModelarDB.Props
open Model Model.Embedded Spec.Embedded Lemmas.Embedded

variable {κ δ σ : Type} [DecidableEq κ] [DecidableEq δ]

omit [DecidableEq κ] in
theorem moveScan_ok {st : State κ δ σ} {source target : κ} {items : List σ} (h : moveScan st source target = .ok items) :
    ∃ s t, st source = some s ∧ st target = some t ∧ s.kind = t.kind ∧ schemasAreCompatible s.schema t.schema = true ∧ items = s.items := by
  unfold moveScan at h
  split at h
  · rename_i s t hs ht
    split at h
    · rename_i hk
      split at h
      · cases h
      · rename_i hc
        injection h with h
        exact ⟨s, t, hs, ht, hk, by simpa using hc, h.symm⟩
    · cases h
  · cases h

/-- What `move` does, in terms of the items of each table. -/
theorem move_items (st : State κ δ σ) (source target : κ) (others₁ others₂ : Others κ σ) (writeFails truncateFails : Bool) {items : List σ}
    (h : moveScan st source target = .ok items) (k : κ) (hk : (st k).isSome) :
    itemsOf (move st source target others₁ others₂ writeFails truncateFails).1 k =
      if writeFails then itemsOf st k ++ addedTo others₁ k
      else if !truncateFails ∧ k = source then []
      else itemsOf st k ++ addedTo others₁ k ++ (if k = target then items else []) ++ addedTo others₂ k := by
  obtain ⟨s, t, hs, ht, _, _, rfl⟩ := moveScan_ok h
  unfold move
  rw [h]
  dsimp only
  by_cases hw : writeFails = true
  · rw [if_pos hw, if_pos hw, itemsOf_addOthers _ _ _ hk]
  · rw [if_neg hw, if_neg hw]
    have hsome : ((addOthers st others₁).append target s.items k).isSome := by rw [isSome_append, isSome_addOthers]; exact hk
    have h2 : itemsOf (addOthers ((addOthers st others₁).append target s.items) others₂) k =
        itemsOf st k ++ addedTo others₁ k ++ (if k = target then s.items else []) ++ addedTo others₂ k := by
      rw [itemsOf_addOthers _ _ _ hsome, itemsOf_append, itemsOf_addOthers _ _ _ hk, isSome_addOthers, ht]
      simp
    by_cases htr : truncateFails = true
    · rw [if_pos htr, if_neg (by simp [htr]), h2]
    · rw [if_neg htr]
      have hsrc : (addOthers ((addOthers st others₁).append target s.items) others₂ source).isSome := by
        rw [isSome_addOthers, isSome_append, isSome_addOthers, hs]; rfl
      cases htc : truncate (addOthers ((addOthers st others₁).append target s.items) others₂) source with
      | error e =>
        exfalso
        unfold truncate at htc
        split at htc
        · rename_i hn
          rw [hn] at hsrc
          cases hsrc
        · cases htc
      | ok st' =>
        dsimp only
        rw [itemsOf_truncate htc, h2]
        by_cases hks : k = source
        · simp [hks, htr]
        · simp [hks]

theorem move_error {st : State κ δ σ} {source target : κ} {others₁ others₂ : Others κ σ} {writeFails truncateFails : Bool} {e : Error}
    (h : moveScan st source target = .error e) : move st source target others₁ others₂ writeFails truncateFails = (st, some e) := by
  unfold move
  rw [h]

theorem move_success {st : State κ δ σ} {source target : κ} (others₁ others₂ : Others κ σ) {items : List σ}
    (h : moveScan st source target = .ok items) : (move st source target others₁ others₂ false false).2 = none := by
  obtain ⟨s, t, hs, ht, _, _, rfl⟩ := moveScan_ok h
  unfold move
  rw [h]
  dsimp only
  simp only [Bool.false_eq_true, if_false]
  cases htc : truncate (addOthers ((addOthers st others₁).append target s.items) others₂) source with
  | error e =>
    exfalso
    unfold truncate at htc
    split at htc
    · rename_i hn
      have : (addOthers ((addOthers st others₁).append target s.items) others₂ source).isSome := by
        rw [isSome_addOthers, isSome_append, isSome_addOthers, hs]; rfl
      rw [hn] at this
      cases this
    · cases htc
  | ok st' => rfl

/-- **C45** (partial): moving the data of a table to another table, while nobody else writes to the first, succeeds if both are tables of the same
kind with compatible schemas. Then the second table has its own items, those of others and the items of the first exactly once, and the first is
empty. No other table changes. Missing: moving a table to itself, see `C45_same_table`, and concurrent writes, see `C45_concurrent`. -/
theorem C45_partial (st : State κ δ σ) (source target : κ) (others₁ others₂ : Others κ σ) (s t : Table δ σ) (hs : st source = some s)
    (ht : st target = some t) (hkind : s.kind = t.kind) (hschema : schemasAreCompatible s.schema t.schema = true) (hne : source ≠ target)
    (hquiet : addedTo others₁ source = [] ∧ addedTo others₂ source = []) :
    ∀ st' e, move st source target others₁ others₂ false false = (st', e) →
      e = none ∧ (itemsOf st' target).Perm (t.items ++ (s.items ++ addedTo others₁ source ++ addedTo others₂ source) ++
        (addedTo others₁ target ++ addedTo others₂ target)) ∧ itemsOf st' source = [] ∧
      ∀ k, k ≠ source → k ≠ target → (st k).isSome → itemsOf st' k = itemsOf st k ++ addedTo others₁ k ++ addedTo others₂ k := by
  intro st' e hm
  have hscan : moveScan st source target = .ok s.items := by
    unfold moveScan
    rw [hs, ht]
    simp [hkind, hschema]
  have hi := fun k => move_items st source target others₁ others₂ false false hscan k
  rw [hm] at hi
  refine ⟨?_, ?_, ?_, ?_⟩
  · have := move_success others₁ others₂ hscan
    rw [hm] at this
    exact this
  · rw [hi target (by rw [ht]; rfl)]
    have h0 : itemsOf st target = t.items := by simp [itemsOf, ht]
    simp only [Bool.false_eq_true, if_false, hne.symm, and_false, if_true, h0, hquiet.1, hquiet.2, List.append_nil, List.append_assoc]
    refine List.Perm.append_left _ ?_
    rw [← List.append_assoc, ← List.append_assoc]
    exact List.Perm.append_right _ List.perm_append_comm
  · rw [hi source (by rw [hs]; rfl)]
    simp
  · intro k h1 h2 h3
    rw [hi k h3]
    simp [h1, h2]

/-- **C45** (partial): whichever step fails, every item of the first table is still in one of the two tables, and both tables keep what others
added. If reading or writing fails nothing is moved; if deleting fails the items are in both tables. -/
theorem C45_failed_partial (st : State κ δ σ) (source target : κ) (others₁ others₂ : Others κ σ) (writeFails truncateFails : Bool)
    (hne : source ≠ target) (hs : (st source).isSome) (hquiet : addedTo others₁ source = [] ∧ addedTo others₂ source = []) :
    ∀ st' e, move st source target others₁ others₂ writeFails truncateFails = (st', e) →
      (∀ i ∈ itemsOf st source, i ∈ itemsOf st' source ∨ i ∈ itemsOf st' target) ∧
      (∀ i ∈ itemsOf st target, i ∈ itemsOf st' target) ∧ (e ≠ none → itemsOf st' source = itemsOf st source) ∧
      ((e ≠ none ∧ (writeFails = true ∨ ∃ e', moveScan st source target = .error e')) → (st target).isSome →
        ∃ l, (l = [] ∨ l = addedTo others₁ target) ∧ itemsOf st' target = itemsOf st target ++ l) := by
  intro st' e hm
  cases hscan : moveScan st source target with
  | error e' =>
    rw [move_error hscan] at hm
    injection hm with h1 h2
    subst h1
    exact ⟨fun i hi => Or.inl hi, fun i hi => hi, fun _ => rfl, fun _ _ => ⟨[], Or.inl rfl, by simp⟩⟩
  | ok items =>
    obtain ⟨s, t, hs', ht, _, _, rfl⟩ := moveScan_ok hscan
    have hi := fun k => move_items st source target others₁ others₂ writeFails truncateFails hscan k
    rw [hm] at hi
    have h1 := hi source hs
    have h2 := hi target (by rw [ht]; rfl)
    have h0 : itemsOf st source = s.items := by simp [itemsOf, hs']
    simp only [hquiet.1, hquiet.2, List.append_nil, hne, hne.symm, and_true, and_false, if_true, if_false] at h1 h2
    refine ⟨?_, ?_, ?_, ?_⟩
    · intro i hmem
      cases writeFails with
      | true => left; rw [h1]; simpa using hmem
      | false => right; rw [h2]; rw [h0] at hmem; simp [hmem]
    · intro i hmem
      rw [h2]
      cases writeFails <;> simp [hmem]
    · intro he
      rw [h1]
      cases writeFails with
      | true => simp
      | false =>
        cases truncateFails with
        | true => simp
        | false =>
          exfalso
          have := move_success others₁ others₂ hscan
          rw [hm] at this
          exact he this
    · rintro ⟨_, hw | ⟨e', he'⟩⟩ _
      · subst hw
        exact ⟨addedTo others₁ target, Or.inr rfl, by rw [h2]; simp⟩
      · cases he'

/-- **C45** is false of the code: moving a table to itself, e.g. in a data folder that is opened twice, succeeds and deletes all of its items. -/
theorem C45_same_table (st : State κ δ σ) (key : κ) (t : Table δ σ) (ht : st key = some t) :
    ∃ st', move st key key [] [] false false = (st', none) ∧ itemsOf st' key = [] := by
  have hscan : moveScan st key key = .ok t.items := by
    unfold moveScan
    rw [ht]
    have : schemasAreCompatible t.schema t.schema = true := by
      unfold schemasAreCompatible
      rw [if_neg (by simp), List.all_eq_true]
      intro p hp
      obtain ⟨a, b⟩ := p
      have hab : a = b := by
        have hz : ∀ l : List (Column δ), (a, b) ∈ l.zip l → a = b := by
          intro l
          induction l with
          | nil => intro h; cases h
          | cons c l ih =>
            intro h
            rw [List.zip_cons_cons, List.mem_cons] at h
            rcases h with h | h
            · injection h with h1 h2; rw [h1, h2]
            · exact ih h
        exact hz _ hp
      subst hab
      cases a.nullable <;> simp
    simp [this]
  obtain ⟨st', e, hm⟩ : ∃ st' e, move st key key [] [] false false = (st', e) := ⟨_, _, rfl⟩
  have hi := move_items st key key [] [] false false hscan key (by rw [ht]; rfl)
  rw [hm] at hi
  have := move_success [] [] hscan
  rw [hm] at this
  exact ⟨st', by rw [hm]; exact congrArg _ this, by simpa using hi⟩

/-- Two tables with one row each. -/
def twoTables : State Nat Nat Nat := fun k =>
  if k = 0 then some ⟨.normal, [⟨"a", 0, true⟩], [], [10]⟩ else if k = 1 then some ⟨.normal, [⟨"b", 0, true⟩], [], [20]⟩ else none

/-- A move. -/
example : (move twoTables 0 1 [(1, [21])] [] false false).2 = none ∧ itemsOf (move twoTables 0 1 [(1, [21])] [] false false).1 1 = [20, 21, 10] ∧
    itemsOf (move twoTables 0 1 [(1, [21])] [] false false).1 0 = [] := by decide +kernel

/-- **C45** is false of the code if others write to the table while its data is moved: what they write is deleted. -/
theorem C45_concurrent : (move twoTables 0 1 [(0, [11])] [] false false).2 = none ∧
    11 ∉ itemsOf (move twoTables 0 1 [(0, [11])] [] false false).1 0 ∧ 11 ∉ itemsOf (move twoTables 0 1 [(0, [11])] [] false false).1 1 := by
  decide +kernel

/-- Moving a table keeps all rows if and only if nobody else writes to the first table: the rows that are written to it meanwhile are lost, although no
error is returned. -/
theorem C45_concurrent_iff (st : State κ δ σ) (source target : κ) (others₁ others₂ : Others κ σ) (s t : Table δ σ) (hs : st source = some s)
    (ht : st target = some t) (hkind : s.kind = t.kind) (hschema : schemasAreCompatible s.schema t.schema = true) (hne : source ≠ target) :
    ∀ st' e, move st source target others₁ others₂ false false = (st', e) → e = none ∧ itemsOf st' source = [] ∧
      (itemsOf st' target).Perm (t.items ++ s.items ++ (addedTo others₁ target ++ addedTo others₂ target)) ∧
      ((itemsOf st' source ++ itemsOf st' target).Perm (t.items ++ (s.items ++ addedTo others₁ source ++ addedTo others₂ source) ++
        (addedTo others₁ target ++ addedTo others₂ target)) ↔ addedTo others₁ source = [] ∧ addedTo others₂ source = []) := by
  intro st' e hm
  have hscan : moveScan st source target = .ok s.items := by
    unfold moveScan
    rw [hs, ht]
    simp [hkind, hschema]
  have hi := fun k => move_items st source target others₁ others₂ false false hscan k
  rw [hm] at hi
  have hsource : itemsOf st' source = [] := by
    rw [hi source (by rw [hs]; rfl)]
    simp
  have htarget : (itemsOf st' target).Perm (t.items ++ s.items ++ (addedTo others₁ target ++ addedTo others₂ target)) := by
    rw [hi target (by rw [ht]; rfl)]
    have h0 : itemsOf st target = t.items := by simp [itemsOf, ht]
    simp only [Bool.false_eq_true, if_false, hne.symm, and_false, if_true, h0, List.append_assoc]
    refine List.Perm.append_left _ ?_
    rw [← List.append_assoc, ← List.append_assoc]
    exact List.Perm.append_right _ List.perm_append_comm
  refine ⟨?_, hsource, htarget, ?_⟩
  · have := move_success others₁ others₂ hscan
    rw [hm] at this
    exact this
  · rw [hsource, List.nil_append]
    constructor
    · intro h
      have h1 := h.length_eq
      rw [htarget.length_eq] at h1
      simp only [List.length_append] at h1
      exact ⟨List.length_eq_zero_iff.mp (by omega), List.length_eq_zero_iff.mp (by omega)⟩
    · rintro ⟨h1, h2⟩
      rw [h1, h2, List.append_nil, List.append_nil]
      exact htarget

/-- If deleting fails, each further attempt adds the rows to the second table again, for all tables. -/
theorem C45_duplicated_all (st : State κ δ σ) (source target : κ) (s t : Table δ σ) (hs : st source = some s) (ht : st target = some t)
    (hkind : s.kind = t.kind) (hschema : schemasAreCompatible s.schema t.schema = true) (hne : source ≠ target) :
    itemsOf (move st source target [] [] false true).1 source = s.items ∧
      itemsOf (move st source target [] [] false true).1 target = t.items ++ s.items ∧
      (moveScan (move st source target [] [] false true).1 source target = .ok s.items) ∧
      itemsOf (move (move st source target [] [] false true).1 source target [] [] false false).1 target = t.items ++ s.items ++ s.items := by
  have hscan : moveScan st source target = .ok s.items := by
    unfold moveScan
    rw [hs, ht]
    simp [hkind, hschema]
  have hi := fun k => move_items st source target [] [] false true hscan k
  have h1 : itemsOf (move st source target [] [] false true).1 source = s.items := by
    rw [hi source (by rw [hs]; rfl)]
    simp [itemsOf, hs, addedTo, hne]
  have h2 : itemsOf (move st source target [] [] false true).1 target = t.items ++ s.items := by
    rw [hi target (by rw [ht]; rfl)]
    simp [itemsOf, ht, addedTo]
  have hmove : (move st source target [] [] false true).1 = st.append target s.items := by
    unfold move
    rw [hscan]
    simp [addOthers]
  have h3 : moveScan (move st source target [] [] false true).1 source target = .ok s.items := by
    rw [hmove]
    unfold moveScan State.append State.set
    simp [hs, ht, hne, hkind, hschema]
  refine ⟨h1, h2, h3, ?_⟩
  rw [move_items _ source target [] [] false false h3 target (by rw [hmove]; simp [State.append, State.set, ht]), h2]
  simp [addedTo, hne.symm]

/-- **C45** is false of the code if deleting fails: the rows are in both tables, and after another attempt twice in the second. -/
theorem C45_duplicated : itemsOf (move twoTables 0 1 [] [] false true).1 0 = [10] ∧ itemsOf (move twoTables 0 1 [] [] false true).1 1 = [20, 10] ∧
    itemsOf (move (move twoTables 0 1 [] [] false true).1 0 1 [] [] false false).1 1 = [20, 10, 10] := by
  decide +kernel

end ModelarDB.Props
