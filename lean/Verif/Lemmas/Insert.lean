import Verif.Spec.Insert
import Verif.Lemmas.TableDefinition
import Verif.Lemmas.QueryFilter
/-
Lemmas about INSERT, for C71.
-/
namespace ModelarDB.Lemmas.Insert
open Model.TableDefinition Model.Query Model.Insert Spec Lemmas

variable {ε : Type}

theorem mapM_iff {α β : Type} {f : α → Option β} : ∀ {l : List α} {r : List β}, l.mapM f = some r ↔ List.Forall₂ (fun a b => f a = some b) l r
  | [], r => by
    rw [List.mapM_nil]
    constructor
    · intro h; cases h; exact .nil
    · intro h; cases h; rfl
  | a :: l, r => by
    rw [List.mapM_cons]
    constructor
    · intro h
      cases ha : f a with
      | none => rw [ha] at h; cases h
      | some b =>
        cases hl : l.mapM f with
        | none => rw [ha, hl] at h; cases h
        | some bs =>
          rw [ha, hl] at h
          cases h
          exact .cons ha (mapM_iff.mp hl)
    · intro h
      cases h with
      | cons hb hr => rw [hb, mapM_iff.mpr hr]; rfl

theorem forall₂_getElem {α β : Type} {R : α → β → Prop} : ∀ {l : List α} {r : List β}, List.Forall₂ R l r →
    l.length = r.length ∧ ∀ (i : Nat) (a : α), l[i]? = some a → ∃ b, r[i]? = some b ∧ R a b
  | _, _, .nil => ⟨rfl, fun i a h => by simp at h⟩
  | _, _, .cons hb hr => by
    obtain ⟨hl, hi⟩ := forall₂_getElem hr
    refine ⟨by simp [hl], fun i a h => ?_⟩
    cases i with
    | zero => simp at h; subst h; exact ⟨_, rfl, hb⟩
    | succ i => exact hi i a (by simpa using h)

theorem forall₂_trans {α β γ : Type} {R : α → β → Prop} {S : β → γ → Prop} {T : α → γ → Prop} (h : ∀ a b c, R a b → S b c → T a c) :
    ∀ {l : List α} {r : List β} {t : List γ}, List.Forall₂ R l r → List.Forall₂ S r t → List.Forall₂ T l t
  | _, _, _, .nil, .nil => .nil
  | _, _, _, .cons h1 hr, .cons h2 ht => .cons (h _ _ _ h1 h2) (forall₂_trans h hr ht)

theorem planRow_storedAs {schema : List Column} {columns : List String} {row p : Row} (h : planRow schema columns row = some p) :
    row.length = columns.length ∧ StoredAs schema columns row p := by
  unfold planRow at h
  split at h
  · cases h
  · rename_i hlen
    have hlen : row.length = columns.length := by simpa using hlen
    cases h
    refine ⟨hlen, by simp, fun j c hc => ?_⟩
    rw [List.getElem?_map, hc]
    refine ⟨_, rfl, ?_⟩
    cases hf : columns.findIdx? fun name => name = c.name with
    | none =>
      right
      have hf' := hf
      rw [List.findIdx?_eq_none_iff] at hf
      exact ⟨fun hm => by simpa using hf _ hm, by simp only [hf']⟩
    | some i =>
      left
      obtain ⟨hi, hp, -⟩ := List.findIdx?_eq_some_iff_getElem.mp hf
      refine ⟨i, ?_, ?_⟩
      · rw [List.getElem?_eq_getElem hi]; simpa using hp
      · simp only [hf, List.getElem?_eq_getElem (hlen ▸ hi : i < row.length), Option.getD_some]

theorem project_storedAs {qs : List Column} {bs : List Model.ErrorBound} {gs : List (Option (Generated ε))} {m : Metadata ε}
    (hm : Consistent qs bs gs m) {columns : List String} {given p : Row} (hp : StoredAs qs columns given p) {r : Row}
    (h : project m.querySchemaToSchema p = some r) : StoredAs m.schema columns given r := by
  obtain ⟨hl, hg⟩ := forall₂_getElem (mapM_iff.mp h)
  refine ⟨by rw [← hl, hm.length.1], fun j c hc => ?_⟩
  have hj : j < m.querySchemaToSchema.length := by rw [← hm.length.1]; exact (List.getElem?_eq_some_iff.mp hc).1
  have hi := List.getElem?_eq_getElem hj
  obtain ⟨v, hv, hpv⟩ := hg j _ hi
  obtain ⟨-, hcol, -⟩ := hm.column j _ hi
  obtain ⟨w, hw, hgiven⟩ := hp.values _ c (hcol ▸ hc)
  rw [hpv] at hw
  cases hw
  exact ⟨v, hv, hgiven⟩

theorem project_defined {qs : List Column} {bs : List Model.ErrorBound} {gs : List (Option (Generated ε))} {m : Metadata ε}
    (hm : Consistent qs bs gs m) {p : Row} (hp : p.length = qs.length) : ∃ r, project m.querySchemaToSchema p = some r := by
  have hlt : ∀ i ∈ m.querySchemaToSchema, i < p.length := by
    intro i hi
    obtain ⟨j, hj⟩ := List.getElem?_of_mem hi
    rw [hp]
    exact (hm.column j i hj).1
  unfold project
  generalize m.querySchemaToSchema = l at hlt
  induction l with
  | nil => exact ⟨[], rfl⟩
  | cons i l ih =>
    obtain ⟨r, hr⟩ := ih fun i hi => hlt i (List.mem_cons_of_mem _ hi)
    refine ⟨p[i]'(hlt i (by simp)) :: r, ?_⟩
    rw [List.mapM_cons, hr, List.getElem?_eq_getElem (hlt i (by simp))]
    rfl

theorem rowFits_iff : ∀ {schema : List Column} {row : Row}, rowFits schema row = true ↔
    row.length = schema.length ∧ ∀ (j : Nat) (c : Column) (v : Value), schema[j]? = some c → row[j]? = some v → fits c v = true
  | [], [] => by simp [rowFits]
  | [], v :: vs => by simp [rowFits]
  | c :: cs, [] => by simp [rowFits]
  | c :: cs, v :: vs => by
    rw [rowFits, Bool.and_eq_true, rowFits_iff]
    constructor
    · rintro ⟨h, hl, hr⟩
      refine ⟨by simp [hl], fun j c' v' hc hv => ?_⟩
      cases j with
      | zero => simp at hc hv; subst hc; subst hv; exact h
      | succ j => exact hr j c' v' (by simpa using hc) (by simpa using hv)
    · rintro ⟨hl, hr⟩
      exact ⟨hr 0 c v rfl rfl, by simpa using hl, fun j c' v' hc hv => hr (j + 1) c' v' (by simpa using hc) (by simpa using hv)⟩

theorem noNull_of_rowFits {schema : List Column} {row : Row} (h : rowFits schema row = true) : NoNull schema row := by
  intro j c hc hn hv
  have := (rowFits_iff.mp h).2 j c _ hc hv
  simp [fits, hn] at this

/-- A batch and how it is planned. -/
def Planned (schema : List Column) (columns : List String) : Option (List Row) → Option (List Row) → Prop
  | none, none => True
  | some rows, some planned => List.Forall₂ (StoredAs schema columns) rows planned
  | _, _ => False

theorem plan_planned {schema : List Column} {s : Statement} {input : List (Option (List Row))} (h : plan schema s = some input) :
    (columnsOf schema s).Nodup ∧ (∀ name ∈ columnsOf schema s, name ∈ schema.map (·.name)) ∧
      (∀ row ∈ rowsOf s.batches, row.length = (columnsOf schema s).length) ∧
      List.Forall₂ (Planned schema (columnsOf schema s)) s.batches input := by
  unfold plan at h
  simp only at h
  split at h
  · rename_i hc
    refine ⟨hc.1, hc.2, ?_⟩
    have h := mapM_iff.mp h
    have hrows : ∀ b ∈ s.batches, ∀ row ∈ b.getD [], row.length = (columnsOf schema s).length := by
      intro b hb
      obtain ⟨i, hi⟩ := List.getElem?_of_mem hb
      obtain ⟨p, -, hp⟩ := (forall₂_getElem h).2 i b hi
      cases b with
      | none => simp
      | some rows =>
        simp only [Option.map_eq_some_iff] at hp
        obtain ⟨a, ha, -⟩ := hp
        intro row hrow
        obtain ⟨k, hk⟩ := List.getElem?_of_mem hrow
        obtain ⟨q, -, hq⟩ := (forall₂_getElem (mapM_iff.mp ha)).2 k row hk
        exact (planRow_storedAs hq).1
    refine ⟨?_, ?_⟩
    · intro row hrow
      unfold rowsOf at hrow
      simp only [List.mem_flatten, List.mem_map] at hrow
      obtain ⟨l, ⟨b, hb, rfl⟩, hrow⟩ := hrow
      exact hrows b hb row hrow
    · refine h.imp fun b p hbp => ?_
      cases b with
      | none => cases hbp; trivial
      | some rows =>
        simp only [Option.map_eq_some_iff] at hbp
        obtain ⟨a, ha, rfl⟩ := hbp
        exact (mapM_iff.mp ha).imp fun g p hp => (planRow_storedAs hp).2
  · cases h

theorem rowsOf_cons (b : List Row) (bs : List (Option (List Row))) : rowsOf (some b :: bs) = b ++ rowsOf bs := by simp [rowsOf]

/-- What is known after the batches have been written. -/
def Written (schema : List Column) (columns : List String) (nulls : Prop) (clean : Prop) (batches : List (Option (List Row))) (stored : List Row)
    (n : Nat) (result : List Row × Option Nat) : Prop :=
  ∃ (j : Nat) (new : List Row), j ≤ batches.length ∧ result.1 = stored ++ new ∧ (∀ b ∈ batches.take j, b ≠ none) ∧
    List.Forall₂ (fun given row => StoredAs schema columns given row ∧ (nulls → NoNull schema row)) (rowsOf (batches.take j)) new ∧
    (∀ c, result.2 = some c → j = batches.length ∧ c = n + new.length) ∧ (result.2 = none → clean → j < batches.length)

theorem written_fail {schema : List Column} {columns : List String} {nulls clean : Prop} {b : Option (List Row)}
    {bs : List (Option (List Row))} {stored : List Row} {n : Nat} : Written schema columns nulls clean (b :: bs) stored n (stored, none) :=
  ⟨0, [], by simp, by simp, by simp, by simp [rowsOf], by simp, by simp⟩

theorem writeTimeSeries_written {qs : List Column} {bs : List Model.ErrorBound} {gs : List (Option (Generated ε))} {m : Metadata ε}
    (hm : Consistent qs bs gs m) {columns : List String} {checked : List Nat} {faults : Nat → Fault} :
    ∀ {batches input : List (Option (List Row))}, List.Forall₂ (Planned qs columns) batches input → ∀ (k : Nat) (stored : List Row) (n : Nat),
      Written m.schema columns True (∀ i, faults i ≠ .after) batches stored n (writeTimeSeries m checked faults k input stored n)
  | _, _, .nil, k, stored, n => ⟨0, [], by simp, by simp [writeTimeSeries], by simp, by simp [rowsOf], by simp [writeTimeSeries],
      by simp [writeTimeSeries]⟩
  | _, _, .cons (a := a) (b := b) hb hr, k, stored, n => by
    cases b with
    | none => rw [writeTimeSeries]; exact written_fail
    | some rows =>
      cases a with
      | none => exact hb.elim
      | some given =>
        rw [writeTimeSeries]
        split
        · exact written_fail
        · split
          · exact written_fail
          · rename_i projected hproj
            have hst : List.Forall₂ (StoredAs m.schema columns) given projected := by
              clear hr
              have hproj := mapM_iff.mp hproj
              change List.Forall₂ (StoredAs qs columns) given rows at hb
              exact forall₂_trans (S := fun a b => project m.querySchemaToSchema a = some b) (T := StoredAs m.schema columns)
                (fun _ _ _ h1 h2 => project_storedAs hm h1 h2) hb hproj
            split
            · exact written_fail
            · rename_i checkedRows htry
              unfold tryNewBatch at htry
              split at htry
              · rename_i hall
                cases htry
                have hst : List.Forall₂ (fun given row => StoredAs m.schema columns given row ∧ (True → NoNull m.schema row)) given projected := by
                  refine List.forall₂_iff_zip.mpr ⟨hst.length_eq, fun hx => ?_⟩
                  have h1 := (List.forall₂_iff_zip.mp hst).2 hx
                  exact ⟨h1, fun _ => noNull_of_rowFits ((List.all_eq_true.mp hall) _ (List.of_mem_zip hx).2)⟩
                split
                · exact written_fail
                · rename_i hf
                  exact ⟨1, projected, by simp, rfl, by simp, by simpa [rowsOf] using hst, by simp, fun _ hc => (hc k hf).elim⟩
                · obtain ⟨j, new, hj, hres, hsome, hnew, hok, herr⟩ :=
                    writeTimeSeries_written hm (checked := checked) (faults := faults) hr (k + 1) (stored ++ projected) (n + projected.length)
                  refine ⟨j + 1, projected ++ new, by simp [hj], by rw [hres, List.append_assoc], ?_, ?_, ?_, ?_⟩
                  · intro b hb
                    rw [List.take_succ_cons, List.mem_cons] at hb
                    rcases hb with rfl | hb
                    · simp
                    · exact hsome b hb
                  · rw [List.take_succ_cons, rowsOf_cons]
                    exact List.rel_append hst hnew
                  · intro c hc
                    obtain ⟨h1, h2⟩ := hok c hc
                    exact ⟨by simp [h1], by rw [h2, List.length_append]; omega⟩
                  · intro hn hc
                    simp [herr hn hc]
              · cases htry

theorem writeNormal_written {schema : List Column} {columns : List String} {checked : List Nat} {faults : Nat → Fault} :
    ∀ {batches input : List (Option (List Row))}, List.Forall₂ (Planned schema columns) batches input → ∀ (k : Nat) (stored : List Row) (n : Nat),
      Written schema columns False (∀ i, faults i ≠ .after) batches stored n (writeNormal checked faults k input stored n)
  | _, _, .nil, k, stored, n => ⟨0, [], by simp, by simp [writeNormal], by simp, by simp [rowsOf], by simp [writeNormal],
      by simp [writeNormal]⟩
  | _, _, .cons (a := a) (b := b) hb hr, k, stored, n => by
    cases b with
    | none => rw [writeNormal]; exact written_fail
    | some rows =>
      cases a with
      | none => exact hb.elim
      | some given =>
        rw [writeNormal]
        split
        · exact written_fail
        · have hst : List.Forall₂ (fun given row => StoredAs schema columns given row ∧ (False → NoNull schema row)) given rows :=
            hb.imp fun _ _ h => ⟨h, False.elim⟩
          split
          · exact written_fail
          · rename_i hf
            exact ⟨1, rows, by simp, rfl, by simp, by simpa [rowsOf] using hst, by simp, fun _ hc => (hc k hf).elim⟩
          · obtain ⟨j, new, hj, hres, hsome, hnew, hok, herr⟩ :=
              writeNormal_written (checked := checked) (faults := faults) hr (k + 1) (stored ++ rows) (n + rows.length)
            refine ⟨j + 1, rows ++ new, by simp [hj], by rw [hres, List.append_assoc], ?_, ?_, ?_, ?_⟩
            · intro b hb
              rw [List.take_succ_cons, List.mem_cons] at hb
              rcases hb with rfl | hb
              · simp
              · exact hsome b hb
            · rw [List.take_succ_cons, rowsOf_cons]
              exact List.rel_append hst hnew
            · intro c hc
              obtain ⟨h1, h2⟩ := hok c hc
              exact ⟨by simp [h1], by rw [h2, List.length_append]; omega⟩
            · intro hn hc
              simp [herr hn hc]

theorem given_unique {columns : List String} (hn : columns.Nodup) {row : Row} {name : String} {v w : Value} (hv : Given columns row name v)
    (hw : Given columns row name w) : v = w := by
  obtain ⟨i, hi, hv⟩ := hv
  obtain ⟨j, hj, hw⟩ := hw
  have : i = j := (List.getElem?_inj (List.getElem?_eq_some_iff.mp hi).1 hn).mp (hi.trans hj.symm)
  subst this
  rw [hv] at hw
  exact Option.some.inj hw

theorem storedAs_unique {schema : List Column} {columns : List String} (hn : columns.Nodup) {given row : Row} (h : StoredAs schema columns given row)
    {j : Nat} {c : Column} (hc : schema[j]? = some c) {v : Value} (hv : Given columns given c.name v) : row[j]? = some v := by
  obtain ⟨w, hw, hg | ⟨hno, -⟩⟩ := h.values j c hc
  · rw [hw, given_unique hn hg hv]
  · obtain ⟨i, hi, -⟩ := hv
    exact (hno (List.mem_of_getElem? hi)).elim

theorem writeTimeSeries_ok {qs : List Column} {bs : List Model.ErrorBound} {gs : List (Option (Generated ε))} {m : Metadata ε}
    (hm : Consistent qs bs gs m) (hqs : m.querySchema = qs) {columns : List String} (hn : columns.Nodup) {checked : List Nat} {faults : Nat → Fault}
    (hf : ∀ i, faults i = .none) :
    ∀ {batches input : List (Option (List Row))}, List.Forall₂ (Planned qs columns) batches input → (∀ b ∈ batches, b ≠ none) →
      (∀ row ∈ rowsOf batches, Acceptable m checked columns row) → ∀ (k : Nat) (stored : List Row) (n : Nat),
      ∃ c, (writeTimeSeries m checked faults k input stored n).2 = some c
  | _, _, .nil, _, _, k, stored, n => ⟨n, rfl⟩
  | _, _, .cons (a := a) (b := b) hb hr, hsome, hacc, k, stored, n => by
    cases a with
    | none => exact (hsome none (by simp) rfl).elim
    | some given =>
      cases b with
      | none => exact hb.elim
      | some rows =>
        change List.Forall₂ (StoredAs qs columns) given rows at hb
        have hmem : ∀ row ∈ rows, ∃ g, Acceptable m checked columns g ∧ StoredAs qs columns g row := by
          intro row hrow
          obtain ⟨i, hi⟩ := List.getElem?_of_mem hrow
          obtain ⟨g, hg, hs⟩ := (forall₂_getElem hb.flip).2 i row hi
          exact ⟨g, hacc g (by rw [rowsOf_cons]; exact List.mem_append_left _ (List.mem_of_getElem? hg)), hs⟩
        rw [writeTimeSeries]
        have hnull : nullFree checked rows = true := by
          unfold nullFree
          rw [List.all_eq_true]
          intro row hrow
          rw [List.all_eq_true]
          intro i hi
          obtain ⟨g, ha, hs⟩ := hmem row hrow
          simp only [ne_eq, decide_not, Bool.not_eq_eq_eq_not, Bool.not_true, decide_eq_false_iff_not]
          intro hrow
          have hlt : i < qs.length := by rw [← hs.length]; exact (List.getElem?_eq_some_iff.mp hrow).1
          have hc := List.getElem?_eq_getElem hlt
          obtain ⟨v, hv, hne⟩ := ha.checked i hi qs[i] (by rw [hqs]; exact hc)
          rw [storedAs_unique hn hs hc hv] at hrow
          exact hne (Option.some.inj hrow)
        rw [hnull]
        simp only [Bool.not_true, Bool.false_eq_true, if_false]
        have hp : ∃ projected, rows.mapM (project m.querySchemaToSchema) = some projected ∧ projected.all (rowFits m.schema) = true := by
          clear hnull hr hsome hacc hb
          induction rows with
          | nil => exact ⟨[], rfl, rfl⟩
          | cons row rows ih =>
            obtain ⟨ps, hps, hall⟩ := ih fun row hrow => hmem row (List.mem_cons_of_mem _ hrow)
            obtain ⟨g, ha, hs⟩ := hmem row (by simp)
            obtain ⟨p, hp⟩ := project_defined hm hs.length
            refine ⟨p :: ps, by rw [List.mapM_cons, hp, hps]; rfl, ?_⟩
            rw [List.all_cons, hall, Bool.and_true, rowFits_iff]
            have hsp := project_storedAs hm hs hp
            refine ⟨hsp.length, fun j c v hc hv => ?_⟩
            obtain ⟨w, hw, hfit⟩ := ha.stored c (List.mem_of_getElem? hc)
            rw [storedAs_unique hn hsp hc hw] at hv
            cases hv
            exact hfit
        obtain ⟨projected, hproj, hall⟩ := hp
        rw [hproj]
        simp only [tryNewBatch, hall, if_true, hf k]
        exact writeTimeSeries_ok hm hqs hn hf hr (fun b hb => hsome b (List.mem_cons_of_mem _ hb))
          (fun row hrow => hacc row (by rw [rowsOf_cons]; exact List.mem_append_right _ hrow)) _ _ _

theorem planRow_defined {schema : List Column} {columns : List String} {row : Row} (h : row.length = columns.length) :
    ∃ p, planRow schema columns row = some p := by
  unfold planRow
  rw [if_neg (by simpa using h)]
  exact ⟨_, rfl⟩

theorem mapM_defined {α β : Type} {f : α → Option β} {l : List α} (h : ∀ a ∈ l, ∃ b, f a = some b) : ∃ r, l.mapM f = some r := by
  induction l with
  | nil => exact ⟨[], rfl⟩
  | cons a l ih =>
    obtain ⟨b, hb⟩ := h a (by simp)
    obtain ⟨r, hr⟩ := ih fun a ha => h a (List.mem_cons_of_mem _ ha)
    exact ⟨b :: r, by rw [List.mapM_cons, hb, hr]; rfl⟩

theorem plan_defined {schema : List Column} {s : Statement} (hn : (columnsOf schema s).Nodup)
    (hc : ∀ name ∈ columnsOf schema s, name ∈ schema.map (·.name)) (hrows : ∀ row ∈ rowsOf s.batches, row.length = (columnsOf schema s).length) :
    ∃ input, plan schema s = some input := by
  unfold plan
  simp only
  rw [if_pos ⟨hn, hc⟩]
  refine mapM_defined fun b hb => ?_
  cases b with
  | none => exact ⟨_, rfl⟩
  | some rows =>
    obtain ⟨r, hr⟩ := mapM_defined (f := planRow schema (columnsOf schema s)) (l := rows) fun row hrow =>
      planRow_defined (hrows row (by
        unfold rowsOf
        simp only [List.mem_flatten, List.mem_map]
        exact ⟨rows, ⟨some rows, hb, rfl⟩, hrow⟩))
    exact ⟨some r, by simp only; unfold columnsOf at hr; rw [hr]; rfl⟩

end ModelarDB.Lemmas.Insert
