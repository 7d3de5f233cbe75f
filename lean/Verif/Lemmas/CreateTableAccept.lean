import Verif.Lemmas.CreateTableChecks
/-
When CREATE TIME SERIES TABLE is accepted, for C75.
-/
namespace ModelarDB.Lemmas.CreateTable
open Model Model.Statements Model.TableDefinition Model.CreateTable Spec

variable {ε : Type} {sql : Sql ε}

theorem forall₂_comp {α β γ : Type} {r : α → β → Prop} {s : β → γ → Prop} {t : α → γ → Prop} (h : ∀ a b, r a b → ∀ c, s b c ↔ t a c) :
    ∀ {l : List α} {m : List β}, List.Forall₂ r l m → ∀ n : List γ, List.Forall₂ s m n ↔ List.Forall₂ t l n
  | [], [], _, n => by rw [List.forall₂_nil_left_iff, List.forall₂_nil_left_iff]
  | a :: l, b :: m, .cons hab hlm, n => by
    cases n with
    | nil => simp
    | cons c n => rw [List.forall₂_cons, List.forall₂_cons, h a b hab c, forall₂_comp h hlm n]

theorem forall₂_exists {α β : Type} {r : α → β → Prop} : ∀ {l : List α}, (∀ a ∈ l, ∃ b, r a b) → ∃ m, List.Forall₂ r l m
  | [], _ => ⟨[], .nil⟩
  | a :: l, h => by
    obtain ⟨b, hb⟩ := h a List.mem_cons_self
    obtain ⟨m, hm⟩ := forall₂_exists fun a ha => h a (List.mem_cons_of_mem _ ha)
    exact ⟨b :: m, .cons hb hm⟩

theorem forall₂_left {α β : Type} {r : α → β → Prop} {l : List α} {m : List β} (h : List.Forall₂ r l m) : ∀ a ∈ l, ∃ b, r a b := by
  induction h with
  | nil => simp
  | cons hab _ ih =>
    intro a ha
    rcases List.mem_cons.mp ha with rfl | ha
    · exact ⟨_, hab⟩
    · exact ih a ha

theorem forall₂_get {α β : Type} {r : α → β → Prop} {l : List α} {m : List β} (h : List.Forall₂ r l m) :
    ∀ (i : Nat) (b : β), m[i]? = some b → ∃ a, l[i]? = some a ∧ r a b := by
  induction h with
  | nil => simp
  | cons hab _ ih =>
    intro i b hb
    cases i with
    | zero =>
      simp only [List.getElem?_cons_zero, Option.some.injEq] at hb
      subst hb
      exact ⟨_, rfl, hab⟩
    | succ i => exact ih i b hb

theorem columnDef_of_bound {c : DeclaredColumn ε} {b : ErrorBound} (h : c.kind.Bound b) : ∃ d, columnDef sql c = some d := by
  obtain ⟨name, kind⟩ := c
  cases kind with
  | bounded number percentage =>
    obtain ⟨q, hq, -⟩ := h
    exact ⟨_, by simp only [columnDef, kindDef, parseF32_of_decimal hq, Option.map_some]; rfl⟩
  | _ => exact ⟨_, rfl⟩

theorem tableName_iff (name n : List Char) : tableName sql name = some n ↔
    n = sql.lower name ∧ (∀ c ∈ sql.lower name, c.isWhitespace = false) ∧ sql.upper (sql.lower name) ∉ sql.keywords ∧
      sql.validPath (sql.lower name) = true := by
  unfold tableName
  split
  · rename_i h
    obtain ⟨c, hc, hs⟩ := List.any_eq_true.mp h
    simp only [reduceCtorEq, false_iff, not_and]
    intro _ h
    rw [h c hc] at hs
    cases hs
  · rename_i h
    have hs : ∀ c ∈ sql.lower name, c.isWhitespace = false := by
      intro c hc
      by_contra hw
      exact h (List.any_eq_true.mpr ⟨c, hc, by simpa using hw⟩)
    split
    · rename_i hk
      simp only [reduceCtorEq, false_iff, not_and]
      exact fun _ _ h => absurd hk h
    · rename_i hk
      split
      · rename_i hp
        simp only [Option.some.injEq]
        exact ⟨fun h => ⟨h.symm, hs, hk, hp⟩, fun h => h.1.symm⟩
      · rename_i hp
        simp only [reduceCtorEq, false_iff, not_and]
        exact fun _ _ _ h => hp h

/-- What it takes that a statement is accepted. -/
theorem create_iff (law : Lawful sql) {d : Declaration ε} {tokens : List Token} (hw : Written sql d tokens) (hascii : Ascii d) (m : Metadata ε) :
    create sql tokens = .ok m ↔
      tableName sql d.name = some (sql.lower d.name) ∧ (d.columns.map fun c => sql.lower c.name).Nodup ∧
      ∃ bs gs, List.Forall₂ (fun (c : DeclaredColumn ε) b => c.kind.Bound b ∧ Meaningful b) d.columns bs ∧
        List.Forall₂ (fun (c : DeclaredColumn ε) g => c.kind.Computes sql (d.columns.map (DeclaredColumn.column sql)) g ∧
          ∀ text e, c.kind = .computed text e → sql.physical (builtColumns sql d.columns) e = true) d.columns gs ∧
        tryNew (String.ofList (sql.lower d.name)) (d.columns.map (DeclaredColumn.column sql)) bs gs = .ok m := by
  unfold create
  rw [parseStatement_written hw]
  cases hds : d.columns.mapM (columnDef sql) with
  | none =>
    simp only [Option.map_none, reduceCtorEq, false_iff]
    rintro ⟨-, -, bs, gs, hbs, -⟩
    obtain ⟨ds, h⟩ := forall₂_exists (l := d.columns) (r := fun c x => columnDef sql c = some x)
      fun c hc => by
        obtain ⟨b, hb, -⟩ := forall₂_left hbs c hc
        exact columnDef_of_bound hb
    rw [(mapM_some_iff _ _ _).mpr h] at hds
    cases hds
  | some ds =>
    rw [mapM_some_iff] at hds
    simp only [Option.map_some]
    have hbuilt := builtSchema_ok law hascii hds
    have hquery := querySchema_ok law hds
    have hunique := unique_built (sql := sql) d.columns
    have hbounds : ∀ bs, errorBounds ds = .ok bs ↔
        List.Forall₂ (fun (c : DeclaredColumn ε) b => c.kind.Bound b ∧ Meaningful b) d.columns bs := by
      intro bs
      unfold errorBounds
      rw [mapM_ok_iff]
      refine forall₂_comp ?_ hds bs
      intro c x hx b
      simp only [columnDef, Option.map_eq_some_iff] at hx
      obtain ⟨⟨t, os⟩, hk, rfl⟩ := hx
      exact optionBound_iff law hk b
    have hgenerated : ∀ gs, generatedColumns sql ds = .ok gs ↔ (d.columns.map fun c => sql.lower c.name).Nodup ∧
        List.Forall₂ (fun (c : DeclaredColumn ε) g => c.kind.Computes sql (d.columns.map (DeclaredColumn.column sql)) g ∧
          ∀ text e, c.kind = .computed text e → sql.physical (builtColumns sql d.columns) e = true) d.columns gs := by
      intro gs
      unfold generatedColumns
      rw [hbuilt]
      by_cases hu : uniqueNames (builtColumns sql d.columns) = true
      · have hn := hunique.mp hu
        have hn' : ((d.columns.map (DeclaredColumn.column sql)).map (·.name)).Nodup := by
          rw [← names_built]
          unfold uniqueNames at hu
          exact of_decide_eq_true hu
        simp only [hu, Bool.not_true, Bool.false_eq_true, if_false, hn, true_and]
        rw [mapM_ok_iff]
        refine forall₂_comp ?_ hds gs
        intro c x hx g
        simp only [columnDef, Option.map_eq_some_iff] at hx
        obtain ⟨⟨t, os⟩, hk, rfl⟩ := hx
        exact optionGenerated_iff hk (names_built d.columns) hn' g
      · have hn : ¬ (d.columns.map fun c => sql.lower c.name).Nodup := fun h => hu (hunique.mpr h)
        simp only [hu, hn, false_and, iff_false]
        simp
    unfold checkCreate
    cases ht : tableName sql d.name with
    | none => simp
    | some n =>
      have hn := ((tableName_iff _ _).mp ht).1
      subst hn
      simp only [bind, Except.bind, hquery, true_and]
      cases hb : errorBounds ds with
      | error e =>
        simp only [reduceCtorEq, false_iff]
        rintro ⟨-, bs, gs, hbs, -⟩
        rw [(hbounds bs).mpr hbs] at hb
        cases hb
      | ok bs =>
        simp only
        cases hg : generatedColumns sql ds with
        | error e =>
          simp only [reduceCtorEq, false_iff]
          rintro ⟨hn, bs, gs, -, hgs, -⟩
          rw [(hgenerated gs).mpr ⟨hn, hgs⟩] at hg
          cases hg
        | ok gs =>
          simp only
          obtain ⟨h1, h2⟩ := (hgenerated gs).mp hg
          constructor
          · intro h
            exact ⟨h1, bs, gs, (hbounds bs).mp hb, h2, h⟩
          · rintro ⟨-, bs', gs', hbs, hgs, h⟩
            rw [(hbounds bs').mpr hbs] at hb
            rw [(hgenerated gs').mpr ⟨h1, hgs⟩] at hg
            injection hb with hb
            injection hg with hg
            rw [← hb, ← hg]
            exact h

end ModelarDB.Lemmas.CreateTable
