import Verif.Spec.CreateTable
import Verif.Lemmas.TableDefinition
import Mathlib.Tactic.Tauto
/-
Lemmas about CREATE TIME SERIES TABLE, for C75.
-/
namespace ModelarDB.Lemmas.CreateTable
open Model Model.Statements Model.TableDefinition Model.CreateTable Spec

variable {ε : Type} {sql : Sql ε}

/-- The definition of a column that a kind is parsed to. -/
def kindDef (sql : Sql ε) : Kind ε → Option (SqlType × List (ColumnOption ε))
  | .timestamp => some (.timestamp, [])
  | .tag => some (.text, [])
  | .field => some (.real, [])
  | .bounded number percentage => (parseF32 number).map fun v =>
      (.real, if (FVal.fin false 0).lt v then [.dialect [.number (sql.display v) percentage]] else [])
  | .computed _ e => some (.real, [.generated e])

/-- The definition of a declared column. -/
def columnDef (sql : Sql ε) (c : DeclaredColumn ε) : Option (ColumnDef ε) := (kindDef sql c.kind).map fun (t, o) => ⟨c.name, t, o⟩

/-- Tokens that end a column. -/
def Stops (rest : List Token) : Prop := ∃ t r, rest = t :: r ∧ (t = .comma ∨ t = .other ')')

theorem field_ne : ¬("FIELD".toList = "TIMESTAMP".toList) := by decide
theorem tag_ne : ¬("TAG".toList = "TIMESTAMP".toList) ∧ ¬("TAG".toList = "FIELD".toList) := by decide

theorem parseColumn_field {name value : List Char} {quote quote' : Option Char} {rest : List Token} (h : sql.upper value = "FIELD".toList) :
    parseColumn sql (.word name quote :: .word value quote' :: rest) =
      (parseField sql rest).map fun (options, rest) => (⟨name, .real, options⟩, rest) := by
  simp only [parseColumn, parseWord, h, field_ne, if_false, if_true]

theorem parseColumn_written {kind : Kind ε} {text : List Token} (h : WrittenKind sql kind text) (name : List Char) (quote : Option Char)
    {rest : List Token} (hr : Stops rest) :
    parseColumn sql (.word name quote :: (text ++ rest)) = (columnDef sql ⟨name, kind⟩).map fun d => (d, rest) := by
  obtain ⟨t', r, rfl, ht'⟩ := hr
  cases h with
  | timestamp t ht =>
    obtain ⟨v, q, rfl, hv⟩ := ht
    simp only [List.cons_append, List.nil_append, parseColumn, parseWord, hv, if_true, columnDef, kindDef, Option.map_some]
  | tag t ht =>
    obtain ⟨v, q, rfl, hv⟩ := ht
    simp only [List.cons_append, List.nil_append, parseColumn, parseWord, hv, tag_ne, if_false, if_true, columnDef, kindDef, Option.map_some]
  | field t ht =>
    obtain ⟨v, q, rfl, hv⟩ := ht
    simp only [List.cons_append, List.nil_append]
    rw [parseColumn_field hv]
    rcases ht' with rfl | rfl <;> simp [parseField, columnDef, kindDef]
  | number t number ht =>
    obtain ⟨v, q, rfl, hv⟩ := ht
    simp only [List.cons_append, List.nil_append]
    rw [parseColumn_field hv]
    cases hp : parseF32 number <;> simp [parseField, parseBound, columnDef, kindDef, hp, expectToken, parsePercent]
  | percentage t number ht =>
    obtain ⟨v, q, rfl, hv⟩ := ht
    simp only [List.cons_append, List.nil_append]
    rw [parseColumn_field hv]
    cases hp : parseF32 number <;> simp [parseField, parseBound, columnDef, kindDef, hp, expectToken, parsePercent]
  | computed t as text e ht has he =>
    obtain ⟨v, q, rfl, hv⟩ := ht
    obtain ⟨v', q', rfl, hv'⟩ := has
    have he := he (t' :: r)
    simp only [List.cons_append, List.nil_append, List.append_assoc]
    rw [parseColumn_field hv]
    simp only [parseField, parseAs, expectWord, parseWord, hv', if_true, expectToken, he, Option.map_some, columnDef, kindDef]

theorem written_length {cs : List (DeclaredColumn ε)} {text : List Token} (h : WrittenColumns sql cs text) : cs.length ≤ text.length := by
  induction h with
  | last name quote kind text hk => simp
  | cons name quote kind text columns rest hk hc ih =>
    simp only [List.length_cons, List.cons_append, List.length_append]
    omega

theorem parseColumns_written {cs : List (DeclaredColumn ε)} {text : List Token} (h : WrittenColumns sql cs text) (post : List Token) :
    ∀ fuel, cs.length ≤ fuel → parseColumnsWith sql fuel (text ++ .other ')' :: post) = (cs.mapM (columnDef sql)).map fun ds => (ds, post) := by
  induction h with
  | last name quote kind text hk =>
    intro fuel hf
    cases fuel with
    | zero => simp at hf
    | succ fuel =>
      rw [parseColumnsWith]
      simp only [List.cons_append]
      rw [parseColumn_written hk name quote ⟨_, _, rfl, .inr rfl⟩]
      cases hd : columnDef sql ⟨name, kind⟩ <;> simp [hd]
  | cons name quote kind text columns rest hk hc ih =>
    intro fuel hf
    cases fuel with
    | zero => simp at hf
    | succ fuel =>
      rw [parseColumnsWith]
      simp only [List.cons_append, List.append_assoc]
      rw [parseColumn_written hk name quote ⟨_, _, rfl, .inl rfl⟩]
      cases hd : columnDef sql ⟨name, kind⟩ with
      | none => simp [hd]
      | some d =>
        simp only [Option.map_some, expectToken, if_true]
        rw [ih fuel (by simpa using hf)]
        cases hm : columns.mapM (columnDef sql) <;> simp [hd, hm]

theorem isKeyword_iff {t : Token} {k : String} : t.isKeyword k.toList = true ↔ Keyword t k := by
  unfold Token.isKeyword Keyword
  cases t with
  | word v q =>
    cases q with
    | none => simp
    | some c => simp
  | _ => simp

theorem expectWord_spelled {t : Token} {w : String} {rest : List Token} (h : Spelled sql w t) :
    expectWord sql w.toList (t :: rest) = some rest := by
  obtain ⟨v, q, rfl, hv⟩ := h
  simp only [expectWord, parseWord, hv, if_true]

theorem parseStatement_written {d : Declaration ε} {tokens : List Token} (h : Written sql d tokens) :
    parseStatement sql tokens = (d.columns.mapM (columnDef sql)).map fun ds => (d.name, ds) := by
  obtain ⟨pre, post, create, time, series, table, quote, columns, hpre, hpost, hcreate, htime, hseries, htable, hcols, rfl⟩ := h
  have hne : create ≠ .semicolon := by
    rintro rfl
    obtain ⟨v, hv, -⟩ := hcreate
    cases hv
  have hdrop : (pre ++ ([create, time, series, table, .word d.name quote, .other '('] ++ columns ++ .other ')' :: post)).dropWhile
      (· == .semicolon) = [create, time, series, table, .word d.name quote, .other '('] ++ columns ++ .other ')' :: post := by
    rw [List.dropWhile_append_of_pos (by intro t ht; rw [hpre t ht]; rfl)]
    simp [hne]
  have hall : post.all (· == .semicolon) = true := by
    rw [List.all_eq_true]
    intro t ht
    rw [hpost t ht]
    rfl
  have hp : parseCreate sql ([create, time, series, table, .word d.name quote, .other '('] ++ columns ++ .other ')' :: post) =
      (d.columns.mapM (columnDef sql)).map fun ds => ((d.name, ds), post) := by
    simp only [List.cons_append, List.nil_append, parseCreate, expectKeyword, isKeyword_iff.mpr hcreate, isKeyword_iff.mpr htable, if_true,
      Option.bind_some, expectWord_spelled htime, expectWord_spelled hseries, parseWord, parseColumns, expectToken]
    rw [parseColumns_written hcols post _ (by
      have := written_length hcols
      simp only [List.length_append]
      omega)]
    cases d.columns.mapM (columnDef sql) <;> rfl
  unfold CreateTable.parseStatement
  rw [hdrop, hp]
  cases d.columns.mapM (columnDef sql) with
  | none => rfl
  | some ds => simp only [Option.map_some, hall, if_true]

/-! ### Every statement that is parsed is written -/

theorem parseWord_some {tokens rest : List Token} {value : List Char} (h : parseWord tokens = some (value, rest)) :
    ∃ quote, tokens = .word value quote :: rest := by
  unfold parseWord at h
  split at h
  · simp only [Option.some.injEq, Prod.mk.injEq] at h
    obtain ⟨rfl, rfl⟩ := h
    exact ⟨_, rfl⟩
  · cases h

theorem expectToken_some {t : Token} {tokens rest : List Token} (h : expectToken t tokens = some rest) : tokens = t :: rest := by
  unfold expectToken at h
  split at h
  · split at h
    · rename_i hx
      subst hx
      simp only [Option.some.injEq] at h
      rw [h]
    · cases h
  · cases h

theorem expectWord_some {w : String} {tokens rest : List Token} (h : expectWord sql w.toList tokens = some rest) :
    ∃ t, Spelled sql w t ∧ tokens = t :: rest := by
  unfold expectWord at h
  split at h
  · rename_i value rest' hw
    split at h
    · rename_i hv
      simp only [Option.some.injEq] at h
      subst h
      obtain ⟨q, rfl⟩ := parseWord_some hw
      exact ⟨_, ⟨_, _, rfl, hv⟩, rfl⟩
    · cases h
  · cases h

theorem expectKeyword_some {k : String} {tokens rest : List Token} (h : expectKeyword k.toList tokens = some rest) :
    ∃ t, Keyword t k ∧ tokens = t :: rest := by
  unfold expectKeyword at h
  split at h
  · split at h
    · rename_i hk
      simp only [Option.some.injEq] at h
      subst h
      exact ⟨_, isKeyword_iff.mp hk, rfl⟩
    · cases h
  · cases h

theorem parseBound_some {tokens rest : List Token} {options : List (ColumnOption ε)} (h : parseBound sql tokens = some (options, rest))
    {t : Token} (ht : Spelled sql "FIELD" t) :
    ∃ kind text, WrittenKind sql kind (t :: .other '(' :: text) ∧ tokens = text ++ rest ∧ kindDef sql kind = some (.real, options) := by
  unfold parseBound at h
  split at h
  · rename_i text rest'
    split at h
    · cases h
    · rename_i v hv
      have hcases : (∃ r, rest' = .other '%' :: r) ∨ parsePercent rest' = (false, rest') := by
        unfold parsePercent
        split
        · exact .inl ⟨_, rfl⟩
        · exact .inr rfl
      rcases hcases with ⟨r, rfl⟩ | hr
      · cases hx : expectToken (.other ')') r with
        | none => simp [parsePercent, hx] at h
        | some r' =>
          simp only [parsePercent, hx, Option.some.injEq, Prod.mk.injEq] at h
          obtain ⟨rfl, rfl⟩ := h
          rw [expectToken_some hx]
          exact ⟨_, _, .percentage t text ht, rfl, by simp [kindDef, hv]⟩
      · simp only [hr] at h
        cases hx : expectToken (.other ')') rest' with
        | none => simp [hx] at h
        | some r' =>
          simp only [hx, Option.some.injEq, Prod.mk.injEq] at h
          obtain ⟨rfl, rfl⟩ := h
          rw [expectToken_some hx]
          exact ⟨_, _, .number t text ht, rfl, by simp [kindDef, hv]⟩
  · cases h

theorem parseAs_some (law : Lawful sql) {tokens rest : List Token} {options : List (ColumnOption ε)}
    (h : parseAs sql tokens = some (options, rest)) {t : Token} (ht : Spelled sql "FIELD" t) :
    ∃ kind text, WrittenKind sql kind (t :: text) ∧ tokens = text ++ rest ∧ kindDef sql kind = some (.real, options) := by
  unfold parseAs at h
  split at h
  · cases h
  rename_i rest₁ h₁
  obtain ⟨as, has, rfl⟩ := expectWord_some h₁
  split at h
  · cases h
  rename_i rest₂ h₂
  rw [expectToken_some h₂]
  split at h
  · cases h
  rename_i e rest₃ h₃
  cases hx : expectToken (.other ')') rest₃ with
  | none => simp [hx] at h
  | some r =>
    simp only [hx, Option.map_some, Option.some.injEq, Prod.mk.injEq] at h
    obtain ⟨rfl, rfl⟩ := h
    have := expectToken_some hx
    subst this
    obtain ⟨text, rfl⟩ := law.used _ _ _ h₃
    exact ⟨.computed text e, _, .computed t as text e ht has (fun rest' => law.closed _ _ _ rest' h₃), by simp, rfl⟩

theorem parseColumn_some (law : Lawful sql) {tokens rest : List Token} {d : ColumnDef ε} (h : parseColumn sql tokens = some (d, rest)) :
    ∃ name quote kind text, WrittenKind sql kind text ∧ tokens = .word name quote :: (text ++ rest) ∧
      columnDef sql ⟨name, kind⟩ = some d := by
  unfold parseColumn at h
  split at h
  · cases h
  rename_i name rest₁ h₁
  obtain ⟨q, rfl⟩ := parseWord_some h₁
  split at h
  · cases h
  rename_i type rest₂ h₂
  obtain ⟨q', rfl⟩ := parseWord_some h₂
  split at h
  · rename_i hv
    simp only [Option.some.injEq, Prod.mk.injEq] at h
    obtain ⟨rfl, rfl⟩ := h
    exact ⟨name, q, .timestamp, _, .timestamp _ ⟨_, q', rfl, hv⟩, rfl, rfl⟩
  split at h
  · rename_i hv
    have ht : Spelled sql "FIELD" (.word type q') := ⟨_, q', rfl, hv⟩
    cases hf : parseField sql rest₂ with
    | none => simp [hf] at h
    | some p =>
      obtain ⟨options, r⟩ := p
      simp only [hf, Option.map_some, Option.some.injEq, Prod.mk.injEq] at h
      obtain ⟨rfl, rfl⟩ := h
      unfold parseField at hf
      split at hf
      · obtain ⟨kind, text, hk, rfl, hd⟩ := parseBound_some hf ht
        exact ⟨name, q, kind, _, hk, by simp, by simp [columnDef, hd]⟩
      · obtain ⟨kind, text, hk, he, hd⟩ := parseAs_some law hf ht
        exact ⟨name, q, kind, _, hk, by simp [he], by simp [columnDef, hd]⟩
      · simp only [Option.some.injEq, Prod.mk.injEq] at hf
        obtain ⟨rfl, rfl⟩ := hf
        exact ⟨name, q, .field, _, .field _ ht, rfl, rfl⟩
  split at h
  · rename_i hv
    simp only [Option.some.injEq, Prod.mk.injEq] at h
    obtain ⟨rfl, rfl⟩ := h
    exact ⟨name, q, .tag, _, .tag _ ⟨_, q', rfl, hv⟩, rfl, rfl⟩
  · cases h

theorem parseColumnsWith_some (law : Lawful sql) : ∀ (fuel : Nat) (tokens rest : List Token) (ds : List (ColumnDef ε)),
    parseColumnsWith sql fuel tokens = some (ds, rest) →
    ∃ cs text, WrittenColumns sql cs text ∧ tokens = text ++ .other ')' :: rest ∧ cs.mapM (columnDef sql) = some ds
  | 0, _, _, _, h => by simp [parseColumnsWith] at h
  | fuel + 1, tokens, rest, ds, h => by
    rw [parseColumnsWith] at h
    split at h
    · cases h
    · rename_i d r hd
      simp only [Option.some.injEq, Prod.mk.injEq] at h
      obtain ⟨rfl, rfl⟩ := h
      obtain ⟨name, q, kind, text, hk, rfl, hc⟩ := parseColumn_some law hd
      exact ⟨_, _, .last name q kind text hk, by simp, by simp [hc]⟩
    · rename_i d r hne hd
      split at h
      · cases h
      · rename_i r' hr'
        have hr' := expectToken_some hr'
        subst hr'
        cases hp : parseColumnsWith sql fuel r' with
        | none => simp [hp] at h
        | some p =>
          obtain ⟨ds', rest'⟩ := p
          simp only [hp, Option.map_some, Option.some.injEq, Prod.mk.injEq] at h
          obtain ⟨rfl, rfl⟩ := h
          obtain ⟨cs, text', hw, rfl, hm⟩ := parseColumnsWith_some law fuel _ _ _ hp
          obtain ⟨name, q, kind, text, hk, rfl, hc⟩ := parseColumn_some law hd
          exact ⟨_, _, .cons name q kind text cs text' hk hw, by simp, by simp [hc, hm]⟩

theorem parseStatement_some (law : Lawful sql) {tokens : List Token} {name : List Char} {ds : List (ColumnDef ε)}
    (h : parseStatement sql tokens = some (name, ds)) :
    ∃ d : Declaration ε, Written sql d tokens ∧ d.name = name ∧ d.columns.mapM (columnDef sql) = some ds := by
  unfold CreateTable.parseStatement at h
  split at h
  case h_2 => cases h
  rename_i p rest hp
  split at h
  case isFalse => cases h
  rename_i hall
  simp only [Option.some.injEq] at h
  subst h
  unfold parseCreate at hp
  simp only [Option.bind_eq_some_iff, Option.map_eq_some_iff] at hp
  obtain ⟨t₁, h₁, t₂, h₂, t₃, h₃, t₄, h₄, ⟨n, t₅⟩, h₅, ⟨cs, t₆⟩, h₆, h₇⟩ := hp
  simp only [Prod.mk.injEq] at h₇
  obtain ⟨⟨rfl, rfl⟩, rfl⟩ := h₇
  obtain ⟨create, hcreate, e₁⟩ := expectKeyword_some h₁
  obtain ⟨time, htime, rfl⟩ := expectWord_some h₂
  obtain ⟨series, hseries, rfl⟩ := expectWord_some h₃
  obtain ⟨table, htable, rfl⟩ := expectKeyword_some h₄
  obtain ⟨q, rfl⟩ := parseWord_some h₅
  unfold parseColumns at h₆
  simp only [Option.bind_eq_some_iff] at h₆
  obtain ⟨t₇, h₇, h₈⟩ := h₆
  have := expectToken_some h₇
  subst this
  obtain ⟨dcs, text, hw, rfl, hm⟩ := parseColumnsWith_some law _ _ _ _ h₈
  refine ⟨⟨n, dcs⟩, ⟨tokens.takeWhile (· == .semicolon), t₆, create, time, series, table, q, text, ?_, ?_, hcreate, htime, hseries, htable,
    hw, ?_⟩, rfl, hm⟩
  · intro t ht
    simpa using (List.all_eq_true.mp List.all_takeWhile t ht)
  · intro t ht
    simpa using List.all_eq_true.mp hall t ht
  · conv_lhs => rw [← List.takeWhile_append_dropWhile (p := (· == Token.semicolon)) (l := tokens), e₁]
    simp

end ModelarDB.Lemmas.CreateTable
