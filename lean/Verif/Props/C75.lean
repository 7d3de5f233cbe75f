import Verif.Lemmas.CreateTableAccept
import Verif.Lemmas.CreateTableNumbers
import Verif.Props.C30
/-
C75: A CREATE TIME SERIES TABLE statement creates the table it declares.
-/
namespace ModelarDB.Props
open Model Model.Statements Model.TableDefinition Model.DataFolder Model.CreateTable Spec Lemmas Lemmas.CreateTable

variable {ε : Type} {sql : Sql ε}

/-- **C75**, the grammar: a statement that is accepted declares a table. -/
theorem C75_written (law : Lawful sql) {tokens : List Token} {m : Metadata ε} (h : create sql tokens = .ok m) :
    ∃ d : Declaration ε, Written sql d tokens := by
  unfold create at h
  split at h
  · rename_i name ds heq
    obtain ⟨d, hd, -⟩ := parseStatement_some law heq
    exact ⟨d, hd⟩
  · cases h

/-- **C75**, partial: a statement is accepted if and only if its declaration makes sense. Missing: names of columns with other characters than
ASCII characters, for which it is false, see below. -/
theorem C75_accepted_partial (law : Lawful sql) {d : Declaration ε} {tokens : List Token} (hw : Written sql d tokens) (hascii : Ascii d) :
    (∃ m, create sql tokens = .ok m) ↔ Sensible sql d := by
  have hnames : (d.columns.map fun c => sql.lower c.name).Nodup → ((d.columns.map (DeclaredColumn.column sql)).map (·.name)).Nodup := by
    intro h
    rw [← names_built]
    exact of_decide_eq_true ((unique_built (sql := sql) d.columns).mpr h)
  constructor
  · rintro ⟨m, h⟩
    obtain ⟨h1, h2, bs, gs, hbs, hgs, ht⟩ := (create_iff law hw hascii m).mp h
    obtain ⟨-, h3, h4, h5⟩ := (tableName_iff _ _).mp h1
    have hgs' := hgs.imp fun _ _ h => h.1
    obtain ⟨k1, k2, k3, k4⟩ := (tryNew_iff rfl (hnames h2) hbs.length_eq hgs' _).mp ⟨m, ht⟩
    refine ⟨h3, h4, h5, k1, h2, k2, k3, forall₂_left hbs, ?_⟩
    intro c hc text e hk
    refine ⟨k4 c hc text e hk, ?_⟩
    obtain ⟨g, -, hg⟩ := forall₂_left hgs c hc
    exact hg text e hk
  · intro s
    obtain ⟨bs, hbs⟩ := forall₂_exists s.bounds
    have hn := hnames s.different
    obtain ⟨gs, hgs⟩ := forall₂_exists (l := d.columns)
      (r := fun c g => c.kind.Computes sql (d.columns.map (DeclaredColumn.column sql)) g ∧
        ∀ text e, c.kind = .computed text e → sql.physical (builtColumns sql d.columns) e = true) (by
      intro c hc
      have hx := s.expressions c hc
      cases hk : c.kind with
      | computed text e =>
        obtain ⟨hr, hp⟩ := hx text e hk
        obtain ⟨is, his⟩ := forall₂_exists (l := sql.refs e)
          (r := fun r i => ∃ c : Column, (d.columns.map (DeclaredColumn.column sql))[i]? = some c ∧ c.name = r) (by
          intro r hr'
          obtain ⟨c', hc', rfl, -⟩ := hr r hr'
          obtain ⟨i, hi⟩ := List.mem_iff_getElem?.mp hc'
          exact ⟨i, c'.column sql, by rw [List.getElem?_map, hi]; rfl, rfl⟩)
        refine ⟨some ⟨e, is⟩, ⟨_, rfl, rfl, his⟩, ?_⟩
        intro text' e' h
        injection h with _ h
        subst h
        exact hp
      | _ => exact ⟨none, rfl, fun _ _ h => by cases h⟩)
    have ht : tableName sql d.name = some (sql.lower d.name) := (tableName_iff _ _).mpr ⟨rfl, s.noSpace, s.notReserved, s.path⟩
    obtain ⟨m, hm⟩ := (tryNew_iff rfl hn hbs.length_eq (hgs.imp fun _ _ h => h.1) (String.ofList (sql.lower d.name))).mpr
      ⟨s.few, s.timestamp, s.field, fun c hc text e hk => (s.expressions c hc text e hk).1⟩
    exact ⟨m, (create_iff law hw hascii m).mpr ⟨ht, s.different, bs, gs, hbs, hgs, hm⟩⟩

/-- **C75**, partial: the table that is created has the declared name, columns, error bounds and expressions. Missing: as for
`C75_accepted_partial`. -/
theorem C75_defines_partial (law : Lawful sql) {d : Declaration ε} {tokens : List Token} (hw : Written sql d tokens) (hascii : Ascii d)
    {m : Metadata ε} (h : create sql tokens = .ok m) : Defines sql d m := by
  obtain ⟨-, -, bs, gs, hbs, hgs, ht⟩ := (create_iff law hw hascii m).mp h
  have hcon := consistent_of_tryNew ht
  obtain ⟨-, -, -, -, -, -, -, k⟩ := tryNew_ok.mp ht
  have hq : m.querySchema = d.columns.map (DeclaredColumn.column sql) := by rw [k]
  have hg : m.generated = gs := by rw [k]
  refine ⟨by rw [k], hq, ?_, bs, hbs.imp fun _ _ h => h.1, ?_⟩
  · rw [hq, hg]
    exact hgs.imp fun _ _ h => h.1
  · rw [hq, hg]
    exact hcon

/-- **C75**, the numbers: digits with a point and an exponent are the number they stand for, so the error bound of `Kind.Bound` is the float that
is nearest to it. -/
theorem C75_number {text : List Char} {q : ℚ} (h : NumberText text q) : decimal text = some q := decimal_text h

/-- **C75**, partial: the table can be saved and loaded. Missing: as for `C75_accepted_partial`, and names with a quote or that do not stand for
themselves, see C30. -/
theorem C75_storable_partial (law : Lawful sql) {d : Declaration ε} {tokens : List Token} (hw : Written sql d tokens) (hascii : Ascii d)
    (hquote : '\'' ∉ sql.lower d.name) (hself : SelfName (sql.lower d.name)) {m : Metadata ε} (h : create sql tokens = .ok m) :
    Storable sql.env m := by
  obtain ⟨-, hn, bs, gs, hbs, hgs, ht⟩ := (create_iff law hw hascii m).mp h
  have hcon := consistent_of_tryNew ht
  obtain ⟨-, -, -, -, -, -, -, k⟩ := tryNew_ok.mp ht
  have hname : m.name = String.ofList (sql.lower d.name) := by rw [k]
  have hq : m.querySchema = d.columns.map (DeclaredColumn.column sql) := by rw [k]
  have hg : m.generated = gs := by rw [k]
  have hn' : ((d.columns.map (DeclaredColumn.column sql)).map (·.name)).Nodup := by
    rw [← names_built]
    exact of_decide_eq_true ((unique_built (sql := sql) d.columns).mpr hn)
  refine ⟨⟨bs, by rw [hname, hq, hg]; exact ht⟩, by rw [hq]; exact hn', by rw [hname]; simpa using hquote, by rw [hname]; simpa using hself, ?_, ?_, ?_⟩
  · intro b hb
    obtain ⟨j, hj⟩ := List.mem_iff_getElem?.mp hb
    have hjl : j < m.querySchemaToSchema.length := by
      rw [← hcon.length.2]
      exact (List.getElem?_eq_some_iff.mp hj).1
    obtain ⟨-, -, hbi⟩ := hcon.column j _ (List.getElem?_eq_getElem hjl)
    rw [hj] at hbi
    obtain ⟨_, -, -, hm⟩ := forall₂_get hbs _ _ hbi.symm
    exact hm
  · intro j c hc htype
    have hjl : j < m.querySchemaToSchema.length := by
      rw [← hcon.length.1]
      exact (List.getElem?_eq_some_iff.mp hc).1
    obtain ⟨hi, hsi, hbi⟩ := hcon.column j _ (List.getElem?_eq_getElem hjl)
    rw [List.length_map] at hi
    have hbl := hbs.length_eq
    obtain ⟨x, hx, hb, -⟩ := forall₂_get hbs _ _ (List.getElem?_eq_getElem (hbl ▸ hi))
    rw [hc, List.getElem?_map, hx] at hsi
    simp only [Option.map_some, Option.some.injEq] at hsi
    rw [hbi, List.getElem?_eq_getElem (hbl ▸ hi)]
    congr 1
    subst hsi
    obtain ⟨xn, xk⟩ := x
    cases xk with
    | bounded number percentage => exact absurd rfl htype
    | _ => exact hb
  · intro i g hgi
    rw [hg] at hgi
    obtain ⟨x, hx, hc, -⟩ := forall₂_get hgs _ _ hgi
    obtain ⟨xn, xk⟩ := x
    cases xk with
    | computed text e =>
      obtain ⟨g', hg', he, hs⟩ := hc
      injection hg' with hg'
      subst hg'
      refine ⟨⟨_, by rw [hq, List.getElem?_map, hx]; rfl, rfl⟩, ?_⟩
      rw [hq, tryFromExpr_iff]
      refine ⟨rfl, ?_⟩
      rw [he]
      exact hs.imp fun r i h => (indexOf_iff hn' r i).mpr h
    | _ => cases hc

/-- **C75**, partial: tables that are created with statements are there after a restart with the same definitions. Missing: as for
`C75_storable_partial`. -/
theorem C75_restart_partial (law : Lawful sql) (env' : Env ε) (henv : ∀ e, (sql.refs e).Perm (env'.refs e)) (ops : List (FolderOp ε)) (disk : Disk ε)
    (hrun : folderRun emptyFolder ops = some disk)
    (hcreated : ∀ m ∈ created ops, ∃ d tokens, Written sql d tokens ∧ Ascii d ∧ '\'' ∉ sql.lower d.name ∧ SelfName (sql.lower d.name) ∧
      create sql tokens = .ok m)
    (hnormal : ∀ t ∈ createdNormal ops, SelfName t.toList) :
    ∃ ts, start env' disk = .ok (normalTablesAfter [] ops, ts) ∧ List.Forall₂ SameDefinition (tablesAfter [] ops) ts := by
  refine C30_restart_partial sql.env env' henv ops disk hrun ?_ hnormal
  intro m hm
  obtain ⟨d, tokens, h1, h2, h3, h4, h5⟩ := hcreated m hm
  exact C75_storable_partial law h1 h2 h3 h4 h5

/-! ### An example -/

/-- Whether a token does not close a parenthesis. -/
def notClosing (t : Token) : Bool := t != .other ')'

/-- The names of columns in an expression, with ASCII letters in lower case. -/
def exprNames : List Token → List String
  | [] => []
  | .word value _ :: rest => String.ofList (value.map Char.toLower) :: exprNames rest
  | _ :: rest => exprNames rest

/-- Expressions without parentheses that are known by the names of their columns, which have to be fields. Numbers are written with the exponent
`-149`. Besides ASCII letters, `Ä` has a lower case. -/
def exampleSql : Sql (List String) where
  lower w := w.map fun c => if c = 'Ä' then 'ä' else c.toLower
  upper w := w.map Char.toUpper
  keywords := ["SELECT".toList, "TABLE".toList]
  validPath name := !name.isEmpty
  parseExpr tokens :=
    if tokens.dropWhile notClosing = [] then none else some (exprNames (tokens.takeWhile notClosing), tokens.dropWhile notClosing)
  refs := id
  physical schema e := e.all fun r => schema.any fun c => c.name = r ∧ c.type = .value
  display
    | .fin _ q => Nat.toDigits 10 (q * 10 ^ 149).num.toNat ++ "e-149".toList
    | _ => "inf".toList

theorem isDigit_toDigits (n : Nat) : ∀ c ∈ Nat.toDigits 10 n, c.isDigit = true :=
  fun _ hc => Nat.isDigit_of_mem_toDigits (by decide) (by decide) hc

/-- A magnitude of binary32 is read back from its text. -/
theorem decimal_display {q : ℚ} (h : Mag32 q) : decimal (Nat.toDigits 10 (q * 10 ^ 149).num.toNat ++ "e-149".toList) = some q := by
  obtain ⟨N, hN⟩ : ∃ N : Nat, q * 10 ^ 149 = N := by
    obtain ⟨m, e, -, he, rfl⟩ := h.rep
    have hemin : f32Fmt.emin = -149 := by decide
    obtain ⟨k, hk⟩ := Int.eq_ofNat_of_zero_le (show 0 ≤ e + 149 by omega)
    refine ⟨m * 2 ^ k * 5 ^ 149, ?_⟩
    have h1 : pow2 e * 2 ^ 149 = 2 ^ k := by
      have ha := pow2_natCast 149
      have hb := pow2_natCast k
      push_cast at ha hb
      rw [← ha, ← hb, ← pow2_add]
      congr 1
    have h2 : (10 : ℚ) ^ 149 = 2 ^ 149 * 5 ^ 149 := by norm_num
    push_cast
    rw [h2, ← h1]
    ring
  have hnum : (q * 10 ^ 149).num.toNat = N := by rw [hN]; simp
  rw [hnum]
  apply C75_number
  refine ⟨Nat.toDigits 10 N, [], [], "e-149".toList, -149, isDigit_toDigits N, by simp, .inl Nat.toDigits_ne_nil, .inr ⟨rfl, rfl⟩, ?_, by simp, ?_⟩
  · have := ExponentText.negative 'e' "149".toList (.inl rfl) (by decide) (by decide)
    exact this
  · rw [Nat.ofDigitChars_ten_toDigits, ← hN]
    simp only [Nat.ofDigitChars_nil, Nat.cast_zero, zero_div, add_zero]
    rw [zpow_neg, mul_assoc]
    norm_num

theorem exampleSql_lawful : Lawful exampleSql where
  lower := by
    intro w hw
    refine List.map_congr_left ?_
    intro c hc
    rw [if_neg]
    rintro rfl
    exact absurd (hw _ hc) (by decide)
  display := by
    intro text v h
    rcases parseF32_decimal h with ⟨rfl, -⟩ | ⟨q, hq, -, rfl⟩
    · decide +kernel
    · rcases round_nonneg hq with h' | ⟨r, hr, h'⟩
      · rw [h']
        decide +kernel
      · have hm : Mag32 r := by
          unfold FVal.round at h'
          simp only at h'
          split at h'
          · cases h'
          · rename_i hlt
            injection h' with _ h'
            subst h'
            exact ⟨hr, roundMag_representable (by decide) hq, lt_of_not_ge hlt⟩
        rw [h']
        exact (parseF32_of_decimal (decimal_display hm)).trans (by rw [round_mag32 hm])
  used := by
    intro tokens e rest h
    simp only [exampleSql] at h
    split at h
    · cases h
    · simp only [Option.some.injEq, Prod.mk.injEq] at h
      exact ⟨tokens.takeWhile notClosing, by rw [← h.2, List.takeWhile_append_dropWhile]⟩
  closed := by
    intro text e rest rest' h
    have hclosing : notClosing (.other ')') = false := by decide
    have key : ∀ t ∈ text, notClosing t = true := by
      by_contra hc
      push Not at hc
      simp only [exampleSql] at h
      split at h
      · cases h
      · simp only [Option.some.injEq, Prod.mk.injEq] at h
        have hlen := congrArg List.length h.2
        have hne : text.dropWhile notClosing ≠ [] := by
          intro hd
          obtain ⟨t, ht, hf⟩ := hc
          have hw := List.takeWhile_append_dropWhile (p := notClosing) (l := text)
          rw [hd, List.append_nil] at hw
          rw [← hw] at ht
          exact hf (List.all_eq_true.mp List.all_takeWhile t ht)
        have : (text ++ Token.other ')' :: rest).dropWhile notClosing = text.dropWhile notClosing ++ .other ')' :: rest := by
          rw [List.dropWhile_append, if_neg (by simpa using hne)]
        rw [this, List.length_append] at hlen
        have := List.length_pos_of_ne_nil hne
        omega
    have hdrop : ∀ r, (text ++ Token.other ')' :: r).dropWhile notClosing = .other ')' :: r := by
      intro r
      rw [List.dropWhile_append_of_pos key, List.dropWhile_cons, hclosing]
      rfl
    have htake : ∀ r, (text ++ Token.other ')' :: r).takeWhile notClosing = text := by
      intro r
      rw [List.takeWhile_append_of_pos key, List.takeWhile_cons, hclosing]
      simp
    simp only [exampleSql, hdrop, htake, reduceCtorEq, if_false, Option.some.injEq, Prod.mk.injEq] at h ⊢
    exact ⟨h.1, trivial⟩

/-- A word without quotes. -/
def bareWord (s : String) : Token := .word s.toList none

/-- `CREATE TIME SERIES TABLE name (columns)`. -/
def createTokens (name : String) (columns : List Token) : List Token :=
  [bareWord "create", bareWord "Time", bareWord "SERIES", bareWord "TABLE", bareWord name, .other '('] ++ columns ++ .other ')' :: [.semicolon]

/-- `ts TIMESTAMP, Sum FIELD AS (A + b), tag TAG, a FIELD(2.50), b FIELD(5e-1%), c FIELD(0)`. -/
def windColumns : List Token :=
  .word "ts".toList none :: [bareWord "TIMESTAMP"] ++ .comma ::
    (.word "Sum".toList none :: ([bareWord "FIELD", bareWord "as", .other '('] ++ [bareWord "A", .other '+', bareWord "b"] ++ [.other ')']) ++ .comma ::
      (.word "tag".toList (some '"') :: [bareWord "TAG"] ++ .comma ::
        (.word "a".toList none :: [bareWord "field", .other '(', .number "2.50".toList, .other ')'] ++ .comma ::
          (.word "b".toList none :: [bareWord "FIELD", .other '(', .number "5e-1".toList, .other '%', .other ')'] ++ .comma ::
            (.word "c".toList none :: [bareWord "FIELD", .other '(', .number "0".toList, .other ')'])))))

/-- What the columns declare. -/
def windDeclaration : Declaration (List String) :=
  ⟨"Wind".toList,
    [⟨"ts".toList, .timestamp⟩, ⟨"Sum".toList, .computed [bareWord "A", .other '+', bareWord "b"] ["a", "b"]⟩, ⟨"tag".toList, .tag⟩,
      ⟨"a".toList, .bounded "2.50".toList false⟩, ⟨"b".toList, .bounded "5e-1".toList true⟩, ⟨"c".toList, .bounded "0".toList false⟩]⟩

theorem wind_written : Written exampleSql windDeclaration (createTokens "Wind" windColumns) := by
  refine ⟨[], [.semicolon], bareWord "create", bareWord "Time", bareWord "SERIES", bareWord "TABLE", none, windColumns, by simp [Ends], by simp [Ends],
    ⟨_, rfl, by decide⟩, ⟨_, _, rfl, by decide⟩, ⟨_, _, rfl, by decide⟩, ⟨_, rfl, by decide⟩, ?_, rfl⟩
  refine .cons _ _ _ _ _ _ (.timestamp _ ⟨_, _, rfl, by decide⟩) ?_
  refine .cons _ _ _ _ _ _ (.computed _ _ _ _ ⟨_, _, rfl, by decide⟩ ⟨_, _, rfl, by decide⟩ ?_) ?_
  · intro rest
    rfl
  refine .cons _ _ _ _ _ _ (.tag _ ⟨_, _, rfl, by decide⟩) ?_
  refine .cons _ _ _ _ _ _ (.number _ _ ⟨_, _, rfl, by decide⟩) ?_
  refine .cons _ _ _ _ _ _ (.percentage _ _ ⟨_, _, rfl, by decide⟩) ?_
  exact .last _ _ _ _ (.number _ _ ⟨_, _, rfl, by decide⟩)

/-- The name, the names of all columns, the names of the stored columns, the error bounds and the expressions of a table. -/
structure Shown where
  name : String
  columns : List String
  stored : List String
  bounds : List ErrorBound
  generated : List (Option (Generated (List String)))
deriving DecidableEq

/-- What is shown of a definition. -/
def shown (m : Except Failure (Metadata (List String))) : Option Shown :=
  match m with
  | .ok m => some ⟨m.name, m.querySchema.map (·.name), m.schema.map (·.name), m.errorBounds, m.generated⟩
  | .error _ => none

/-- The hypotheses can be met: the statement is accepted and the table has the columns, error bounds and the expression that are declared. -/
theorem wind_shown : shown (create exampleSql (createTokens "Wind" windColumns)) =
    some ⟨"wind", ["ts", "sum", "tag", "a", "b", "c"], ["ts", "tag", "a", "b", "c"],
      [.lossless, .lossless, .absolute (.fin false (5 / 2)), .relative (.fin false (1 / 2)), .lossless],
      [none, some ⟨["a", "b"], [3, 4]⟩, none, none, none, none]⟩ := by
  decide +kernel

theorem wind_accepted : ∃ m, create exampleSql (createTokens "Wind" windColumns) = .ok m := by
  cases h : create exampleSql (createTokens "Wind" windColumns) with
  | ok m => exact ⟨m, rfl⟩
  | error e =>
    have := wind_shown
    rw [h] at this
    cases this

theorem wind_ascii : Ascii windDeclaration := by unfold Ascii; decide

example : Sensible exampleSql windDeclaration :=
  (C75_accepted_partial exampleSql_lawful wind_written wind_ascii).mp wind_accepted

example : ∃ m, create exampleSql (createTokens "Wind" windColumns) = .ok m ∧ Defines exampleSql windDeclaration m ∧ Storable listEnv m ∧
    keptOnRestart (.ok m) = true := by
  obtain ⟨m, hm⟩ := wind_accepted
  refine ⟨m, hm, C75_defines_partial exampleSql_lawful wind_written wind_ascii hm,
    C75_storable_partial exampleSql_lawful wind_written wind_ascii (by decide) (by unfold SelfName; decide +kernel) hm, ?_⟩
  rw [← hm]
  decide +kernel

/-- A number with a point and an exponent: `12.5E+2` is 1250. -/
example : NumberText "12.5E+2".toList 1250 ∧ decimal "12.5E+2".toList = some 1250 := by
  have h : NumberText "12.5E+2".toList 1250 :=
    ⟨"12".toList, "5".toList, ['.'], "E+2".toList, 2, by decide, by decide, .inl (by decide), .inl rfl,
      .positive 'E' ['+'] "2".toList (.inr rfl) (.inr rfl) (by decide) (by decide), rfl, by
        have h1 : Nat.ofDigitChars 10 "12".toList 0 = 12 := by decide
        have h2 : Nat.ofDigitChars 10 "5".toList 0 = 5 := by decide
        have h3 : "5".toList.length = 1 := by decide
        rw [h1, h2, h3]
        norm_num⟩
  exact ⟨h, C75_number h⟩

/-- Declarations that do not make sense are rejected: two columns whose names differ in case, a percentage above 100 and an expression of a tag. -/
example : shown (create exampleSql (createTokens "t" ([bareWord "ts", bareWord "TIMESTAMP", .comma, bareWord "a", bareWord "FIELD", .comma,
        bareWord "A", bareWord "FIELD"]))) = none ∧
    shown (create exampleSql (createTokens "t" ([bareWord "ts", bareWord "TIMESTAMP", .comma, bareWord "a", bareWord "FIELD", .other '(',
        .number "101".toList, .other '%', .other ')']))) = none ∧
    shown (create exampleSql (createTokens "t" ([bareWord "ts", bareWord "TIMESTAMP", .comma, bareWord "a", bareWord "FIELD", .comma,
        bareWord "g", bareWord "TAG", .comma, bareWord "b", bareWord "FIELD", bareWord "AS", .other '(', bareWord "g", .other ')']))) = none := by
  decide +kernel

/-! ### Names with other characters -/

/-- `ts TIMESTAMP, "Ä" FIELD, "ä" FIELD`. -/
def umlautColumns : List Token :=
  [bareWord "ts", bareWord "TIMESTAMP", .comma, .word ['Ä'] (some '"'), bareWord "FIELD", .comma, .word ['ä'] (some '"'), bareWord "FIELD"]

/-- **C75** is false for other characters: two columns whose names only differ in case are accepted, since the names are compared with only ASCII
letters in lower case, but the columns then have the same name and the server does not start again. -/
theorem C75_same_name_accepted :
    shown (create exampleSql (createTokens "t" umlautColumns)) =
        some ⟨"t", ["ts", "ä", "ä"], ["ts", "ä", "ä"], [.lossless, .lossless, .lossless], [none, none, none]⟩ ∧
      restarted listEnv (create exampleSql (createTokens "t" umlautColumns)) = some (.error .error) := by
  decide +kernel

/-- `ts TIMESTAMP, Ä FIELD, b FIELD AS (Ä + 1)`. -/
def umlautExpression : List Token :=
  [bareWord "ts", bareWord "TIMESTAMP", .comma, .word ['Ä'] none, bareWord "FIELD", .comma, bareWord "b", bareWord "FIELD", bareWord "AS", .other '(',
    .word ['Ä'] none, .other '+', .number ['1'], .other ')']

/-- **C75** is false for other characters: an expression refers to a column by a name that the column does not have, and the server does not start
again. -/
theorem C75_expression_of_no_column :
    shown (create exampleSql (createTokens "t" umlautExpression)) =
        some ⟨"t", ["ts", "ä", "b"], ["ts", "ä"], [.lossless, .lossless], [none, none, some ⟨["Ä"], [1]⟩]⟩ ∧
      restarted listEnv (create exampleSql (createTokens "t" umlautExpression)) = some (.error .error) := by
  decide +kernel

end ModelarDB.Props
