import Verif.Model.Client
import Verif.Props.C42
/-
C61: An operation of the embedded library acts on exactly the table it is given.
-/
namespace ModelarDB.Props
open Model Model.Statements Model.Client Spec Lemmas

/-- The statement an operation stands for. -/
def statementOf (name : List Char) : TableOp → Statement
  | .drop => .dropTable [name]
  | .truncate => .truncate [name] false
  | .vacuum retention => .vacuum [name] retention false

theorem clientText_eq (name : List Char) (op : TableOp) : clientText name op = forwardedText (statementOf name op) := by
  cases op with
  | vacuum r => cases r <;> rfl
  | _ => rfl

/-- A name of letters, digits and underscores that starts with a letter or an underscore and is not a word of the statements. -/
def ClientName (name : List Char) : Prop :=
  PlainName name ∧ name.map Char.toUpper ≠ "CLUSTER".toList ∧ name.map Char.toUpper ≠ "RETAIN".toList

/-- **C61** for a node, partial: with a name that needs no quotes and is not `cluster` or `retain`, every operation acts on exactly the table it is
given, whatever tables the node has. -/
theorem C61_client_partial (tables : List (List Char)) (name : List Char) (op : TableOp) (hname : ClientName name)
    (hperiod : ∀ n, op = .vacuum (some n) → n ≤ maxRetention) : ActsOn tables [name] (clientPerform tables op name) := by
  obtain ⟨tokens, h1, h2⟩ := C42_forwarded_partial (statementOf name op) (by cases op <;> simp [statementOf, namesOf])
    (by
      intro n hn
      have : n = name := by cases op <;> simpa [statementOf, namesOf] using hn
      rw [this]
      exact hname.1)
    (by
      intro n hn
      have : n = name := by cases op <;> simpa [statementOf, namesOf] using hn
      rw [this]
      exact hname.2)
    (by
      intro names n cluster h
      cases op with
      | vacuum r =>
        simp only [statementOf] at h
        injection h with _ h _
        exact hperiod n (by rw [h])
      | _ => simp [statementOf] at h)
  have hp : clientPerform tables op name = execute tables (locally (statementOf name op)) := by
    unfold clientPerform atNode
    rw [clientText_eq, h1]
    show (match parse tokens with | some s => execute tables s | none => ([], false)) = _
    rw [h2]
  rw [hp]
  have hall : ∀ removes : Bool, ActsOn tables [name] (perform removes tables [name]) := fun removes =>
    ⟨fun n hn => perform_acts removes _ _ n hn, fun h => perform_all removes _ _ h (by simp)⟩
  cases op with
  | drop => exact hall true
  | truncate => exact hall false
  | vacuum r => exact hall false

/-- **C61** for a node, for retention periods: one that is too long is rejected and nothing is done. -/
theorem C61_client_period_partial (tables : List (List Char)) (name : List Char) (n : Nat) (hname : ClientName name) (hn : maxRetention < n) :
    clientPerform tables (.vacuum (some n)) name = ([], false) := by
  have hd := toDigits_digits n
  have hnil : Ends [] := by intro t ht; cases ht
  have hnot : (∀ w, (plainWords [name]).head? = some w → w.Not "CLUSTER") ∧ ∀ w, (plainWords [name]).head? = some w → w.Not "RETAIN" := by
    constructor
    all_goals
      intro w hw
      injection hw with hw
      subst hw
      rintro ⟨v, hv, hu⟩
      injection hv with hv
      subst hv
    · exact hname.2.1 hu
    · exact hname.2.2 hu
  have htok : tokenize (clientText name (.vacuum (some n))) =
      some (.word "VACUUM".toList none :: (listing (plainWords [name]) ++ [.word "RETAIN".toList none, .number (Nat.toDigits 10 n)])) := by
    have e : clientText name (.vacuum (some n)) = "VACUUM ".toList ++ (join ", ".toList [name] ++ (" RETAIN ".toList ++ Nat.toDigits 10 n)) :=
      (List.append_assoc _ _ _).trans (List.append_assoc _ _ _)
    rw [e]
    refine (tokenize_keyword (k := "VACUUM".toList) (text := "VACUUM ".toList) (by decide +kernel) (by decide +kernel) _).trans ?_
    rw [tokenize_clause (k := "RETAIN".toList) (text := " RETAIN ".toList) (names := [name]) (by decide +kernel) (by decide +kernel) (by simp)
      (by simpa using hname.1) hd.1 hd.2, Option.map_some]
  have hparse := parse_vacuum (pre := []) (post := []) (ws := plainWords [name]) (retention := some n) (cluster := false) hnil hnil
    (body := .word "VACUUM".toList none :: (listing (plainWords [name]) ++ [.word "RETAIN".toList none, .number (Nat.toDigits 10 n)]))
    ⟨_, [], _, rfl, ⟨_, rfl, by decide +kernel⟩, rfl, ⟨_, _, rfl, ⟨_, rfl, by decide +kernel⟩, hd.1, hd.2, Nat.ofDigitChars_ten_toDigits⟩,
      hnot.2, fun _ => hnot.1⟩
  rw [List.append_nil, List.nil_append, if_neg (by intro h; have := h n rfl; omega)] at hparse
  unfold clientPerform atNode
  rw [htok, Option.bind_some, hparse]

/-- **C61** for a data folder: every operation acts on exactly the table it is given, whatever its name is. -/
theorem C61_folder (tables : List (List Char)) (name : List Char) (op : TableOp) (hperiod : ∀ n, op = .vacuum (some n) → n ≤ maxRetention) :
    ActsOn tables [name] (folderPerform tables op name) := by
  have hret : ∀ r, op = .vacuum r → (retentionUsed r).isSome = true := by
    intro r hr
    have hle : ((r.getD (60 * 60 * 24 * 7) : Nat) : Int) ≤ (2 ^ 63 - 1) / 1000 := by
      cases r with
      | none => decide
      | some n =>
        have := hperiod n hr
        unfold maxRetention at this
        show ((n : Nat) : Int) ≤ _
        omega
    unfold retentionUsed timeDelta castI64
    have hlt : r.getD (60 * 60 * 24 * 7) < 2 ^ 63 := by omega
    rw [if_pos hlt, if_pos ⟨by omega, hle⟩]
    rfl
  unfold folderPerform
  by_cases h : name ∈ tables
  · rw [if_pos h]
    have hfin : ActsOn tables [name] ([name], true) :=
      ⟨fun n hn => ⟨hn, by rw [List.mem_singleton.mp hn]; exact h⟩, fun _ => rfl⟩
    cases op with
    | vacuum r => simp only; rw [if_pos (hret r rfl)]; exact hfin
    | _ => exact hfin
  · rw [if_neg h]
    exact ⟨fun n hn => absurd hn (by simp), fun hall => absurd (hall name (by simp)) h⟩

/-- Texts arrive in Rust as they are in Python exactly if they have no zero character. -/
theorem C61_text (text : List Char) : throughC text = text ↔ '\x00' ∉ text := by
  unfold throughC
  induction text with
  | nil => simp
  | cons c text ih =>
    by_cases hc : c = '\x00'
    · subst hc
      simp
    · rw [List.takeWhile_cons_of_pos (by simpa using hc)]
      simp only [List.cons.injEq, true_and, List.mem_cons, not_or]
      rw [ih]
      exact ⟨fun h => ⟨fun h' => hc h'.symm, h⟩, fun h => h.2⟩

/-- **C61** in Python, partial: for a data folder with any name without a zero character and for a node with a name as in `C61_client_partial`. -/
theorem C61_python_partial (kind : Kind) (tables : List (List Char)) (name : List Char) (op : TableOp)
    (hname : match kind with | .dataFolder => '\x00' ∉ name | .client => ClientName name)
    (hperiod : ∀ n, op = .vacuum (some n) → n ≤ maxRetention) : ActsOn tables [name] (pythonPerform kind tables op name) := by
  cases kind with
  | dataFolder =>
    unfold pythonPerform
    simp only
    rw [(C61_text name).2 hname]
    exact C61_folder tables name op hperiod
  | client =>
    unfold pythonPerform
    simp only
    rw [(C61_text name).2]
    · exact C61_client_partial tables name op hname hperiod
    · intro hc
      exact absurd (hname.1.1 _ hc) (by decide +kernel)

/-! ### A case that meets the hypotheses, and where the property is false -/

example : ClientName "wind_1".toList ∧
    clientPerform ["wind_1".toList, "wind".toList] (.vacuum (some 30)) "wind_1".toList = (["wind_1".toList], true) ∧
    clientPerform ["wind".toList] .drop "wind_1".toList = ([], false) := by
  refine ⟨⟨plainName_of (by decide +kernel), by decide +kernel, by decide +kernel⟩, by decide +kernel, by decide +kernel⟩

/-- **C61** is false of the code for a node if a name has a comma: dropping `a,b` drops the tables `a` and `b` and not the table `a,b`, which can be
created. -/
theorem C61_client_comma : createdName [] (fun _ => true) ["a,b".toList] = some "a,b".toList ∧
    clientPerform [['a'], ['b'], "a,b".toList] .drop "a,b".toList = ([['a'], ['b']], true) ∧
    ¬ ActsOn [['a'], ['b'], "a,b".toList] ["a,b".toList] (clientPerform [['a'], ['b'], "a,b".toList] .drop "a,b".toList) := by
  have h : clientPerform [['a'], ['b'], "a,b".toList] .drop "a,b".toList = ([['a'], ['b']], true) := by decide +kernel
  refine ⟨by decide +kernel, h, fun hc => ?_⟩
  rw [h] at hc
  exact absurd (hc.1 ['a'] (by simp)).1 (by decide +kernel)

theorem tokenize_plain {name : List Char} (h : PlainName name) : tokenize name = some [.word name none] := by
  have := tokenize_word (rest := []) h (by rintro c ⟨⟩)
  rw [List.append_nil] at this
  rw [this]
  rfl

theorem tokenize_period (rest : List Char) : tokenize ('.' :: rest) = (tokenize rest).map (Token.period :: ·) := by
  unfold tokenize
  rw [List.length_cons, tokenizeWith]
  rfl

theorem client_drop {tables : List (List Char)} {name : List Char} {names : List (List Part)} (ht : tokenize name = some (dottedListing names))
    (hne : names ≠ []) (hall : ∀ parts ∈ names, parts ≠ []) :
    clientPerform tables .drop name = perform true tables (names.map fun parts => (parts.map Part.value).flatten) := by
  have htok : tokenize (clientText name .drop) = some (.word "DROP".toList none :: .word "TABLE".toList none :: dottedListing names) := by
    show tokenize ("DROP TABLE ".toList ++ name) = _
    rw [tokenize_keywords (k := "DROP".toList) (k' := "TABLE".toList) (by decide +kernel) (by decide +kernel) (by decide +kernel), ht]
    rfl
  have hparse := (C42_drop_iff (.word "DROP".toList none :: .word "TABLE".toList none :: dottedListing names) _).mpr
    ⟨[], _, [], names, by simp [Ends], by simp [Ends], by rw [List.append_nil, List.nil_append],
      ⟨_, _, rfl, ⟨_, rfl, by decide +kernel⟩, ⟨_, rfl, by decide +kernel⟩, hne, hall⟩, rfl⟩
  unfold clientPerform atNode
  rw [htok, Option.bind_some, hparse]
  rfl

/-- **C61** is false of the code for a node for all identifiers with a comma between them: dropping `a,b` drops the tables `a` and `b`. -/
theorem C61_client_comma_all (tables : List (List Char)) (a b : List Char) (ha : PlainName a) (hb : PlainName b) (hne : a ≠ b) (h1 : a ∈ tables)
    (h2 : b ∈ tables) : clientPerform tables .drop (a ++ ',' :: b) = ([a, b], true) := by
  rw [client_drop (names := [[.word ⟨a, none⟩], [.word ⟨b, none⟩]]) ?_ (by simp) (by simp)]
  · show perform true tables [a ++ [], b ++ []] = _
    rw [List.append_nil, List.append_nil]
    exact perform_all true [a, b] tables (by simp [h1, h2]) (by simp [hne])
  · rw [tokenize_word ha (by rintro c ⟨⟩; decide +kernel), tokenize_comma, tokenize_plain hb]
    rfl

/-- **C61** is false of the code for a node for all identifiers with a period between them: dropping `a.b` drops the table `ab` if there is one, and
otherwise nothing although there is a table `a.b`. -/
theorem C61_client_period_all (tables : List (List Char)) (a b : List Char) (ha : PlainName a) (hb : PlainName b) :
    clientPerform tables .drop (a ++ '.' :: b) = if a ++ b ∈ tables then ([a ++ b], true) else ([], false) := by
  rw [client_drop (names := [[.word ⟨a, none⟩, .word ⟨b, none⟩]]) ?_ (by simp) (by simp)]
  · show perform true tables [a ++ (b ++ [])] = _
    rw [List.append_nil]
    simp only [perform]
  · rw [tokenize_word ha (by rintro c ⟨⟩; decide +kernel), tokenize_period, tokenize_plain hb]
    rfl

example : PlainName "wind".toList ∧ PlainName "speed_1".toList ∧
    clientPerform ["wind".toList, "speed_1".toList] .drop "wind,speed_1".toList = (["wind".toList, "speed_1".toList], true) :=
  ⟨plainName_of (by decide +kernel), plainName_of (by decide +kernel), by decide +kernel⟩

/-- **C61** is false of the code for a node if the name is empty: vacuuming it vacuums all tables. -/
theorem C61_client_empty (tables : List (List Char)) : clientPerform tables (.vacuum none) [] = (tables, true) := by
  have h : (tokenize (clientText [] (.vacuum none))).bind parse = some (.vacuum [] none false) := by decide +kernel
  unfold clientPerform atNode
  rw [h]
  exact perform_all false tables tables (fun _ h => h) (by simp)

/-- **C61** is false of the code for a node if a name has spaces or is `cluster`: `cluster a` truncates `a` in the whole cluster, `a retain 0` vacuums
`a` with no retention period although none is given, and the table `cluster`, which can be created, cannot be truncated. -/
theorem C61_client_words :
    (tokenize (clientText "cluster a".toList .truncate)).bind parse = some (.truncate [['a']] true) ∧
    clientPerform [['a']] .truncate "cluster a".toList = ([['a']], true) ∧
    (tokenize (clientText "a retain 0".toList (.vacuum none))).bind parse = some (.vacuum [['a']] (some 0) false) ∧
    clientPerform [['a']] (.vacuum none) "a retain 0".toList = ([['a']], true) ∧
    clientPerform ["cluster".toList] .truncate "cluster".toList = ([], false) := by
  refine ⟨?_, ?_, ?_, ?_, ?_⟩ <;> decide +kernel

/-- **C61** is false of the code for a node if a name has other characters: the table `a-b`, which can be created, is not dropped, and dropping `a.b`
drops `ab`. -/
theorem C61_client_characters : createdName [] (fun _ => true) ["a-b".toList] = some "a-b".toList ∧
    clientPerform ["a-b".toList] .drop "a-b".toList = ([], false) ∧
    clientPerform [['a', 'b'], "a.b".toList] .drop "a.b".toList = ([['a', 'b']], true) := by
  refine ⟨?_, ?_, ?_⟩ <;> decide +kernel

/-- **C61** is false of the code in Python if a name has a zero character: dropping `a`, zero, `b` drops the table `a`. -/
theorem C61_python_zero : pythonPerform .dataFolder [['a']] .drop ['a', '\x00', 'b'] = ([['a']], true) ∧
    ¬ ActsOn [['a']] [['a', '\x00', 'b']] (pythonPerform .dataFolder [['a']] .drop ['a', '\x00', 'b']) := by
  have h : pythonPerform .dataFolder [['a']] .drop ['a', '\x00', 'b'] = ([['a']], true) := by decide +kernel
  refine ⟨h, fun hc => ?_⟩
  rw [h] at hc
  exact absurd (hc.1 ['a'] (by simp)).1 (by decide +kernel)

end ModelarDB.Props
