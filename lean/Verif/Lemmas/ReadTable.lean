import Verif.Spec.ReadTable
import Verif.Lemmas.Statements
/-
Lemmas about the text of `read_time_series_table`.
-/
namespace ModelarDB.Lemmas
open Model Model.Statements Model.ReadTable Spec

/-- Text that ends a token. -/
def Ends (text : List Char) : Prop := ∀ c, text.head? = some c → c = ' ' ∨ c = ',' ∨ c = '(' ∨ c = ')'

theorem Ends.stops {text : List Char} (h : Ends text) : StopsWord text := by
  intro c hc
  rcases h c hc with rfl | rfl | rfl | rfl <;> decide

theorem ends_nil : Ends [] := by rintro c ⟨⟩
theorem ends_space (rest : List Char) : Ends (' ' :: rest) := by rintro c ⟨⟩; simp
theorem ends_comma (rest : List Char) : Ends (',' :: rest) := by rintro c ⟨⟩; simp
theorem ends_open (rest : List Char) : Ends ('(' :: rest) := by rintro c ⟨⟩; simp
theorem ends_close (rest : List Char) : Ends (')' :: rest) := by rintro c ⟨⟩; simp

/-- The tokens of a text, whatever follows. -/
def Lexes (text : List Char) (tokens : List Token) : Prop := ∀ rest, Ends rest → tokenize (text ++ rest) = (tokenize rest).map (tokens ++ ·)

theorem Lexes.tokenize {text : List Char} {tokens : List Token} (h : Lexes text tokens) : tokenize text = some tokens := by
  have := h [] ends_nil
  rw [List.append_nil] at this
  rw [this]
  show some (tokens ++ []) = _
  rw [List.append_nil]

theorem lexes_nil : Lexes [] [] := by
  intro rest _
  cases h : Statements.tokenize rest <;> simp [h]

theorem lexes_word {name : List Char} (h : PlainName name) : Lexes name [.word name none] := fun _ hr => tokenize_word h hr.stops

theorem Lexes.space {a b : List Char} {s t : List Token} (ha : Lexes a s) (hb : Lexes b t) : Lexes (a ++ ' ' :: b) (s ++ t) := by
  intro rest hr
  rw [List.append_assoc, List.cons_append, ha _ (ends_space _), tokenize_space, hb rest hr, Option.map_map]
  congr 1
  funext l
  simp

theorem Lexes.comma {a b : List Char} {s t : List Token} (ha : Lexes a s) (hb : Lexes b t) : Lexes (a ++ ", ".toList ++ b) (s ++ .comma :: t) := by
  intro rest hr
  rw [List.append_assoc, List.append_assoc, show ∀ l : List Char, ", ".toList ++ l = ',' :: ' ' :: l from fun _ => rfl, ha _ (ends_comma _),
    tokenize_comma, tokenize_space, hb rest hr, Option.map_map, Option.map_map]
  congr 1
  funext l
  simp

theorem tokenize_other {c : Char} (h : c = '(' ∨ c = ')' ∨ c = '=' ∨ c = '<') (rest : List Char) :
    tokenize (c :: rest) = (tokenize rest).map (Token.other c :: ·) := by
  unfold tokenize
  rw [List.length_cons, tokenizeWith]
  rcases h with rfl | rfl | rfl | rfl <;> rfl

theorem lexes_call {f c : List Char} (hf : PlainName f) (hc : PlainName c) :
    Lexes (f ++ ('(' :: (c ++ [')']))) [.word f none, .other '(', .word c none, .other ')'] := by
  intro rest hr
  rw [List.append_assoc, List.cons_append, lexes_word hf _ (ends_open _), tokenize_other (.inl rfl), List.append_assoc,
    List.cons_append, lexes_word hc _ (ends_close _), tokenize_other (.inr (.inl rfl)), List.nil_append]
  cases Statements.tokenize rest <;> rfl

theorem lexes_eq : Lexes ['='] [.other '='] := fun rest _ => tokenize_other (.inr (.inr (.inl rfl))) rest

theorem lexes_le : Lexes ['<', '='] [.other '<', .other '='] := by
  intro rest _
  show tokenize ('<' :: '=' :: rest) = _
  rw [tokenize_other (.inr (.inr (.inr rfl))), tokenize_other (.inr (.inr (.inl rfl)))]
  cases Statements.tokenize rest <;> rfl

theorem quoted_plain : ∀ {value rest : List Char}, '\'' ∉ value → (∀ c, rest.head? = some c → c ≠ '\'') →
    quoted '\'' (value ++ '\'' :: rest) = some (value, rest)
  | [], [], _, _ => rfl
  | [], d :: rest, _, hr => by
    have := hr d rfl
    simp [quoted, this]
  | c :: value, rest, hv, hr => by
    have h1 : c ≠ '\'' := by rintro rfl; exact hv (by simp)
    rw [List.cons_append, quoted.eq_def]
    simp only [if_neg h1]
    rw [quoted_plain (fun h => hv (List.mem_cons_of_mem _ h)) hr]
    rfl

theorem lexes_string {value : List Char} (h : '\'' ∉ value) : Lexes ('\'' :: (value ++ ['\''])) [.string value] := by
  intro rest hr
  have hq : quoted '\'' (value ++ '\'' :: rest) = some (value, rest) := quoted_plain h fun c hc => by
    rcases hr c hc with rfl | rfl | rfl | rfl <;> decide
  rw [List.cons_append, List.append_assoc, List.singleton_append]
  unfold Statements.tokenize
  rw [List.length_cons, tokenizeWith]
  simp only [show ('\'' : Char).isWhitespace = false by decide, show isIdentifierStart '\'' = false by decide,
    show ('\'' : Char).isDigit = false by decide, hq, Bool.false_eq_true, if_false,
    show ¬('\'' = '"' ∨ '\'' = '`') by decide, if_true]
  rw [tokenizeWith_fuel _ rest.length rest (by simp; omega) (le_refl _)]
  rfl

/-- Lists of tokens with a token between them. -/
def joinTokens (sep : Token) : List (List Token) → List Token
  | [] => []
  | [a] => a
  | a :: rest => a ++ sep :: joinTokens sep rest

theorem lexes_commas : ∀ (texts : List (List Char × List Token)), (∀ x ∈ texts, Lexes x.1 x.2) →
    Lexes (join ", ".toList (texts.map (·.1))) (joinTokens .comma (texts.map (·.2)))
  | [], _ => lexes_nil
  | [x], h => h x (by simp)
  | x :: y :: rest, h => (h x (by simp)).comma (lexes_commas (y :: rest) fun z hz => h z (List.mem_cons_of_mem _ hz))

theorem lexes_ands : ∀ (texts : List (List Char × List Token)), (∀ x ∈ texts, Lexes x.1 x.2) →
    Lexes (join " AND ".toList (texts.map (·.1))) (joinTokens (.word "AND".toList none) (texts.map (·.2)))
  | [], _ => lexes_nil
  | [x], h => h x (by simp)
  | x :: y :: rest, h => by
    have h1 := (h x (by simp)).space ((lexes_word (name := "AND".toList) ⟨by decide, 'A', _, rfl, by decide⟩).space
      (lexes_ands (y :: rest) fun z hz => h z (List.mem_cons_of_mem _ hz)))
    have h2 : join " AND ".toList ((x :: y :: rest).map (·.1)) =
        x.1 ++ ' ' :: ("AND".toList ++ ' ' :: join " AND ".toList ((y :: rest).map (·.1))) := by
      show x.1 ++ " AND ".toList ++ join " AND ".toList ((y :: rest).map (·.1)) = _
      rw [List.append_assoc]
      rfl
    rw [h2]
    exact h1

/-! ### Parsing -/

theorem splitTokens_single {p : Token → Bool} : ∀ {xs : List Token}, (∀ x ∈ xs, p x = false) → splitTokens p xs = [xs]
  | [], _ => rfl
  | x :: xs, h => by
    rw [splitTokens, if_neg (by rw [h x (by simp)]; simp), splitTokens_single fun y hy => h y (List.mem_cons_of_mem _ hy)]

theorem splitTokens_first {p : Token → Bool} {sep : Token} (hsep : p sep = true) (rest : List Token) : ∀ {xs : List Token}, (∀ x ∈ xs, p x = false) →
    splitTokens p (xs ++ sep :: rest) = xs :: splitTokens p rest
  | [], _ => by rw [List.nil_append, splitTokens, if_pos hsep]
  | x :: xs, h => by
    rw [List.cons_append, splitTokens, if_neg (by rw [h x (by simp)]; simp), splitTokens_first hsep rest fun y hy => h y (List.mem_cons_of_mem _ hy)]

theorem splitTokens_join {p : Token → Bool} {sep : Token} (hsep : p sep = true) : ∀ {parts : List (List Token)}, parts ≠ [] →
    (∀ part ∈ parts, ∀ x ∈ part, p x = false) → splitTokens p (joinTokens sep parts) = parts
  | [], h, _ => absurd rfl h
  | [a], _, h => splitTokens_single (h a (by simp))
  | a :: b :: rest, _, h => by
    rw [joinTokens, splitTokens_first hsep _ (h a (by simp)), splitTokens_join hsep (by simp) fun part hp => h part (List.mem_cons_of_mem _ hp)]
    simp

theorem mem_joinTokens {sep x : Token} : ∀ {parts : List (List Token)}, x ∈ joinTokens sep parts → x = sep ∨ ∃ part ∈ parts, x ∈ part
  | [], h => by simp [joinTokens] at h
  | [a], h => .inr ⟨a, by simp, h⟩
  | a :: b :: rest, h => by
    rw [joinTokens] at h
    · rcases List.mem_append.mp h with h | h
      · exact .inr ⟨a, by simp, h⟩
      · rcases List.mem_cons.mp h with h | h
        · exact .inl h
        · rcases mem_joinTokens h with h | ⟨part, hp, hx⟩
          · exact .inl h
          · exact .inr ⟨part, List.mem_cons_of_mem _ hp, hx⟩
    · simp

theorem mapM_some {α β : Type} {f : α → Option β} {g : α → β} : ∀ {l : List α}, (∀ x ∈ l, f x = some (g x)) → l.mapM f = some (l.map g)
  | [], _ => rfl
  | x :: l, h => by
    rw [List.mapM_cons, h x (by simp), mapM_some fun y hy => h y (List.mem_cons_of_mem _ hy)]
    rfl

theorem span_stop {p : Token → Bool} {xs rest : List Token} (hx : ∀ x ∈ xs, p x = true) (hr : ∀ x, rest.head? = some x → p x = false) :
    (xs ++ rest).takeWhile p = xs ∧ (xs ++ rest).dropWhile p = rest := by
  induction xs with
  | nil =>
    cases rest with
    | nil => exact ⟨rfl, rfl⟩
    | cons c rest =>
      have := hr c rfl
      simp [this]
  | cons c xs ih =>
    have h1 := ih fun x h => hx x (List.mem_cons_of_mem _ h)
    simp [hx c (by simp), h1.1, h1.2]

theorem isReserved_iff {more : List (List Char)} {name : List Char} :
    isReserved more name = false ↔ name.map Char.toUpper ∉ queryWords ∧ name.map Char.toUpper ∉ more := by
  have h : grammarWords = queryWords := by decide
  unfold isReserved
  rw [h, Bool.or_eq_false_iff]
  simp only [← Bool.not_eq_true, List.contains_iff_mem]

theorem readable_parse {more : List (List Char)} {name : List Char} (h : Readable more name) : parseName more (.word name none) = some name := by
  show (if isReserved more name then none else some (name.map Char.toLower)) = _
  rw [isReserved_iff.mpr h.free]
  simp only [Bool.false_eq_true, if_false]
  rw [List.map_congr_left h.lower, List.map_id']

theorem parseItem_call {more : List (List Char)} {f c : List Char} {a : Aggregate} (hf : parseAggregate f = some a) (h : Readable more c) :
    parseItem more [.word f none, .other '(', .word c none, .other ')'] = some (c, a) := by
  unfold parseItem
  simp only [and_self, if_true, hf, Option.bind_some, readable_parse h, Option.map_some]

theorem parseComparison_eq {more : List (List Char)} {a b : Token} {x y : Operand} (ha : parseOperand more a = some x)
    (hb : parseOperand more b = some y) : parseComparison more [a, .other '=', b] = some ⟨x, .eq, y⟩ := by
  unfold parseComparison
  simp only [if_true, ha, hb, Option.bind_some, Option.map_some]

theorem parseComparison_le {more : List (List Char)} {a b : Token} {x y : Operand} (ha : parseOperand more a = some x)
    (hb : parseOperand more b = some y) : parseComparison more [a, .other '<', .other '=', b] = some ⟨x, .le, y⟩ := by
  unfold parseComparison
  simp only [and_self, if_true, ha, hb, Option.bind_some, Option.map_some]

theorem parseOperand_column {more : List (List Char)} {c : List Char} (h : Readable more c) :
    parseOperand more (.word c none) = some (.column c) := by
  show (parseName more (.word c none)).map Operand.column = _
  rw [readable_parse h]
  rfl

theorem readable_not_keyword {more : List (List Char)} {name : List Char} (h : Readable more name) {k : List Char} (hk : k ∈ grammarWords) :
    (Token.word name none).isKeyword k = false := by
  have := isReserved_iff.mpr h.free
  unfold isReserved at this
  rw [Bool.or_eq_false_iff] at this
  show decide (name.map Char.toUpper = k) = false
  rw [decide_eq_false_iff_not]
  rintro rfl
  rw [List.contains_iff_mem.mpr hk] at this
  exact absurd this.1 (by simp)

end ModelarDB.Lemmas
