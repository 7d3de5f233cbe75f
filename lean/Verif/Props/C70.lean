import Verif.Spec.CommandLine
import Mathlib.Data.List.Basic
import Mathlib.Tactic.Tauto
import Mathlib.Tactic.IntervalCases
import Mathlib.Data.List.TakeWhile
/-
C70: The command-line client executes what a file says.
-/
namespace ModelarDB.Props
open Model Model.FlightPut Model.QueryResult Model.CommandLine Spec.CommandLine

/-- The tokenizers agree for a statement without comments, and comments have no tokens. -/
example : tokens "VACUUM a, \"b \"\"c\" RETAIN 10;".toList = Statements.tokenize "VACUUM a, \"b \"\"c\" RETAIN 10;".toList ∧
    tokens "VACUUM /* -- ' */ a, \"b \"\"c\" RETAIN 10; -- x ' y".toList = Statements.tokenize "VACUUM a, \"b \"\"c\" RETAIN 10;".toList := by
  decide +kernel

/-- The place after a text. -/
def placeAfter (place : Place) : List Char → Place
  | [] => place
  | c :: rest => placeAfter (step place c).1 rest

/-- The tokens that end in a text. -/
def emitted (place : Place) : List Char → List Statements.Token
  | [] => []
  | c :: rest => (step place c).2 ++ emitted (step place c).1 rest

theorem tokensFrom_append : ∀ (a : List Char) (place : Place) (b : List Char),
    tokensFrom place (a ++ b) = (tokensFrom (placeAfter place a) b).map (emitted place a ++ ·)
  | [], place, b => by
    rw [List.nil_append, placeAfter, emitted]
    cases tokensFrom place b <;> simp
  | c :: a, place, b => by
    rw [List.cons_append, tokensFrom, tokensFrom_append a, placeAfter, emitted]
    cases tokensFrom (placeAfter (step place c).1 a) b <;> simp

theorem tokensFrom_eq (a : List Char) (place : Place) :
    tokensFrom place a = if (placeAfter place a).complete then some (emitted place a ++ (placeAfter place a).ended) else none := by
  have := tokensFrom_append a place []
  rw [List.append_nil] at this
  rw [this, tokensFrom]
  split <;> rfl

theorem begin_dash : begin '-' = (.dash, []) := by decide

theorem lineComment_rest : ∀ (rest : List Char), '\n' ∉ rest → tokensFrom .lineComment rest = some []
  | [], _ => rfl
  | c :: rest, h => by
    have hc : c ≠ '\n' := fun e => h (by rw [e]; exact List.mem_cons_self)
    rw [tokensFrom]
    simp only [step, if_neg hc]
    rw [lineComment_rest rest fun hm => h (List.mem_cons_of_mem _ hm)]
    rfl

/-- Quotes are one of three characters. -/
def QuoteOk : Place → Prop
  | .quoted quote _ => quote = '"' ∨ quote = '`' ∨ quote = '\''
  | .closed quote _ => quote = '"' ∨ quote = '`' ∨ quote = '\''
  | _ => True

theorem begin_ok (c : Char) : QuoteOk (begin c).1 := by
  unfold begin
  repeat' split
  all_goals trivial

theorem step_ok {place : Place} (h : QuoteOk place) (c : Char) : QuoteOk (step place c).1 := by
  cases place with
  | between => exact begin_ok c
  | word text => unfold step; dsimp only; split; exacts [trivial, begin_ok c]
  | number text => unfold step; dsimp only; split; exacts [trivial, begin_ok c]
  | quoted quote text => unfold step; dsimp only; split <;> exact h
  | closed quote text => unfold step; dsimp only; split; exacts [h, begin_ok c]
  | dash => unfold step; dsimp only; split; exacts [trivial, begin_ok c]
  | slash => unfold step; dsimp only; split; exacts [trivial, begin_ok c]
  | lineComment => unfold step; dsimp only; split <;> trivial
  | blockComment _ => unfold step; dsimp only; split <;> trivial

theorem placeAfter_ok : ∀ (text : List Char) {place : Place}, QuoteOk place → QuoteOk (placeAfter place text)
  | [], _, h => h
  | c :: rest, _, h => placeAfter_ok rest (step_ok h c)

theorem begin_is_dash {c : Char} (h : (begin c).1 = .dash) : c = '-' := by
  unfold begin at h
  repeat' split at h
  all_goals first | assumption | simp at h

theorem step_is_dash {place : Place} {c : Char} (h : (step place c).1 = .dash) : c = '-' := by
  cases place with
  | between => exact begin_is_dash h
  | word text => unfold step at h; dsimp only at h; split at h; exacts [absurd h (by simp), begin_is_dash h]
  | number text => unfold step at h; dsimp only at h; split at h; exacts [absurd h (by simp), begin_is_dash h]
  | quoted quote text => unfold step at h; dsimp only at h; split at h <;> simp at h
  | closed quote text => unfold step at h; dsimp only at h; split at h; exacts [absurd h (by simp), begin_is_dash h]
  | dash => unfold step at h; dsimp only at h; split at h; exacts [absurd h (by simp), begin_is_dash h]
  | slash => unfold step at h; dsimp only at h; split at h; exacts [absurd h (by simp), begin_is_dash h]
  | lineComment => unfold step at h; dsimp only at h; split at h <;> simp at h
  | blockComment _ => unfold step at h; dsimp only at h; split at h <;> simp at h

theorem placeAfter_append : ∀ (a : List Char) (place : Place) (b : List Char), placeAfter place (a ++ b) = placeAfter (placeAfter place a) b
  | [], _, _ => rfl
  | c :: a, place, b => by rw [List.cons_append, placeAfter, placeAfter_append a, placeAfter]

/-- The reader is after a dash only if the text ends with one. -/
theorem ends_with_dash {text : List Char} (h : placeAfter .between text = .dash) : ∃ front, text = front ++ ['-'] := by
  rcases List.eq_nil_or_concat text with rfl | ⟨front, c, rfl⟩
  · exact absurd h (by decide)
  · rw [List.concat_eq_append, placeAfter_append] at h
    exact ⟨front, by rw [List.concat_eq_append, step_is_dash h]⟩

/-- The line is what is before the comment, alone or with the comment. -/
theorem beforeComment_cases : ∀ (line : List Char), beforeComment line = line ∨
    ∃ rest, line = beforeComment line ++ '-' :: '-' :: rest ∧ ∀ front, beforeComment line ≠ front ++ ['-']
  | [] => .inl rfl
  | [c] => .inl rfl
  | c :: d :: rest => by
    rw [beforeComment]
    split
    · rename_i h
      obtain ⟨rfl, rfl⟩ := h
      exact .inr ⟨rest, rfl, by simp⟩
    · rename_i h
      rcases beforeComment_cases (d :: rest) with he | ⟨r, h1, h2⟩
      · exact .inl (by rw [he])
      · refine .inr ⟨r, by rw [List.cons_append, ← h1], ?_⟩
        rintro (_ | ⟨f, front⟩) hf
        · rw [List.nil_append] at hf
          injection hf with hc hn
          rw [hn, List.nil_append] at h1
          injection h1 with hd _
          exact h ⟨hc, hd⟩
        · rw [List.cons_append] at hf
          injection hf with _ hn
          exact h2 front hn

/-- After a complete text a comment changes nothing, unless the text ends with a dash. -/
theorem comment_ignored {place : Place} {rest : List Char} (ho : QuoteOk place) (hp : place.complete = true) (hd : place ≠ .dash) (hr : '\n' ∉ rest) :
    tokensFrom place ('-' :: '-' :: rest) = some place.ended := by
  have h1 : ∀ ts, (tokensFrom .dash ('-' :: rest)).map ((ts ++ []) ++ ·) = some ts := by
    intro ts
    rw [tokensFrom]
    show ((tokensFrom .lineComment rest).map ([] ++ ·)).map _ = _
    rw [lineComment_rest rest hr]
    simp
  have part : wordPart '-' = false := by decide
  have digit : Char.isDigit '-' = false := by decide
  rw [tokensFrom]
  cases place with
  | quoted _ _ => simp [Place.complete] at hp
  | blockComment _ => simp [Place.complete] at hp
  | dash => exact absurd rfl hd
  | between => exact h1 []
  | word text =>
    simp only [step, part, Bool.false_eq_true, if_false, begin_dash]
    exact h1 _
  | number text =>
    simp only [step, digit, Bool.false_eq_true, if_false, begin_dash]
    exact h1 _
  | closed quote text =>
    by_cases hq : '-' = quote
    · subst hq
      exact absurd (show '-' = '"' ∨ '-' = '`' ∨ '-' = '\'' from ho) (by decide)
    · simp only [step, if_neg hq, begin_dash]
      exact h1 _
  | slash =>
    simp only [step, if_neg (show ¬ '-' = '*' by decide), begin_dash]
    exact h1 _
  | lineComment =>
    simp only [step, if_neg (show ¬ '-' = '\n' by decide)]
    rw [lineComment_rest _ (by
      intro hm
      rcases List.mem_cons.mp hm with h | h
      · exact absurd h (by decide)
      · exact hr h)]
    rfl

/-! ### White space -/

theorem isWhitespace_cases {c : Char} (h : c.isWhitespace = true) : c = ' ' ∨ c = '\t' ∨ c = '\r' ∨ c = '\n' := by
  simp only [Char.isWhitespace, Bool.or_eq_true, decide_eq_true_eq] at h
  tauto

theorem begin_whitespace {c : Char} (h : c.isWhitespace = true) : begin c = (.between, []) := by
  unfold begin
  rw [if_pos h]

theorem whitespace_step {place : Place} {c : Char} (ho : QuoteOk place) (hc : c.isWhitespace = true) :
    (step place c).1.complete = place.complete ∧ (place.complete = true → (step place c).2 ++ (step place c).1.ended = place.ended) := by
  have hb := begin_whitespace hc
  have hw := isWhitespace_cases hc
  cases place with
  | between => simp only [step, hb]; decide
  | word text =>
    have : wordPart c = false := by rcases hw with rfl | rfl | rfl | rfl <;> decide
    simp [step, hb, this, Place.complete, Place.ended]
  | number text =>
    have : c.isDigit = false := by rcases hw with rfl | rfl | rfl | rfl <;> decide
    simp [step, hb, this, Place.complete, Place.ended]
  | quoted quote text =>
    have : c ≠ quote := by
      rcases hw with rfl | rfl | rfl | rfl <;> rcases ho with rfl | rfl | rfl <;> decide
    simp [step, this, Place.complete]
  | closed quote text =>
    have : c ≠ quote := by
      rcases hw with rfl | rfl | rfl | rfl <;> rcases ho with rfl | rfl | rfl <;> decide
    simp [step, this, hb, Place.complete, Place.ended]
  | dash =>
    have : c ≠ '-' := by rcases hw with rfl | rfl | rfl | rfl <;> decide
    simp [step, this, hb, Place.complete, Place.ended]
  | slash =>
    have : c ≠ '*' := by rcases hw with rfl | rfl | rfl | rfl <;> decide
    simp [step, this, hb, Place.complete, Place.ended]
  | lineComment =>
    unfold step
    dsimp only
    split <;> exact ⟨rfl, fun _ => rfl⟩
  | blockComment a =>
    have : c ≠ '/' := by rcases hw with rfl | rfl | rfl | rfl <;> decide
    simp [step, this, Place.complete]

theorem whitespace_end : ∀ (text : List Char) {place : Place}, QuoteOk place → (∀ c ∈ text, c.isWhitespace = true) →
    tokensFrom place text = if place.complete then some place.ended else none
  | [], _, _, _ => rfl
  | c :: rest, place, ho, h => by
    obtain ⟨h1, h2⟩ := whitespace_step ho (h c List.mem_cons_self)
    rw [tokensFrom, whitespace_end rest (step_ok ho c) fun x hx => h x (List.mem_cons_of_mem _ hx), h1]
    split
    · rename_i hp
      rw [Option.map_some, h2 hp]
    · rfl

theorem dropWhile_tokens : ∀ (text : List Char), tokens (text.dropWhile Char.isWhitespace) = tokens text
  | [] => rfl
  | c :: rest => by
    rw [List.dropWhile_cons]
    split
    · rename_i h
      rw [dropWhile_tokens rest]
      unfold tokens
      rw [tokensFrom]
      simp only [step, begin_whitespace h]
      cases tokensFrom .between rest <;> simp
    · rfl

/-- White space around a text does not change its tokens. -/
theorem trim_tokens (text : List Char) : tokens (trim text) = tokens text := by
  rw [← dropWhile_tokens text]
  unfold trim
  generalize text.dropWhile Char.isWhitespace = t
  have hsplit : t = (t.reverse.dropWhile Char.isWhitespace).reverse ++ (t.reverse.takeWhile Char.isWhitespace).reverse := by
    rw [← List.reverse_append, List.takeWhile_append_dropWhile, List.reverse_reverse]
  conv => rhs; rw [hsplit]
  unfold tokens
  rw [tokensFrom_append, whitespace_end _ (placeAfter_ok _ (place := .between) trivial) (by
    intro c hc
    rw [List.mem_reverse] at hc
    exact List.mem_takeWhile_imp hc), tokensFrom_eq]
  split <;> rfl

/-! ### Comments -/

theorem sent_tokens {line : List Char} (hn : '\n' ∉ line) (h : tokens (beforeComment line) ≠ none) : tokens (beforeComment line) = tokens line := by
  rcases beforeComment_cases line with he | ⟨rest, h1, h2⟩
  · rw [he]
  · have hc : (placeAfter .between (beforeComment line)).complete = true := by
      by_contra hc
      exact h (by rw [tokens, tokensFrom_eq, if_neg hc])
    have hd : placeAfter .between (beforeComment line) ≠ .dash := by
      intro hd
      obtain ⟨front, hf⟩ := ends_with_dash hd
      exact h2 front hf
    have hr : '\n' ∉ rest := fun hm => hn (by rw [h1]; simp [hm])
    conv => rhs; rw [h1]
    unfold tokens
    rw [tokensFrom_append, comment_ignored (placeAfter_ok _ (place := .between) trivial) hc hd hr, tokensFrom_eq, if_pos hc]
    rfl

/-- **C70**: what is sent for a line is rejected by the server or has the tokens of the line, so another statement is never executed. -/
theorem C70_never_other (line : List Char) (hn : '\n' ∉ line) (ts : List Statements.Token) (h : tokens (trim (beforeComment line)) = some ts) :
    tokens line = some ts := by
  rw [trim_tokens] at h
  rw [← sent_tokens hn (by rw [h]; simp), h]

/-- **C70**, partial: if no `--` is in quotes or in a comment with asterisks, what is sent for a line has the tokens of the line. -/
theorem C70_tokens_partial (line : List Char) (hn : '\n' ∉ line) (hd : DashesOutside line) : tokens (trim (beforeComment line)) = tokens line := by
  rw [trim_tokens]
  rcases beforeComment_cases line with he | ⟨rest, h1, h2⟩
  · rw [he]
  · exact sent_tokens hn (hd _ _ h1)

/-- C70 is false: a statement with `--` in a string is cut in the string and rejected. -/
theorem C70_quoted : ∃ line : List Char, (tokens line).isSome ∧ act (beforeComment line) = .send (.query "SELECT * FROM a WHERE b = 'c".toList) ∧
    tokens "SELECT * FROM a WHERE b = 'c".toList = none :=
  ⟨"SELECT * FROM a WHERE b = 'c--d'".toList, by decide +kernel, by decide +kernel, by decide +kernel⟩

/-! ### Files -/

theorem trim_command {text rest : List Char} (h : trim text = '\\' :: rest) : IsCommand text := by
  unfold trim at h
  have h1 : text.dropWhile Char.isWhitespace = '\\' :: (rest ++ ((text.dropWhile Char.isWhitespace).reverse.takeWhile Char.isWhitespace).reverse) := by
    conv => lhs; rw [← List.reverse_reverse (text.dropWhile Char.isWhitespace),
      ← List.takeWhile_append_dropWhile (p := Char.isWhitespace) (l := (text.dropWhile Char.isWhitespace).reverse), List.reverse_append, h]
    rfl
  have h2 := List.takeWhile_append_dropWhile (p := Char.isWhitespace) (l := text)
  rw [h1] at h2
  exact ⟨_, _, h2.symm, fun c hc => List.mem_takeWhile_imp hc⟩

theorem act_query {line : List Char} (h : ¬ IsCommand line) : act (beforeComment line) = .send (.query (trim (beforeComment line))) := by
  unfold act
  split
  · rename_i rest hr
    obtain ⟨space, r, he, hs⟩ := trim_command hr
    refine absurd ?_ h
    rcases beforeComment_cases line with hb | ⟨c, h1, _⟩
    · rw [hb] at he
      exact ⟨space, r, he, hs⟩
    · rw [he] at h1
      exact ⟨space, r ++ '-' :: '-' :: c, by rw [h1]; simp, hs⟩
  · rfl

/-- **C70**, partial: the lines of a file that are statements without `--` in quotes are all sent in order, each once and with its tokens, whether the
server can execute them or not, and an error is printed for each one that fails. -/
theorem C70_file_partial (answers : Nat → Bool) (lines : List (List Char))
    (h : ∀ l ∈ lines, '\n' ∉ l ∧ ¬ IsCommand l ∧ DashesOutside l ∧ tokens l ≠ some []) :
    ∃ texts : List (List Char), (runFile answers 0 (lines.map some)).requests = texts.map .query ∧ texts.map tokens = lines.map tokens ∧
      (runFile answers 0 (lines.map some)).errors = ((List.range lines.length).filter fun i => !answers i).length ∧
      (runFile answers 0 (lines.map some)).success = true := by
  have key : ∀ (lines : List (List Char)) (k : Nat), (∀ l ∈ lines, '\n' ∉ l ∧ ¬ IsCommand l ∧ DashesOutside l ∧ tokens l ≠ some []) →
      runFile answers k (lines.map some) = ⟨lines.map fun l => .query (trim (beforeComment l)),
        ((List.range' k lines.length).filter fun i => !answers i).length, true⟩ := by
    intro lines
    induction lines with
    | nil => exact fun _ _ => rfl
    | cons l lines ih =>
      intro k h
      obtain ⟨h1, h2, h3, h4⟩ := h l List.mem_cons_self
      have hne : beforeComment l ≠ [] := by
        intro he
        refine h4 ?_
        rw [← C70_tokens_partial l h1 h3, he]
        rfl
      rw [List.map_cons, runFile, if_neg hne, act_query h2]
      dsimp only
      rw [ih (k + 1) fun x hx => h x (List.mem_cons_of_mem _ hx), List.map_cons, List.length_cons, List.range'_succ, List.filter_cons]
      cases answers k
      · simp [printsError, Nat.add_comm]
      · simp [printsError]
  refine ⟨lines.map fun l => trim (beforeComment l), ?_, ?_, ?_, ?_⟩
  · rw [key lines 0 h, List.map_map]
    rfl
  · rw [List.map_map]
    refine List.map_congr_left ?_
    intro l hl
    obtain ⟨h1, _, h3, _⟩ := h l hl
    exact C70_tokens_partial l h1 h3
  · rw [key lines 0 h, List.range_eq_range']
  · rw [key lines 0 h]

/-- The hypotheses hold for two statements, one with a comment. -/
example : (∀ l ∈ ["SELECT 'a' FROM b -- c 'd".toList, "  INSERT INTO \"e\" VALUES ('f''g')".toList],
      '\n' ∉ l ∧ tokens l ≠ some [] ∧ (tokens l).isSome) ∧
    (runFile (fun _ => true) 0 [some "SELECT 'a' FROM b -- c 'd".toList, some "  INSERT INTO \"e\" VALUES ('f''g')".toList]) =
      ⟨[.query "SELECT 'a' FROM b".toList, .query "INSERT INTO \"e\" VALUES ('f''g')".toList], 0, true⟩ := by
  decide +kernel

theorem not_command {line : List Char} {c : Char} {rest : List Char} (h : line = c :: rest) (hc : c.isWhitespace = false) (hb : c ≠ '\\') :
    ¬ IsCommand line := by
  rintro ⟨space, r, he, hs⟩
  rw [h] at he
  cases space with
  | nil =>
    injection he with he _
    exact hb he
  | cons s space =>
    injection he with he _
    rw [he, hs s List.mem_cons_self] at hc
    exact absurd hc (by decide)

/-- The hypotheses about the place of comments hold for a statement with a comment after a string. -/
example : DashesOutside "a 'b' --c".toList ∧ ¬ IsCommand "a 'b' --c".toList := by
  refine ⟨?_, not_command rfl (by decide) (by decide)⟩
  intro before after h
  have hl : before.length < 9 := by
    have := congrArg List.length h
    simp only [List.length_append, List.length_cons] at this
    have h9 : "a 'b' --c".toList.length = 9 := by decide
    omega
  have hb : before = "a 'b' --c".toList.take before.length := by rw [h, List.take_left]
  have hc : ('-' :: '-' :: after).take 2 = ("a 'b' --c".toList.drop before.length).take 2 := by rw [h, List.drop_left]
  rw [List.take_succ_cons, List.take_succ_cons, List.take_zero] at hc
  rw [hb]
  generalize before.length = n at hl hc
  interval_cases n
  all_goals first | (exact absurd hc (by decide)) | decide +kernel

/-- C70 is false: the client exits with the code for success whatever fails, unless the file cannot be read. -/
theorem C70_success (answers : Nat → Bool) : ∀ (lines : List (List Char)) (i : Nat), (runFile answers i (lines.map some)).success = true
  | [], _ => rfl
  | l :: lines, i => by
    rw [List.map_cons, runFile]
    split
    · exact C70_success answers lines i
    · split
      · rfl
      · exact C70_success answers lines i
      · exact C70_success answers lines i
      · exact C70_success answers lines (i + 1)

/-- A line that cannot be read ends the client with an error and the lines after it are not executed. -/
theorem C70_unreadable (answers : Nat → Bool) (after : List (Option (List Char))) :
    runFile answers 0 (some "SELECT 1".toList :: none :: after) = ⟨[.query "SELECT 1".toList], (!answers 0).toNat, false⟩ := by
  have h1 : beforeComment "SELECT 1".toList ≠ [] := by decide +kernel
  have h2 : act (beforeComment "SELECT 1".toList) = .send (.query "SELECT 1".toList) := by decide +kernel
  rw [runFile, if_neg h1, h2]
  simp [runFile, printsError]

/-- The lines after `\q` are not executed. -/
theorem C70_quit (answers : Nat → Bool) (after : List (Option (List Char))) : ∀ (before : List (Option (List Char))) (i : Nat),
    runFile answers i (before ++ some ['\\', 'q'] :: after) = runFile answers i before
  | [], i => by
    have h1 : beforeComment ['\\', 'q'] ≠ [] := by decide
    have h2 : act (beforeComment ['\\', 'q']) = .quit := by decide
    show (if beforeComment ['\\', 'q'] = [] then runFile answers i after else _) = _
    rw [if_neg h1, h2]
    rfl
  | none :: before, i => rfl
  | some l :: before, i => by
    have h1 := C70_quit answers after before
    rw [List.cons_append, runFile, runFile, h1 i, h1 (i + 1)]

/-- **C70**: the lines after others are executed as well, unless one of those is `\q` or cannot be read. -/
theorem C70_continues (answers : Nat → Bool) (after : List (Option (List Char))) : ∀ (before : List (List Char)) (i : Nat),
    (∀ l ∈ before, act (beforeComment l) ≠ .quit) →
    (runFile answers i (before.map some ++ after)).requests = (runFile answers i (before.map some)).requests ++
      (runFile answers (i + (runFile answers i (before.map some)).requests.length) after).requests
  | [], _, _ => rfl
  | l :: before, i, h => by
    have hl := h l List.mem_cons_self
    have ih := fun i => C70_continues answers after before i fun x hx => h x (List.mem_cons_of_mem _ hx)
    rw [List.map_cons, List.cons_append, runFile, runFile]
    split
    · exact ih i
    · cases ha : act (beforeComment l) with
      | quit => exact absurd ha hl
      | help => exact ih i
      | invalid => exact ih i
      | send request =>
        dsimp only
        rw [ih (i + 1), List.cons_append, List.length_cons, Nat.add_assoc, Nat.add_comm 1]

/-- The hypothesis holds for a file with help, an unknown command and a statement. -/
example : (∀ l ∈ ["\\h".toList, "\\x".toList, "SELECT 1".toList], act (beforeComment l) ≠ .quit) ∧
    runFile (fun _ => false) 0 [some "\\h".toList, some "\\x".toList, some "SELECT 1".toList, some "\\f".toList] =
      ⟨[.query "SELECT 1".toList, .flushMemory], 3, true⟩ := by decide +kernel

/-- C70 is false: a statement on two lines is two statements. Here all tables are vacuumed with the default period, though the file names one table. -/
theorem C70_split (answers : Nat → Bool) :
    (runFile answers 0 [some "VACUUM".toList, some "a RETAIN 604800".toList]).requests = [.query "VACUUM".toList, .query "a RETAIN 604800".toList] ∧
    (tokens "VACUUM".toList).bind Statements.parse = some (.vacuum [] none false) ∧
    Statements.execute ["a".toList, "b".toList] (.vacuum [] none false) = (["a".toList, "b".toList], true) ∧
    (tokens "VACUUM\na RETAIN 604800".toList).bind Statements.parse = some (.vacuum ["a".toList] (some 604800) false) := by
  refine ⟨?_, by decide +kernel, by decide +kernel, by decide +kernel⟩
  have h1 : beforeComment "VACUUM".toList ≠ [] := by decide +kernel
  have h2 : act (beforeComment "VACUUM".toList) = .send (.query "VACUUM".toList) := by decide +kernel
  have h3 : beforeComment "a RETAIN 604800".toList ≠ [] := by decide +kernel
  have h4 : act (beforeComment "a RETAIN 604800".toList) = .send (.query "a RETAIN 604800".toList) := by decide +kernel
  rw [runFile, if_neg h1, h2, runFile, if_neg h3, h4]
  rfl

/-- C70 is false: an empty query is sent for a comment after white space, and no error is printed if the names of the tables cannot be retrieved. -/
theorem C70_blank : runFile (fun _ => false) 0 [some " -- a".toList] = ⟨[.query []], 1, true⟩ ∧
    runFile (fun _ => false) 0 [some "-- a".toList, some []] = ⟨[], 0, true⟩ ∧
    runFile (fun _ => false) 0 [some "\\dt".toList] = ⟨[.listTables], 0, true⟩ := by decide +kernel

theorem trim_around {before core after : List Char} (hb : ∀ c ∈ before, c.isWhitespace = true) (ha : ∀ c ∈ after, c.isWhitespace = true)
    (h1 : ∀ c, core.head? = some c → c.isWhitespace = false) (h2 : ∀ c, core.getLast? = some c → c.isWhitespace = false) (hne : core ≠ []) :
    trim (before ++ (core ++ after)) = core := by
  obtain ⟨c, front, rfl⟩ := List.exists_cons_of_ne_nil hne
  unfold trim
  rw [List.dropWhile_append_of_pos hb, List.cons_append, List.dropWhile_cons, h1 c rfl]
  rw [if_neg (by decide), ← List.cons_append, List.reverse_append, List.dropWhile_append_of_pos (by
    intro x hx
    exact ha x (List.mem_reverse.mp hx))]
  have : ((c :: front).reverse.dropWhile Char.isWhitespace) = (c :: front).reverse := by
    cases hr : (c :: front).reverse with
    | nil => rfl
    | cons d rest =>
      rw [List.dropWhile_cons, h2 d (by rw [List.getLast?_eq_head?_reverse, hr]; rfl), if_neg (by decide)]
  rw [this, List.reverse_reverse]

theorem splitSpaces_name : ∀ (name : List Char), ' ' ∉ name → splitSpaces name = (name, [])
  | [], _ => rfl
  | c :: rest, h => by
    rw [splitSpaces, if_neg fun e => h (by rw [e]; exact List.mem_cons_self), splitSpaces_name rest fun hm => h (List.mem_cons_of_mem _ hm)]

/-- **C70**: the commands do what the help of the client says, also with white space around them. -/
theorem C70_commands (before after : List Char) (hb : ∀ c ∈ before, c.isWhitespace = true) (ha : ∀ c ∈ after, c.isWhitespace = true) :
    act (before ++ (['\\', 'd', 't'] ++ after)) = .send .listTables ∧ act (before ++ (['\\', 'f'] ++ after)) = .send .flushMemory ∧
    act (before ++ (['\\', 'F'] ++ after)) = .send .flushNode ∧ act (before ++ (['\\', 'h'] ++ after)) = .help ∧
    act (before ++ (['\\', 'q'] ++ after)) = .quit ∧
    ∀ name : List Char, name ≠ [] → (∀ c ∈ name, c.isWhitespace = false) →
      act (before ++ ((['\\', 'd', ' '] ++ name) ++ after)) = .send (.schemaOf name) := by
  refine ⟨?_, ?_, ?_, ?_, ?_, ?_⟩
  · unfold act
    rw [trim_around hb ha (by decide) (by decide) (by decide)]
    decide
  · unfold act
    rw [trim_around hb ha (by decide) (by decide) (by decide)]
    decide
  · unfold act
    rw [trim_around hb ha (by decide) (by decide) (by decide)]
    decide
  · unfold act
    rw [trim_around hb ha (by decide) (by decide) (by decide)]
    decide
  · unfold act
    rw [trim_around hb ha (by decide) (by decide) (by decide)]
    decide
  · intro name hne hn
    have hl : ∀ c, (['\\', 'd', ' '] ++ name).getLast? = some c → c.isWhitespace = false := by
      intro c hc
      rw [List.getLast?_append_of_ne_nil _ hne] at hc
      exact hn c (List.mem_of_getLast? hc)
    unfold act
    rw [trim_around hb ha (by intro c hc; injection hc with hc; rw [← hc]; decide) hl (by simp)]
    show command ('\\' :: 'd' :: ' ' :: name) = _
    have : splitSpaces ('\\' :: 'd' :: ' ' :: name) = (['\\', 'd'], [name]) := by
      rw [splitSpaces, if_neg (by decide), splitSpaces, if_neg (by decide), splitSpaces, if_pos rfl,
        splitSpaces_name name fun hm => absurd (hn _ hm) (by decide)]
    unfold command
    rw [this]
    rfl

/-- C70 is false: the schema of a table with a space in its name cannot be printed, nor of any table after two spaces. -/
theorem C70_schema : act "\\d a b".toList = .send (.schemaOf "a".toList) ∧ act "\\d  a".toList = .send (.schemaOf []) ∧
    act "\\d a".toList = .send (.schemaOf "a".toList) := by decide +kernel

/-! ### Results -/

/-- Without confirmation all batches before an error are printed. -/
theorem C70_print_all : ∀ (items : List Item), (printAll items).1 = (collect items).1 ∧
    (printAll items).2 = if (collect items).2 then .error else .done
  | [] => ⟨rfl, rfl⟩
  | .error :: _ => ⟨rfl, rfl⟩
  | .batch b :: rest => by
    obtain ⟨h1, h2⟩ := C70_print_all rest
    exact ⟨by rw [printAll, collect, h1], by rw [printAll, collect, h2]⟩

/-- With confirmation the batches are printed in order without leaving any out before the last one printed. -/
theorem C70_print_prefix : ∀ (items : List Item) (multiple : Bool) (lines : List (List Char)),
    (printConfirmed multiple lines items).1 <+: (collect items).1
  | [], _, _ => List.nil_prefix
  | .error :: _, _, _ => List.nil_prefix
  | .batch b :: rest, multiple, lines => by
    rw [printConfirmed, collect]
    split
    · split
      · exact List.nil_prefix
      · exact List.nil_prefix
      · exact List.prefix_cons_inj _ |>.mpr (C70_print_prefix rest _ _)
    · exact List.prefix_cons_inj _ |>.mpr (C70_print_prefix rest _ _)

/-- **C70**, partial: if the user presses Enter for each batch after the first one, all are printed. -/
theorem C70_print_partial (b : Batch) (items : List Item) (more : List (List Char)) :
    printConfirmed false (List.replicate items.length ['\n'] ++ more) (.batch b :: items) = printAll (.batch b :: items) := by
  have key : ∀ (items : List Item) (more : List (List Char)),
      printConfirmed true (List.replicate items.length ['\n'] ++ more) items = printAll items := by
    intro items
    induction items with
    | nil => exact fun _ => rfl
    | cons x items ih =>
      intro more
      cases x with
      | error => rfl
      | batch b =>
        rw [List.length_cons, List.replicate_succ, List.cons_append, printConfirmed, if_pos rfl, confirm, if_pos rfl, printAll]
        dsimp only
        rw [ih more]
  rw [printConfirmed, if_neg (by decide), key, printAll]

/-- **C70**: if the user enters q after `k` batches more than the first one, exactly these are printed. -/
theorem C70_print_stop (b : Batch) (batches : List Batch) (rest : List Item) (more : List (List Char)) (hr : rest ≠ []) (he : rest.head? ≠ some .error) :
    printConfirmed false (List.replicate batches.length ['\n'] ++ ['q', '\n'] :: more) (.batch b :: batches.map .batch ++ rest) =
      (b :: batches, .quit) := by
  have key : ∀ (batches : List Batch), printConfirmed true (List.replicate batches.length ['\n'] ++ ['q', '\n'] :: more)
      (batches.map .batch ++ rest) = (batches, .quit) := by
    intro batches
    induction batches with
    | nil =>
      cases rest with
      | nil => exact absurd rfl hr
      | cons x rest =>
        cases x with
        | error => exact absurd rfl he
        | batch c => rfl
    | cons c batches ih =>
      rw [List.length_cons, List.replicate_succ, List.cons_append, List.map_cons, List.cons_append, printConfirmed, if_pos rfl, confirm, if_pos rfl]
      dsimp only
      rw [ih]
  rw [List.cons_append, printConfirmed, if_neg (by decide), key]

/-- C70 is false on Windows: there lines end with two characters, so no input makes the client print the second batch, stop or end. -/
theorem C70_windows (lines : List (List Char)) (h : ∀ l ∈ lines, ∃ text, l = text ++ ['\r', '\n']) (b c : Batch) (rest : List Item) :
    printConfirmed false lines (.batch b :: .batch c :: rest) = ([b], .never) := by
  have : confirm lines = none := by
    induction lines with
    | nil => rfl
    | cons l lines ih =>
      obtain ⟨text, rfl⟩ := h l List.mem_cons_self
      have h1 : text ++ ['\r', '\n'] ≠ ['\n'] := by
        intro he
        have := congrArg List.length he
        simp at this
      have h2 : text ++ ['\r', '\n'] ≠ ['q', '\n'] := by
        cases text with
        | nil => decide
        | cons t text =>
          intro he
          have := congrArg List.length he
          simp at this
      rw [confirm, if_neg h1, if_neg h2]
      exact ih fun l hl => h l (List.mem_cons_of_mem _ hl)
  rw [printConfirmed, if_neg (by decide), printConfirmed, if_pos rfl, this]

/-- C70 is false: the client never ends if the input does before the second batch is printed. -/
theorem C70_input_ends (b c : Batch) (rest : List Item) : printConfirmed false [] (.batch b :: .batch c :: rest) = ([b], .never) := rfl

end ModelarDB.Props
