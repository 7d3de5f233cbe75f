import Mathlib.Order.Nat
import Verif.Spec.Statements
/-
Lemmas about statements that name tables.
-/
namespace ModelarDB.Lemmas
open Model.Statements Spec

theorem isKeyword_iff {t : Token} {k : String} : t.isKeyword k.toList = true ↔ Keyword t k := by
  unfold Token.isKeyword Keyword
  constructor
  · intro h
    split at h
    · exact ⟨_, rfl, of_decide_eq_true h⟩
    · cases h
  · rintro ⟨v, rfl, h⟩
    exact decide_eq_true h

theorem isKeyword_false_iff {t : Token} {k : String} : t.isKeyword k.toList = false ↔ ¬ Keyword t k := by
  rw [← isKeyword_iff]; simp

theorem keyword_unique {t : Token} {a b : String} (ha : Keyword t a) (hb : Keyword t b) : a = b := by
  obtain ⟨v, rfl, h1⟩ := ha
  obtain ⟨w, h2, h3⟩ := hb
  injection h2 with h2
  subst h2
  exact String.toList_injective (h1.symm.trans h3)

theorem parseStatement_cons (t : Token) (rest : List Token) : parseStatement (t :: rest) =
    if t.isKeyword "VACUUM".toList then
      (parseVacuum rest).map fun p => (vacuumStatement p.1.1 p.1.2.1 p.1.2.2, p.2)
    else if t.isKeyword "TRUNCATE".toList then
      (parseTruncate rest).map fun p => (Statement.truncate p.1.1 p.1.2, p.2)
    else if t.isKeyword "DROP".toList then
      match rest with
      | t' :: rest' =>
        if t'.isKeyword "TABLE".toList then (parseObjectNames rest').map fun p => (Statement.dropTable (dropNames p.1), p.2)
        else none
      | [] => none
    else none := by
  cases rest <;> rfl

theorem listing_cons (w : Word) (ws : List Word) :
    listing (w :: ws) = if ws = [] then [w.token] else w.token :: .comma :: listing ws := by
  cases ws with
  | nil => rfl
  | cons v vs => rfl

/-- What may follow names: no comma. -/
def NoComma (rest : List Token) : Prop := rest.head? ≠ some .comma

theorem parseTableNames_listing : ∀ (ws : List Word), ws ≠ [] → ∀ rest, NoComma rest →
    parseTableNames (listing ws ++ rest) = some (ws.map Word.value, rest)
  | [], h, _, _ => absurd rfl h
  | [w], _, rest, hr => by
    show parseTableNames (Token.word w.value w.quote :: rest) = _
    cases rest with
    | nil => rfl
    | cons t rest =>
      cases t with
      | comma => exact absurd rfl hr
      | _ => rfl
  | w :: v :: vs, _, rest, hr => by
    show parseTableNames (Token.word w.value w.quote :: .comma :: (listing (v :: vs) ++ rest)) = _
    rw [parseTableNames, parseTableNames_listing (v :: vs) (by simp) rest hr]
    rfl

theorem parseTableNames_sound : ∀ {tokens : List Token} {names : List (List Char)} {rest : List Token},
    parseTableNames tokens = some (names, rest) →
    ∃ ws : List Word, ws ≠ [] ∧ tokens = listing ws ++ rest ∧ names = ws.map Word.value := by
  intro tokens
  induction tokens using parseTableNames.induct with
  | case1 value quote rest ih =>
    intro names r h
    rw [parseTableNames] at h
    cases hp : parseTableNames rest with
    | none => rw [hp] at h; cases h
    | some p =>
      obtain ⟨ns, r'⟩ := p
      rw [hp] at h
      simp only [Option.map_some, Option.some.injEq, Prod.mk.injEq] at h
      obtain ⟨rfl, rfl⟩ := h
      obtain ⟨ws, hne, rfl, rfl⟩ := ih hp
      refine ⟨⟨value, quote⟩ :: ws, by simp, ?_, rfl⟩
      rw [listing_cons, if_neg hne]
      rfl
  | case2 value quote rest hnc =>
    intro names r h
    rw [parseTableNames] at h
    · simp only [Option.some.injEq, Prod.mk.injEq] at h
      obtain ⟨rfl, rfl⟩ := h
      exact ⟨[⟨value, quote⟩], by simp, rfl, rfl⟩
    · exact hnc
  | case3 tokens h1 h2 =>
    intro names r h
    rw [parseTableNames] at h
    · cases h
    · exact h1
    · exact h2

theorem splitTerminator_append {name : List Char} (h : ';' ∉ name) (rest : List Char) :
    splitTerminator ';' (name ++ ';' :: rest) = name :: splitTerminator ';' rest := by
  induction name with
  | nil => simp [splitTerminator]
  | cons c name ih =>
    simp only [List.mem_cons, not_or] at h
    have := ih h.2
    rw [List.cons_append, splitTerminator.eq_def]
    simp only [if_neg (Ne.symm h.1)]
    rw [this]
    cases name <;> rfl

theorem splitTerminator_single {name : List Char} (h : ';' ∉ name) (hne : name ≠ []) : splitTerminator ';' name = [name] := by
  induction name with
  | nil => exact absurd rfl hne
  | cons c name ih =>
    simp only [List.mem_cons, not_or] at h
    rw [splitTerminator.eq_def]
    simp only [if_neg (Ne.symm h.1)]
    cases name with
    | nil => rfl
    | cons d name => rw [ih h.2 (by simp)]

/-- Names without the separator that are not empty survive being joined and split. -/
theorem split_join : ∀ (names : List (List Char)), (∀ n ∈ names, ';' ∉ n ∧ n ≠ []) → splitTerminator ';' (join [';'] names) = names
  | [], _ => rfl
  | [n], h => splitTerminator_single (h n (by simp)).1 (h n (by simp)).2
  | n :: m :: ns, h => by
    rw [join, List.append_assoc, List.cons_append, List.nil_append, splitTerminator_append (h n (by simp)).1,
      split_join (m :: ns) fun x hx => h x (List.mem_cons_of_mem _ hx)]
    simp

theorem parseU64_digits {text : List Char} (hne : text ≠ []) (hd : ∀ c ∈ text, c.isDigit = true)
    (hlt : Nat.ofDigitChars 10 text 0 < 2 ^ 64) : parseU64 text = some (Nat.ofDigitChars 10 text 0) := by
  unfold parseU64
  rw [if_pos ⟨hne, by simpa using hd, hlt⟩]

theorem toDigits_digits (n : Nat) : Nat.toDigits 10 n ≠ [] ∧ ∀ c ∈ Nat.toDigits 10 n, c.isDigit = true := by
  refine ⟨fun h => ?_, fun c hc => Nat.isDigit_of_mem_toDigits (by omega) (by omega) hc⟩
  have := Nat.length_toDigits_pos (b := 10) (n := n)
  rw [h] at this
  exact absurd this (by simp)

theorem parseU64_toDigits {n : Nat} (h : n < 2 ^ 64) : parseU64 (Nat.toDigits 10 n) = some n := by
  have := parseU64_digits (toDigits_digits n).1 (toDigits_digits n).2 (by rw [Nat.ofDigitChars_ten_toDigits]; exact h)
  rwa [Nat.ofDigitChars_ten_toDigits] at this

theorem parseU64_some {text : List Char} {n : Nat} (h : parseU64 text = some n) :
    text ≠ [] ∧ (∀ c ∈ text, c.isDigit = true) ∧ Nat.ofDigitChars 10 text 0 = n ∧ n < 2 ^ 64 := by
  unfold parseU64 at h
  split at h
  · rename_i hc
    injection h with h
    subst h
    exact ⟨hc.1, by simpa using hc.2.1, rfl, hc.2.2⟩
  · cases h

/-! ### Tokens of text -/

theorem quoted_length {q : Char} : ∀ {text v rest : List Char}, quoted q text = some (v, rest) → rest.length < text.length := by
  intro text
  induction text using quoted.induct q with
  | case1 => intro v rest h; cases h
  | case2 rest ih =>
    intro v r h
    rw [quoted, if_pos rfl] at h
    simp only [if_true] at h
    cases hq : quoted q rest with
    | none => rw [hq] at h; cases h
    | some p =>
      rw [hq] at h
      simp only [Option.map_some, Option.some.injEq, Prod.mk.injEq] at h
      have := ih (v := p.1) (rest := p.2) hq
      rw [← h.2]
      simp only [List.length_cons]
      omega
  | case3 d rest hd =>
    intro v r h
    rw [quoted, if_pos rfl] at h
    simp only [if_neg hd, Option.some.injEq, Prod.mk.injEq] at h
    rw [← h.2]
    simp
  | case4 =>
    intro v r h
    rw [quoted, if_pos rfl] at h
    simp only [Option.some.injEq, Prod.mk.injEq] at h
    rw [← h.2]
    simp
  | case5 c rest hc ih =>
    intro v r h
    rw [quoted.eq_def] at h
    simp only [if_neg hc] at h
    cases hq : quoted q rest with
    | none => rw [hq] at h; cases h
    | some p =>
      rw [hq] at h
      simp only [Option.map_some, Option.some.injEq, Prod.mk.injEq] at h
      have := ih (v := p.1) (rest := p.2) hq
      rw [← h.2]
      simp only [List.length_cons]
      omega

theorem dropWhile_length {α : Type} (p : α → Bool) (l : List α) : (l.dropWhile p).length ≤ l.length :=
  (List.dropWhile_sublist p).length_le

/-- The number of steps does not matter. -/
theorem tokenizeWith_fuel : ∀ (f g : Nat) (text : List Char), text.length ≤ f → text.length ≤ g → tokenizeWith f text = tokenizeWith g text
  | _, _, [], _, _ => by simp [tokenizeWith]
  | 0, _, _ :: _, h, _ => absurd h (by simp)
  | _ + 1, 0, _ :: _, _, h => absurd h (by simp)
  | f + 1, g + 1, c :: rest, hf, hg => by
    simp only [List.length_cons, Nat.add_le_add_iff_right] at hf hg
    have key : ∀ l : List Char, l.length ≤ rest.length → tokenizeWith f l = tokenizeWith g l := fun l hl =>
      tokenizeWith_fuel f g l (le_trans hl hf) (le_trans hl hg)
    unfold tokenizeWith
    rw [key rest (le_refl _), key _ (dropWhile_length isIdentifierPart rest), key _ (dropWhile_length Char.isDigit rest)]
    cases hq : quoted c rest with
    | none => rfl
    | some p => dsimp only; rw [key p.2 (quoted_length (v := p.1) (rest := p.2) hq).le]

/-- Text that does not continue an identifier. -/
def StopsWord (text : List Char) : Prop := ∀ c, text.head? = some c → isIdentifierPart c = false

theorem takeWhile_stop {p : Char → Bool} {name rest : List Char} (hn : ∀ c ∈ name, p c = true)
    (hr : ∀ c, rest.head? = some c → p c = false) : (name ++ rest).takeWhile p = name ∧ (name ++ rest).dropWhile p = rest := by
  induction name with
  | nil =>
    cases rest with
    | nil => exact ⟨rfl, rfl⟩
    | cons c rest =>
      have := hr c rfl
      simp [this]
  | cons c name ih =>
    have h1 := ih fun x hx => hn x (List.mem_cons_of_mem _ hx)
    simp [hn c (List.mem_cons_self ..), h1.1, h1.2]

theorem start_not_space {c : Char} (h : isIdentifierStart c = true) : c.isWhitespace = false := by
  unfold isIdentifierStart Char.isAlpha Char.isUpper Char.isLower at h
  cases hw : c.isWhitespace with
  | false => rfl
  | true =>
    unfold Char.isWhitespace at hw
    simp only [Bool.or_eq_true, decide_eq_true_eq] at hw
    rcases hw with ((rfl | rfl) | rfl) | rfl <;> simp at h

/-- The characters of names. -/
theorem identifierPart_iff {c : Char} : isIdentifierPart c = true ↔ c.isAlphanum ∨ c ∈ ['_', '@', '#', '$'] := by
  simp only [isIdentifierPart, Char.isAlphanum, Bool.or_eq_true, beq_iff_eq, List.mem_cons, List.not_mem_nil, or_false]
  tauto

/-- The first characters of names. -/
theorem identifierStart_iff {c : Char} : isIdentifierStart c = true ↔ c.isAlpha ∨ c ∈ ['_', '@', '#'] := by
  simp only [isIdentifierStart, Bool.or_eq_true, beq_iff_eq, List.mem_cons, List.not_mem_nil, or_false]
  tauto

theorem plainName_iff {name : List Char} :
    PlainName name ↔ (∀ c ∈ name, isIdentifierPart c = true) ∧ ∃ c rest, name = c :: rest ∧ isIdentifierStart c = true := by
  simp only [PlainName, identifierPart_iff, identifierStart_iff]

theorem tokenize_word {name rest : List Char} (hn : PlainName name) (hr : StopsWord rest) :
    tokenize (name ++ rest) = (tokenize rest).map (Token.word name none :: ·) := by
  obtain ⟨hp, c, tail, rfl, hs⟩ := plainName_iff.mp hn
  have h1 := takeWhile_stop (p := isIdentifierPart) (name := tail) (rest := rest) (fun x hx => hp x (List.mem_cons_of_mem _ hx)) hr
  unfold tokenize
  rw [List.cons_append, List.length_cons, tokenizeWith, if_neg (by rw [start_not_space hs]; simp), if_pos hs, h1.1, h1.2]
  rw [tokenizeWith_fuel _ rest.length rest (by simp) (le_refl _)]

theorem tokenize_space (rest : List Char) : tokenize (' ' :: rest) = tokenize rest := by
  unfold tokenize
  rw [List.length_cons, tokenizeWith, if_pos (by decide)]

theorem tokenize_comma (rest : List Char) : tokenize (',' :: rest) = (tokenize rest).map (Token.comma :: ·) := by
  unfold tokenize
  rw [List.length_cons, tokenizeWith]
  simp only [show (',' : Char).isWhitespace = false by decide, show isIdentifierStart ',' = false by decide,
    show (',' : Char).isDigit = false by decide]
  rfl

theorem tokenize_digits {text : List Char} (hne : text ≠ []) (hd : ∀ c ∈ text, c.isDigit = true) :
    tokenize text = some [.number text] := by
  cases text with
  | nil => exact absurd rfl hne
  | cons c rest =>
    have hc := hd c (List.mem_cons_self ..)
    have h1 := takeWhile_stop (p := Char.isDigit) (name := rest) (rest := []) (fun x hx => hd x (List.mem_cons_of_mem _ hx)) (by simp)
    rw [List.append_nil] at h1
    have hw : c.isWhitespace = false := by
      cases hw : c.isWhitespace with
      | false => rfl
      | true =>
        unfold Char.isWhitespace at hw
        simp only [Bool.or_eq_true, decide_eq_true_eq] at hw
        rcases hw with ((rfl | rfl) | rfl) | rfl <;> revert hc <;> decide
    have hi : isIdentifierStart c = false := by
      cases hi : isIdentifierStart c with
      | false => rfl
      | true =>
        exfalso
        simp only [isIdentifierStart, Bool.or_eq_true, beq_iff_eq] at hi
        rcases hi with ((hi | rfl) | rfl) | rfl
        · simp only [Char.isAlpha, Char.isUpper, Char.isLower, Char.isDigit, Bool.or_eq_true, Bool.and_eq_true, decide_eq_true_eq] at hi hc
          have h2 := hc.2
          rcases hi with ⟨hi, _⟩ | ⟨hi, _⟩
          · exact absurd (UInt32.le_trans hi h2) (by decide)
          · exact absurd (UInt32.le_trans hi h2) (by decide)
        · revert hc; decide
        · revert hc; decide
        · revert hc; decide
    unfold tokenize
    rw [List.length_cons, tokenizeWith, if_neg (by rw [hw]; simp), if_neg (by rw [hi]; simp), if_pos hc, h1.1, h1.2]
    cases rest.length <;> rfl

/-- The words of a list of names. -/
def plainWords (names : List (List Char)) : List Word := names.map fun n => ⟨n, none⟩

theorem tokenize_join : ∀ (names : List (List Char)), names ≠ [] → (∀ n ∈ names, PlainName n) → ∀ rest, StopsWord rest →
    tokenize (join ", ".toList names ++ rest) = (tokenize rest).map (listing (plainWords names) ++ ·)
  | [], h, _, _, _ => absurd rfl h
  | [n], _, hp, rest, hr => tokenize_word (hp n (by simp)) hr
  | n :: m :: ns, _, hp, rest, hr => by
    rw [join, List.append_assoc, List.append_assoc, tokenize_word (hp n (by simp)) (by rintro c ⟨⟩; decide)]
    · rw [show ∀ l : List Char, ", ".toList ++ l = ',' :: ' ' :: l from fun _ => rfl, tokenize_comma, tokenize_space,
        tokenize_join (m :: ns) (by simp) (fun x hx => hp x (List.mem_cons_of_mem _ hx)) rest hr]
      cases tokenize rest <;> rfl
    · simp

/-! ### Acting on tables -/

theorem perform_acts (removes : Bool) : ∀ (names tables : List (List Char)),
    (∀ name ∈ (perform removes tables names).1, name ∈ names ∧ name ∈ tables)
  | [], _, name, h => by simp [perform] at h
  | n :: rest, tables, name, h => by
    unfold perform at h
    split at h
    · rename_i hn
      simp only [List.mem_cons] at h
      rcases h with rfl | h
      · exact ⟨List.mem_cons_self .., hn⟩
      · have := perform_acts removes rest _ name h
        refine ⟨List.mem_cons_of_mem _ this.1, ?_⟩
        cases removes with
        | false => exact this.2
        | true => exact (List.mem_filter.mp this.2).1
    · simp at h

theorem perform_all (removes : Bool) : ∀ (names tables : List (List Char)), (∀ n ∈ names, n ∈ tables) →
    (removes = true → names.Nodup) → perform removes tables names = (names, true)
  | [], _, _, _ => rfl
  | n :: rest, tables, h, hd => by
    rw [perform, if_pos (h n (List.mem_cons_self ..))]
    have : perform removes (if removes = true then tables.filter (· ≠ n) else tables) rest = (rest, true) := by
      refine perform_all removes rest _ ?_ fun hr => (List.nodup_cons.mp (hd hr)).2
      intro m hm
      cases removes with
      | false => exact h m (List.mem_cons_of_mem _ hm)
      | true =>
        refine List.mem_filter.mpr ⟨h m (List.mem_cons_of_mem _ hm), ?_⟩
        have := (List.nodup_cons.mp (hd rfl)).1
        simp only [decide_eq_true_eq]
        rintro rfl
        exact this hm
    rw [this]

/-! ### The last occurrence -/

theorem afterLast_append {needle : List Char} : ∀ (before text : List Char) {r : List Char}, afterLast needle text = some r →
    afterLast needle (before ++ text) = some r
  | [], _, _, h => h
  | c :: before, text, r, h => by
    rw [List.cons_append, afterLast, afterLast_append before text h]

theorem afterLast_none {needle : List Char} : ∀ {text : List Char}, afterLast needle text = none ↔ ¬ Occurs needle text
  | [] => by
    unfold afterLast Occurs
    constructor
    · intro h
      split at h
      · cases h
      · rename_i hn
        rintro ⟨b, a, h'⟩
        have := congrArg List.length h'
        simp only [List.length_nil, List.length_append] at this
        exact hn (List.length_eq_zero_iff.mp (by omega))
    · intro h
      rw [if_neg]
      rintro rfl
      exact h ⟨[], [], rfl⟩
  | c :: rest => by
    unfold afterLast
    have ih := afterLast_none (needle := needle) (text := rest)
    cases ha : afterLast needle rest with
    | some r =>
      simp only [reduceCtorEq, false_iff, not_not]
      rw [ha] at ih
      simp only [reduceCtorEq, false_iff, not_not] at ih
      obtain ⟨b, a, rfl⟩ := ih
      exact ⟨c :: b, a, rfl⟩
    | none =>
      simp only
      have hno := ih.mp ha
      constructor
      · intro h
        split at h
        · cases h
        · rename_i hp
          rintro ⟨b, a, h'⟩
          cases b with
          | nil =>
            apply hp
            rw [List.isPrefixOf_iff_prefix]
            exact ⟨a, by rw [h']; rfl⟩
          | cons d b =>
            rw [List.cons_append, List.cons_append] at h'
            injection h' with _ h'
            exact hno ⟨b, a, h'⟩
      · intro h
        rw [if_neg]
        intro hp
        rw [List.isPrefixOf_iff_prefix] at hp
        obtain ⟨a, ha⟩ := hp
        exact h ⟨[], a, by rw [← ha]; rfl⟩

theorem afterLast_length {needle : List Char} : ∀ {text r : List Char}, afterLast needle text = some r → r.length + needle.length ≤ text.length
  | [], r, h => by
    unfold afterLast at h
    split at h
    · rename_i hn
      injection h with h
      subst h hn
      simp
    · cases h
  | c :: rest, r, h => by
    unfold afterLast at h
    cases ha : afterLast needle rest with
    | some r' =>
      rw [ha] at h
      injection h with h
      subst h
      have := afterLast_length ha
      simp only [List.length_cons]
      omega
    | none =>
      rw [ha] at h
      simp only at h
      split at h
      · rename_i hp
        injection h with h
        rw [List.isPrefixOf_iff_prefix] at hp
        have := hp.length_le
        rw [← h, List.length_drop]
        omega
      · cases h

/-- The text after an occurrence that is the last one. -/
theorem afterLast_eq {needle rest : List Char} (hne : needle ≠ []) (h : ¬ Occurs needle (needle.tail ++ rest)) :
    afterLast needle (needle ++ rest) = some rest := by
  cases needle with
  | nil => exact absurd rfl hne
  | cons c tail =>
    rw [List.tail_cons] at h
    rw [List.cons_append, afterLast, afterLast_none.mpr h]
    simp only
    rw [if_pos]
    · rw [← List.cons_append, List.drop_left]
    · rw [List.isPrefixOf_iff_prefix, ← List.cons_append]
      exact List.prefix_append _ _

/-- Text without quotes that occurs before and after a quote occurs in what follows. -/
theorem occurs_quote {needle tail query : List Char} (hq : '\'' ∉ needle) (hlen : tail.length < needle.length)
    (h : Occurs needle (tail ++ '\'' :: query)) : Occurs needle query := by
  obtain ⟨b, a, h⟩ := h
  rw [List.append_assoc] at h
  rcases List.append_eq_append_iff.mp h with ⟨m, hm, hm'⟩ | ⟨m, hm, hm'⟩
  · cases m with
    | nil =>
      rw [List.nil_append] at hm'
      cases needle with
      | nil => simp at hlen
      | cons d needle =>
        rw [List.cons_append] at hm'
        injection hm' with hd _
        subst hd
        simp at hq
    | cons d m =>
      rw [List.cons_append] at hm'
      injection hm' with _ hm'
      exact ⟨m, a, by rw [hm', List.append_assoc]⟩
  · rcases List.append_eq_append_iff.mp hm' with ⟨k, hk, hk'⟩ | ⟨k, hk, hk'⟩
    · have := congrArg List.length hk
      have h2 := congrArg List.length hm
      simp only [List.length_append] at this h2
      omega
    · cases k with
      | nil =>
        rw [List.append_nil] at hk
        have h2 := congrArg List.length hm
        rw [hk] at hlen
        simp only [List.length_append] at h2
        omega
      | cons d k =>
        rw [List.cons_append] at hk'
        injection hk' with hd _
        subst hd
        rw [hk] at hq
        simp at hq

end ModelarDB.Lemmas
