import Verif.Props.C42
/-
C43: INCLUDE forwards exactly the query.
-/
namespace ModelarDB.Props
open Model.Statements Spec Lemmas

theorem quoted_plain {q : Char} {text rest : List Char} (h : q ∉ text) (hr : rest.head? ≠ some q) :
    quoted q (text ++ q :: rest) = some (text, rest) := by
  induction text with
  | nil =>
    rw [List.nil_append, quoted.eq_def]
    simp only [if_pos]
    cases rest with
    | nil => rfl
    | cons d rest =>
      dsimp only
      rw [if_neg]
      rintro rfl
      exact hr rfl
  | cons c text ih =>
    rw [List.mem_cons, not_or] at h
    rw [List.cons_append, quoted.eq_def]
    simp only [if_neg (Ne.symm h.1)]
    rw [ih h.2]
    rfl

theorem tokenize_string {text rest : List Char} (h : '\'' ∉ text) (hr : rest.head? ≠ some '\'') :
    tokenize ('\'' :: (text ++ '\'' :: rest)) = (tokenize rest).map (Token.string text :: ·) := by
  unfold tokenize
  rw [List.length_cons, tokenizeWith, if_neg (by decide), if_neg (by decide), if_neg (by decide), if_neg (by decide), if_pos rfl,
    quoted_plain h hr]
  dsimp only
  rw [tokenizeWith_fuel _ rest.length rest (by simp; omega) (le_refl _)]

theorem tokenize_spaces (n : Nat) (rest : List Char) : tokenize (List.replicate n ' ' ++ rest) = tokenize rest := by
  induction n with
  | zero => rfl
  | succ n ih => rw [List.replicate_succ, List.cons_append, tokenize_space, ih]

theorem replicate_head {n : Nat} {rest : List Char} (h : rest.head? ≠ some '\'') : (List.replicate n ' ' ++ rest).head? ≠ some '\'' := by
  cases n with
  | zero => exact h
  | succ n => rw [List.replicate_succ]; simp

/-- The parser reads the addresses that the statement has. -/
theorem parseAddresses_text {addresses : List (List Char)} {text : List Char} (h : AddressText addresses text) {query : List Char}
    (hq : query.head? ≠ some '\'') {tokens : List Token} (ht : tokenize query = some tokens) (hc : tokens.head? ≠ some .comma) :
    ∃ all, tokenize (text ++ query) = some all ∧ parseAddresses all = some (addresses, tokens) := by
  induction h with
  | last n address ha =>
    refine ⟨.string address :: tokens, ?_, ?_⟩
    · rw [List.append_assoc, tokenize_spaces, List.cons_append, List.append_assoc, List.cons_append, List.nil_append,
        tokenize_string ha hq, ht]
      rfl
    · unfold parseAddresses
      split
      · rename_i h
        injection h with _ h
        rw [h] at hc
        exact absurd rfl hc
      · rename_i h
        injection h with h1 h2
        injection h1 with h1
        rw [h1, h2]
      · rename_i h
        exact absurd rfl (h address tokens)
  | cons n m address addresses text ha _ ih =>
    obtain ⟨all, h1, h2⟩ := ih
    refine ⟨.string address :: .comma :: all, ?_, ?_⟩
    · rw [List.append_assoc, tokenize_spaces, List.cons_append, List.append_assoc, List.cons_append, List.append_assoc, List.cons_append,
        tokenize_string ha (replicate_head (by simp)), tokenize_spaces, tokenize_comma, h1]
      rfl
    · rw [parseAddresses, h2]
      rfl

/-- The last address is right before the query. -/
theorem addressText_last {addresses : List (List Char)} {text : List Char} (h : AddressText addresses text) :
    ∃ before last, addresses.getLast? = some last ∧ '\'' ∉ last ∧ text = before ++ '\'' :: (last ++ ['\'']) := by
  induction h with
  | last n address ha => exact ⟨_, address, rfl, ha, rfl⟩
  | cons n m address addresses text ha h ih =>
    obtain ⟨before, last, h1, h2, rfl⟩ := ih
    refine ⟨List.replicate n ' ' ++ '\'' :: (address ++ '\'' :: (List.replicate m ' ' ++ ',' :: before)), last, ?_, h2, ?_⟩
    · rw [List.getLast?_cons, h1]; rfl
    · simp

/-- The text after the last address, which has one byte before the query. -/
theorem forwardedQuery_iff {before last query : List Char} {addresses : List (List Char)} (hl : addresses.getLast? = some last) (hne : last ≠ [])
    (hq : '\'' ∉ last) :
    forwardedQuery (before ++ '\'' :: (last ++ '\'' :: query)) addresses = .query query ↔ ¬ Occurs last query := by
  unfold forwardedQuery
  rw [hl]
  dsimp only
  constructor
  · intro h hocc
    cases ha : afterLast last query with
    | none => exact afterLast_none.mp ha hocc
    | some r =>
      have h1 := afterLast_append (before ++ '\'' :: (last ++ ['\''])) query ha
      have h2 := afterLast_length ha
      simp only [List.append_assoc, List.cons_append, List.nil_append] at h1
      rw [h1] at h
      split at h
      · cases h
      · cases h
      · rename_i c rest hr
        injection hr with hr
        subst hr
        split at h
        · injection h with h
          subst h
          simp only [List.length_cons] at h2
          omega
        · cases h
  · intro hocc
    have h1 : afterLast last (last ++ '\'' :: query) = some ('\'' :: query) := by
      refine afterLast_eq hne fun hc => hocc (occurs_quote hq ?_ hc)
      cases last with
      | nil => exact absurd rfl hne
      | cons c tail => simp
    have h2 := afterLast_append (before ++ ['\'']) _ h1
    simp only [List.append_assoc, List.cons_append, List.nil_append] at h2
    rw [h2]
    dsimp only
    rw [if_pos (by decide)]

/-- **C43** (partial): a statement with INCLUDE, any number of addresses and a query sends exactly the query, if and only if the last address
does not occur in the query. Missing: other queries, see `C43_recurring`, and a last address that is empty, see `C43_empty`. -/
theorem C43_partial (keyword : List Char) (addresses : List (List Char)) (text query : List Char) (tokens : List Token)
    (hk : PlainName keyword ∧ keyword.map Char.toUpper = "INCLUDE".toList) (ha : AddressText addresses text) (hne : [] ∉ addresses)
    (hq : query.head? ≠ some '\'') (ht : tokenize query = some tokens) (hc : tokens.head? ≠ some .comma) :
    includeForwarded (keyword ++ ' ' :: (text ++ query)) = .query query ↔ ∀ last, addresses.getLast? = some last → ¬ Occurs last query := by
  obtain ⟨all, h1, h2⟩ := parseAddresses_text ha hq ht hc
  obtain ⟨before, last, h3, h4, rfl⟩ := addressText_last ha
  have hp : parseInclude (.word keyword none :: all) = some (addresses, tokens) := by
    rw [parseInclude, if_pos (isKeyword_iff.mpr ⟨keyword, rfl, hk.2⟩), h2]
  unfold includeForwarded
  rw [tokenize_word hk.1 (by rintro c ⟨⟩; decide), tokenize_space, h1, Option.map_some, Option.bind_some,
    List.dropWhile_cons_of_neg (by simp), hp]
  dsimp only
  have h5 := forwardedQuery_iff (before := keyword ++ ' ' :: before) (query := query) h3
    (fun h => hne (h ▸ List.mem_of_getLast? h3)) h4
  simp only [List.append_assoc, List.cons_append, List.nil_append] at h5 ⊢
  rw [h5, h3]
  exact ⟨fun h l hl => by injection hl with hl; exact hl ▸ h, fun h => h last rfl⟩

/-- `INCLUDE 'grpc://a:1', 'grpc://b:1' SELECT 1`. -/
example : includeForwarded "INCLUDE 'grpc://a:1', 'grpc://b:1' SELECT 1".toList = .query " SELECT 1".toList := by decide +kernel

/-- **C43** is false of the code if the address occurs in the query: a part of it is sent, in the second case one that is
a query itself. -/
theorem C43_recurring : includeForwarded "INCLUDE 'a:1' SELECT * FROM b WHERE c = 'a:1' ".toList = .query " ".toList ∧
    includeForwarded "INCLUDE 'x' SELECT * FROM x,(SELECT 1)".toList = .query "(SELECT 1)".toList := by decide +kernel

/-- **C43** is false of the code if the address is the end of the statement: the node panics, which stops it. -/
theorem C43_empty : includeForwarded "INCLUDE '' SELECT 1".toList = .panic ∧ includeForwarded "INCLUDE '1' SELECT 1".toList = .panic ∧
    forwardedQuery "INCLUDE 'x' SELECT 'xé'".toList [['x']] = .panic := by decide +kernel

end ModelarDB.Props
