import Verif.Lemmas.ReadTable
import Verif.Props.C42
/-
C63: `read_time_series_table` reads exactly what is asked for.
-/
namespace ModelarDB.Props
open Model Model.Statements Model.ReadTable Spec Lemmas

variable {φ : Type}

/-- The tokens of an item. -/
def itemTokens : List Char × Aggregate → List Token
  | (column, .none) => [.word column none]
  | (column, aggregate) => [.word aggregate.name none, .other '(', .word column none, .other ')']

theorem lexes_item {item : List Char × Aggregate} (h : PlainName item.1) : Lexes (itemText item) (itemTokens item) := by
  obtain ⟨c, a⟩ := item
  cases a with
  | none => exact lexes_word h
  | _ => exact lexes_call (plainName_of (by decide +kernel)) h

theorem parse_item {more : List (List Char)} {item : List Char × Aggregate} (h : Readable more item.1) :
    parseItem more (itemTokens item) = some item := by
  obtain ⟨c, a⟩ := item
  cases a with
  | none =>
    show (parseName more (.word c none)).map (·, Aggregate.none) = _
    rw [readable_parse h]
    rfl
  | _ => exact parseItem_call (by decide +kernel) h

theorem item_tokens {more : List (List Char)} {item : List Char × Aggregate} (h : Readable more item.1) {x : Token} (hx : x ∈ itemTokens item) :
    x ≠ .comma ∧ x.isKeyword "FROM".toList = false := by
  obtain ⟨c, a⟩ := item
  have hc : (Token.word c none).isKeyword "FROM".toList = false := readable_not_keyword h (by decide +kernel)
  cases a with
  | none =>
    rw [List.mem_singleton.mp hx]
    exact ⟨by simp, hc⟩
  | _ =>
    simp only [itemTokens, List.mem_cons, List.not_mem_nil, or_false] at hx
    rcases hx with rfl | rfl | rfl | rfl
    · exact ⟨by simp, by decide +kernel⟩
    · exact ⟨by simp, rfl⟩
    · exact ⟨by simp, hc⟩
    · exact ⟨by simp, rfl⟩

/-- The parts of the condition as text and tokens. -/
def conditionParts (r : Request) : List (List Char × List Token) :=
  r.tags.map (fun tag => (tag.1 ++ " = '".toList ++ tag.2 ++ ['\''], [.word tag.1 none, .other '=', .string tag.2])) ++
    (r.startTime.map fun time => ('\'' :: (time ++ "' <= timestamp".toList),
      [Token.string time, .other '<', .other '=', .word "timestamp".toList none])).toList ++
    (r.endTime.map fun time => ("timestamp <= '".toList ++ time ++ ['\''],
      [Token.word "timestamp".toList none, .other '<', .other '=', .string time])).toList

/-- The comparisons that are meant. -/
def comparisons (r : Request) : List Comparison :=
  r.tags.map (fun tag => ⟨.column tag.1, .eq, .literal tag.2⟩) ++
    (r.startTime.map fun time => ⟨.literal time, .le, .column "timestamp".toList⟩).toList ++
    (r.endTime.map fun time => ⟨.column "timestamp".toList, .le, .literal time⟩).toList

theorem conditionParts_texts (r : Request) : (conditionParts r).map (·.1) = conditionTexts r := by
  unfold conditionParts conditionTexts
  rw [List.map_append, List.map_append, List.map_map]
  congr 1
  · congr 1
    cases r.startTime <;> rfl
  · cases r.endTime <;> rfl

theorem lexes_condition {more : List (List Char)} {t : Table φ} {r : Request} (h : PlainRequest more t r) :
    ∀ x ∈ conditionParts r, Lexes x.1 x.2 := by
  intro x hx
  unfold conditionParts at hx
  have hts : Lexes "timestamp".toList [.word "timestamp".toList none] := lexes_word (plainName_of (by decide +kernel))
  rw [List.mem_append, List.mem_append] at hx
  rcases hx with (hx | hx) | hx
  · obtain ⟨tag, htag, rfl⟩ := List.mem_map.mp hx
    obtain ⟨h1, -, h3⟩ := h.tags tag htag
    have := (lexes_word h1.plain).space (lexes_eq.space (lexes_string h3))
    have he : tag.1 ++ " = '".toList ++ tag.2 ++ ['\''] = tag.1 ++ ' ' :: (['='] ++ ' ' :: '\'' :: (tag.2 ++ ['\''])) := by
      rw [List.append_assoc, List.append_assoc]
      rfl
    show Lexes (tag.1 ++ " = '".toList ++ tag.2 ++ ['\'']) _
    rw [he]
    exact this
  · cases hs : r.startTime with
    | none => rw [hs] at hx; simp at hx
    | some time =>
      rw [hs] at hx
      simp only [Option.map_some, Option.toList_some, List.mem_singleton] at hx
      subst hx
      have := (lexes_string (h.startTime time hs)).space (lexes_le.space hts)
      have he : '\'' :: (time ++ "' <= timestamp".toList) = '\'' :: (time ++ ['\'']) ++ ' ' :: (['<', '='] ++ ' ' :: "timestamp".toList) := by
        rw [List.cons_append, List.append_assoc]
        rfl
      show Lexes ('\'' :: (time ++ "' <= timestamp".toList)) _
      rw [he]
      exact this
  · cases hs : r.endTime with
    | none => rw [hs] at hx; simp at hx
    | some time =>
      rw [hs] at hx
      simp only [Option.map_some, Option.toList_some, List.mem_singleton] at hx
      subst hx
      have := hts.space (lexes_le.space (lexes_string (h.endTime time hs)))
      have he : "timestamp <= '".toList ++ time ++ ['\''] = "timestamp".toList ++ ' ' :: (['<', '='] ++ ' ' :: '\'' :: (time ++ ['\''])) := by
        rw [List.append_assoc]
        rfl
      show Lexes ("timestamp <= '".toList ++ time ++ ['\'']) _
      rw [he]
      exact this

theorem parse_condition {more : List (List Char)} {t : Table φ} {r : Request} (h : PlainRequest more t r) :
    ((conditionParts r).map (·.2)).mapM (parseComparison more) = some (comparisons r) := by
  unfold conditionParts comparisons
  rw [List.map_append, List.map_append, List.mapM_append, List.mapM_append]
  have h1 : ((r.tags.map fun tag => ((tag.1 ++ " = '".toList ++ tag.2 ++ ['\''],
      [Token.word tag.1 none, .other '=', .string tag.2]) : List Char × List Token)).map (·.2)).mapM (parseComparison more) =
      some (r.tags.map fun tag => ⟨.column tag.1, .eq, .literal tag.2⟩) := by
    rw [List.map_map, List.mapM_map]
    refine mapM_some (f := fun tag : List Char × List Char => parseComparison more [.word tag.1 none, .other '=', .string tag.2])
      (g := fun tag => ⟨.column tag.1, .eq, .literal tag.2⟩) ?_
    intro tag htag
    exact parseComparison_eq (parseOperand_column (h.tags tag htag).1) rfl
  rw [h1]
  have h2 : ((r.startTime.map fun time => (('\'' :: (time ++ "' <= timestamp".toList),
      [Token.string time, .other '<', .other '=', .word "timestamp".toList none]) : List Char × List Token)).toList.map (·.2)).mapM
        (parseComparison more) =
      some ((r.startTime.map fun time => ⟨.literal time, .le, .column "timestamp".toList⟩).toList) := by
    cases hs : r.startTime with
    | none => rfl
    | some time =>
      show (([[Token.string time, .other '<', .other '=', .word "timestamp".toList none]] : List (List Token)).mapM _) = _
      rw [List.mapM_cons, parseComparison_le rfl (parseOperand_column (h.timestamp (.inl (by rw [hs]; rfl))).2)]
      rfl
  rw [h2]
  have h3 : ((r.endTime.map fun time => (("timestamp <= '".toList ++ time ++ ['\''],
      [Token.word "timestamp".toList none, .other '<', .other '=', .string time]) : List Char × List Token)).toList.map (·.2)).mapM
        (parseComparison more) =
      some ((r.endTime.map fun time => ⟨.column "timestamp".toList, .le, .literal time⟩).toList) := by
    cases hs : r.endTime with
    | none => rfl
    | some time =>
      show (([[Token.word "timestamp".toList none, .other '<', .other '=', .string time]] : List (List Token)).mapM _) = _
      rw [List.mapM_cons, parseComparison_le (parseOperand_column (h.timestamp (.inr (by rw [hs]; rfl))).2) rfl]
      rfl
  rw [h3]
  rfl

theorem condition_tokens {more : List (List Char)} {t : Table φ} {r : Request} (h : PlainRequest more t r) {x : List Char × List Token}
    (hx : x ∈ conditionParts r) {k : List Char} (hk : k ∈ grammarWords) : ∀ y ∈ x.2, y.isKeyword k = false := by
  intro y hy
  unfold conditionParts at hx
  rw [List.mem_append, List.mem_append] at hx
  rcases hx with (hx | hx) | hx
  · obtain ⟨tag, htag, rfl⟩ := List.mem_map.mp hx
    simp only [List.mem_cons, List.not_mem_nil, or_false] at hy
    rcases hy with rfl | rfl | rfl
    · exact readable_not_keyword (h.tags tag htag).1 hk
    · rfl
    · rfl
  · cases hs : r.startTime with
    | none => rw [hs] at hx; simp at hx
    | some time =>
      rw [hs] at hx
      simp only [Option.map_some, Option.toList_some, List.mem_singleton] at hx
      subst hx
      simp only [List.mem_cons, List.not_mem_nil, or_false] at hy
      rcases hy with rfl | rfl | rfl | rfl
      · rfl
      · rfl
      · rfl
      · exact readable_not_keyword (h.timestamp (.inl (by rw [hs]; rfl))).2 hk
  · cases hs : r.endTime with
    | none => rw [hs] at hx; simp at hx
    | some time =>
      rw [hs] at hx
      simp only [Option.map_some, Option.toList_some, List.mem_singleton] at hx
      subst hx
      simp only [List.mem_cons, List.not_mem_nil, or_false] at hy
      rcases hy with rfl | rfl | rfl | rfl
      · exact readable_not_keyword (h.timestamp (.inr (by rw [hs]; rfl))).2 hk
      · rfl
      · rfl
      · rfl

/-- The tokens of the WHERE clause. -/
def whereTokens (r : Request) : List Token :=
  if conditionTexts r = [] then [] else [.word "WHERE".toList none] ++ joinTokens (.word "AND".toList none) ((conditionParts r).map (·.2))

/-- The tokens of the GROUP BY clause. -/
def groupByTokens (r : Request) : List Token :=
  if r.groupBy = [] then []
  else [.word "GROUP".toList none] ++ ([.word "BY".toList none] ++ joinTokens .comma (r.groupBy.map fun c => [.word c none]))

/-- The tokens of the query. -/
def readTokens (items : List (List Char × Aggregate)) (r : Request) : List Token :=
  [.word "SELECT".toList none] ++ (joinTokens .comma (items.map itemTokens) ++ ([.word "FROM".toList none] ++
    ([.word r.table none] ++ (whereTokens r ++ groupByTokens r))))

theorem items_readable {more : List (List Char)} {t : Table φ} {r : Request} (h : PlainRequest more t r) :
    requestedItems t r ≠ [] ∧ ∀ item ∈ requestedItems t r, Readable more item.1 := by
  unfold requestedItems
  split
  · rename_i hc
    obtain ⟨h1, h2⟩ := h.schema hc
    refine ⟨by simpa using h1, ?_⟩
    intro item hi
    obtain ⟨c, hc, rfl⟩ := List.mem_map.mp hi
    exact h2 c hc
  · rename_i hc
    exact ⟨hc, h.columns⟩

theorem items_text (t : Table φ) (r : Request) : (if r.columns = [] then t.columns else r.columns.map itemText) = (requestedItems t r).map itemText := by
  unfold requestedItems
  split
  · rw [List.map_map]
    exact (List.map_id _).symm
  · rfl

theorem lexes_read {more : List (List Char)} {t : Table φ} {r : Request} (h : PlainRequest more t r) :
    Lexes (readText t.columns r) (readTokens (requestedItems t r) r) := by
  have hkey : ∀ {k : List Char}, (k.all isIdentifierPart && k.head?.any isIdentifierStart) = true → Lexes k [.word k none] :=
    fun hk => lexes_word (plainName_of hk)
  have hitems : Lexes (join ", ".toList ((requestedItems t r).map itemText)) (joinTokens .comma ((requestedItems t r).map itemTokens)) := by
    have := lexes_commas ((requestedItems t r).map fun item => (itemText item, itemTokens item)) (by
      intro x hx
      obtain ⟨item, hi, rfl⟩ := List.mem_map.mp hx
      exact lexes_item ((items_readable h).2 item hi).plain)
    rw [List.map_map, List.map_map] at this
    exact this
  have hwhere : Lexes (if conditionTexts r = [] then [] else "WHERE ".toList ++ join " AND ".toList (conditionTexts r)) (whereTokens r) := by
    unfold whereTokens
    split
    · exact lexes_nil
    · have := (hkey (k := "WHERE".toList) (by decide +kernel)).space (lexes_ands (conditionParts r) (lexes_condition h))
      rw [conditionParts_texts] at this
      exact this
  have hgroup : Lexes (if r.groupBy = [] then [] else "GROUP BY ".toList ++ join ", ".toList r.groupBy) (groupByTokens r) := by
    unfold groupByTokens
    split
    · exact lexes_nil
    · have h1 := lexes_commas (r.groupBy.map fun c => (c, [Token.word c none])) (by
        intro x hx
        obtain ⟨c, hc, rfl⟩ := List.mem_map.mp hx
        exact lexes_word (h.groupBy c hc).plain)
      rw [List.map_map, List.map_map] at h1
      have h2 : (List.map ((fun x : List Char × List Token => x.1) ∘ fun c => (c, [Token.word c none])) r.groupBy) = r.groupBy := List.map_id _
      rw [h2] at h1
      exact (hkey (k := "GROUP".toList) (by decide +kernel)).space ((hkey (k := "BY".toList) (by decide +kernel)).space h1)
  have := (hkey (k := "SELECT".toList) (by decide +kernel)).space (hitems.space ((hkey (k := "FROM".toList) (by decide +kernel)).space
    ((lexes_word h.table.plain).space (hwhere.space hgroup))))
  unfold readText readTokens
  rw [items_text]
  dsimp only
  refine cast (congrArg (Lexes · _) ?_) this
  simp only [List.append_assoc]
  rfl

/-- The query that is meant. -/
def meant (t : Table φ) (r : Request) : Query :=
  ⟨requestedItems t r, r.table, if conditionTexts r = [] then none else some [comparisons r], r.groupBy⟩

theorem parse_groupBy {more : List (List Char)} {t : Table φ} {r : Request} (h : PlainRequest more t r) :
    parseGroupBy more (groupByTokens r) = some r.groupBy := by
  unfold groupByTokens
  split
  · rename_i he
    rw [he]
    rfl
  · rename_i he
    show parseGroupBy more (.word "GROUP".toList none :: .word "BY".toList none :: joinTokens .comma (r.groupBy.map fun c => [.word c none])) = _
    rw [parseGroupBy, if_pos (by decide +kernel), splitTokens_join (by rfl) (by simpa using he)]
    · rw [List.mapM_map]
      have := mapM_some (f := fun c => parseName more (.word c none)) (g := id) (l := r.groupBy) fun c hc => readable_parse (h.groupBy c hc)
      rw [List.map_id] at this
      exact this
    · intro part hp x hx
      obtain ⟨c, -, rfl⟩ := List.mem_map.mp hp
      rw [List.mem_singleton.mp hx]
      rfl

theorem parse_clauses {more : List (List Char)} {t : Table φ} {r : Request} (h : PlainRequest more t r) :
    parseClauses more (whereTokens r ++ groupByTokens r) = some (if conditionTexts r = [] then none else some [comparisons r], r.groupBy) := by
  have hgroup : ∀ x, (groupByTokens r).head? = some x → x.isKeyword "GROUP".toList = true ∧ x.isKeyword "WHERE".toList = false := by
    intro x hx
    unfold groupByTokens at hx
    split at hx
    · cases hx
    · injection hx with hx
      subst hx
      decide +kernel
  unfold whereTokens
  split
  · rw [List.nil_append]
    have hg := parse_groupBy h
    cases hgt : groupByTokens r with
    | nil =>
      rw [hgt] at hg
      have : r.groupBy = [] := by
        injection hg with hg
        exact hg.symm
      rw [this]
      rfl
    | cons x rest =>
      rw [hgt] at hg
      rw [parseClauses, (hgroup x (by rw [hgt]; rfl)).2, hg]
      rfl
  · rename_i hne
    have hparts : (conditionParts r).map (·.2) ≠ [] := by
      intro hc
      rw [List.map_eq_nil_iff] at hc
      apply hne
      rw [← conditionParts_texts, hc]
      rfl
    have hand : ∀ {k : List Char}, k ∈ grammarWords → k ≠ "AND".toList →
        ∀ x ∈ joinTokens (.word "AND".toList none) ((conditionParts r).map (·.2)), x.isKeyword k = false := by
      intro k hk hka x hx
      rcases mem_joinTokens hx with rfl | ⟨part, hp, hx⟩
      · show decide (("AND".toList).map Char.toUpper = k) = false
        rw [decide_eq_false_iff_not]
        rintro rfl
        exact hka (by decide +kernel)
      · obtain ⟨y, hy, rfl⟩ := List.mem_map.mp hp
        exact condition_tokens h hy hk x hx
    have hspan := span_stop (p := (!·.isKeyword "GROUP".toList)) (xs := joinTokens (.word "AND".toList none) ((conditionParts r).map (·.2)))
      (rest := groupByTokens r) (fun x hx => by rw [hand (by decide +kernel) (by decide +kernel) x hx]; rfl)
      (fun x hx => by rw [(hgroup x hx).1]; rfl)
    rw [List.append_assoc, List.singleton_append, parseClauses, if_pos (by decide +kernel), hspan.1, hspan.2, parse_groupBy h]
    have hcond : parseCondition more (joinTokens (.word "AND".toList none) ((conditionParts r).map (·.2))) = some [comparisons r] := by
      unfold parseCondition
      rw [splitTokens_single (hand (by decide +kernel) (by decide +kernel)), List.mapM_cons, splitTokens_join (by decide +kernel) hparts]
      · rw [parse_condition h]
        rfl
      · intro part hp x hx
        obtain ⟨y, hy, rfl⟩ := List.mem_map.mp hp
        exact condition_tokens h hy (by decide +kernel) x hx
    rw [hcond]
    rfl

theorem parse_read {more : List (List Char)} {t : Table φ} {r : Request} (h : PlainRequest more t r) :
    parseQuery more (readTokens (requestedItems t r) r) = some (meant t r) := by
  obtain ⟨hne, hitems⟩ := items_readable h
  have hspan := span_stop (p := (!·.isKeyword "FROM".toList)) (xs := joinTokens .comma ((requestedItems t r).map itemTokens))
    (rest := .word "FROM".toList none :: ([.word r.table none] ++ (whereTokens r ++ groupByTokens r)))
    (fun x hx => by
      rcases mem_joinTokens hx with rfl | ⟨part, hp, hx⟩
      · rfl
      · obtain ⟨item, hi, rfl⟩ := List.mem_map.mp hp
        rw [(item_tokens (hitems item hi) hx).2]
        rfl)
    (fun x hx => by
      injection hx with hx
      subst hx
      decide +kernel)
  unfold readTokens
  rw [List.singleton_append, List.singleton_append, parseQuery, if_pos (by decide +kernel), hspan.1, hspan.2, splitTokens_join (by rfl) (by simpa using hne)]
  · rw [List.mapM_map]
    have := mapM_some (f := parseItem more ∘ itemTokens) (g := id) (l := requestedItems t r) fun item hi => parse_item (hitems item hi)
    rw [List.map_id] at this
    rw [this]
    show ((parseName more (.word r.table none)).bind _) = _
    rw [readable_parse h.table]
    show ((parseClauses more (whereTokens r ++ groupByTokens r)).map _) = _
    rw [parse_clauses h]
    rfl
  · intro part hp x hx
    obtain ⟨item, hi, rfl⟩ := List.mem_map.mp hp
    have := (item_tokens (hitems item hi) hx).1
    simpa using this

/-- Conditions that are all checked. -/
theorem mapM_all {α β : Type} (f : α → Option (β → Bool)) : ∀ l : List α,
    (∀ gs, l.mapM f = some gs → (∀ x ∈ l, (f x).isSome = true) ∧
      ∀ row, (gs.all fun g => g row) = true ↔ ∀ x ∈ l, ∀ g, f x = some g → g row = true) ∧
    (l.mapM f = none → ∃ x ∈ l, f x = none)
  | [] => by
    refine ⟨?_, ?_⟩
    · intro gs hg
      injection hg with hg
      subst hg
      simp
    · intro h
      cases h
  | x :: l => by
    obtain ⟨h1, h2⟩ := mapM_all f l
    rw [List.mapM_cons]
    cases hx : f x with
    | none =>
      refine ⟨?_, ?_⟩
      · intro gs hg
        cases hg
      · intro _
        exact ⟨x, by simp, hx⟩
    | some g =>
      cases hl : l.mapM f with
      | none =>
        refine ⟨?_, ?_⟩
        · intro gs hg
          cases hg
        · intro _
          obtain ⟨y, hy, hf⟩ := h2 hl
          exact ⟨y, List.mem_cons_of_mem _ hy, hf⟩
      | some gs =>
        refine ⟨?_, ?_⟩
        · intro gs' hg
          injection hg with hg
          subst hg
          obtain ⟨h3, h4⟩ := h1 gs hl
          refine ⟨?_, ?_⟩
          · intro y hy
            rcases List.mem_cons.mp hy with rfl | hy
            · rw [hx]; rfl
            · exact h3 y hy
          · intro row
            rw [List.all_cons, Bool.and_eq_true, h4 row]
            constructor
            · rintro ⟨h5, h6⟩ y hy k hk
              rcases List.mem_cons.mp hy with rfl | hy
              · rw [hx] at hk
                injection hk with hk
                subst hk
                exact h5
              · exact h6 y hy k hk
            · intro h5
              exact ⟨h5 x (by simp) g hx, fun y hy => h5 y (List.mem_cons_of_mem _ hy)⟩
        · intro h
          cases h

theorem mem_comparisons {r : Request} {c : Comparison} : c ∈ comparisons r ↔
    (∃ tag ∈ r.tags, c = ⟨.column tag.1, .eq, .literal tag.2⟩) ∨ (∃ time ∈ r.startTime, c = ⟨.literal time, .le, .column "timestamp".toList⟩) ∨
      ∃ time ∈ r.endTime, c = ⟨.column "timestamp".toList, .le, .literal time⟩ := by
  unfold comparisons
  rw [List.mem_append, List.mem_append, List.mem_map, Option.mem_toList, Option.mem_toList, or_assoc]
  simp only [Option.mem_def, Option.map_eq_some_iff, eq_comm (a := c)]

theorem comparisons_nil {r : Request} (h : conditionTexts r = []) : comparisons r = [] := by
  unfold conditionTexts at h
  unfold comparisons
  rw [List.append_eq_nil_iff, List.append_eq_nil_iff] at h ⊢
  obtain ⟨⟨h1, h2⟩, h3⟩ := h
  refine ⟨⟨?_, ?_⟩, ?_⟩
  · rw [List.map_eq_nil_iff] at h1 ⊢
    exact h1
  · cases hs : r.startTime with
    | none => rfl
    | some time => rw [hs] at h2; cases h2
  · cases hs : r.endTime with
    | none => rfl
    | some time => rw [hs] at h3; cases h3

theorem comparisons_checked {more : List (List Char)} (parseTime : List Char → Option Int) {t : Table φ} {r : Request} (h : PlainRequest more t r) :
    (∀ c ∈ comparisons r, (comparison parseTime t c).isSome = true) ↔ (∀ tag ∈ r.tags, tag.1 ∈ t.tags) ∧
      (∀ time ∈ r.startTime, (parseTime time).isSome = true) ∧ (∀ time ∈ r.endTime, (parseTime time).isSome = true) := by
  have htag : ∀ tag ∈ r.tags, (comparison parseTime t ⟨.column tag.1, .eq, .literal tag.2⟩).isSome = true ↔ tag.1 ∈ t.tags := by
    intro tag ht
    unfold comparison
    simp only [if_neg (h.tags tag ht).2.1]
    split <;> simp_all
  have hstart : ∀ time ∈ r.startTime, (comparison parseTime t ⟨.literal time, .le, .column "timestamp".toList⟩).isSome = true ↔
      (parseTime time).isSome = true := by
    intro time ht
    unfold comparison
    simp only [if_pos (h.timestamp (.inl (by rw [ht]; rfl))).1.symm, Option.isSome_map]
  have hend : ∀ time ∈ r.endTime, (comparison parseTime t ⟨.column "timestamp".toList, .le, .literal time⟩).isSome = true ↔
      (parseTime time).isSome = true := by
    intro time ht
    unfold comparison
    simp only [if_pos (h.timestamp (.inr (by rw [ht]; rfl))).1.symm, Option.isSome_map]
  constructor
  · intro hc
    exact ⟨fun tag ht => (htag tag ht).mp (hc _ (mem_comparisons.mpr (.inl ⟨tag, ht, rfl⟩))),
      fun time ht => (hstart time ht).mp (hc _ (mem_comparisons.mpr (.inr (.inl ⟨time, ht, rfl⟩)))),
      fun time ht => (hend time ht).mp (hc _ (mem_comparisons.mpr (.inr (.inr ⟨time, ht, rfl⟩))))⟩
  · rintro ⟨h1, h2, h3⟩ c hc
    rcases mem_comparisons.mp hc with ⟨tag, ht, rfl⟩ | ⟨time, ht, rfl⟩ | ⟨time, ht, rfl⟩
    · exact (htag tag ht).mpr (h1 tag ht)
    · exact (hstart time ht).mpr (h2 time ht)
    · exact (hend time ht).mpr (h3 time ht)

theorem comparisons_hold {more : List (List Char)} (parseTime : List Char → Option Int) {t : Table φ} {r : Request} (h : PlainRequest more t r)
    (hv : ∀ tag ∈ r.tags, tag.1 ∈ t.tags) (row : Row φ) :
    (∀ c ∈ comparisons r, ∀ g, comparison parseTime t c = some g → g row = true) ↔ RequestedRow parseTime r row := by
  have htag : ∀ tag ∈ r.tags, comparison parseTime t ⟨.column tag.1, .eq, .literal tag.2⟩ = some fun row => row.tag tag.1 == tag.2 := by
    intro tag ht
    unfold comparison
    simp only [if_neg (h.tags tag ht).2.1, if_pos (hv tag ht)]
    rfl
  have hstart : ∀ time ∈ r.startTime, comparison parseTime t ⟨.literal time, .le, .column "timestamp".toList⟩ =
      (parseTime time).map fun ts row => decide (ts ≤ row.time) := by
    intro time ht
    unfold comparison
    simp only [if_pos (h.timestamp (.inl (by rw [ht]; rfl))).1.symm]
    rfl
  have hend : ∀ time ∈ r.endTime, comparison parseTime t ⟨.column "timestamp".toList, .le, .literal time⟩ =
      (parseTime time).map fun ts row => decide (row.time ≤ ts) := by
    intro time ht
    unfold comparison
    simp only [if_pos (h.timestamp (.inr (by rw [ht]; rfl))).1.symm]
    rfl
  constructor
  · intro hc
    refine ⟨?_, ?_, ?_⟩
    · intro tag ht
      have := hc _ (mem_comparisons.mpr (.inl ⟨tag, ht, rfl⟩)) _ (htag tag ht)
      simpa using this
    · intro time ht ts hts
      have := hc _ (mem_comparisons.mpr (.inr (.inl ⟨time, ht, rfl⟩))) _ ((hstart time ht).trans (by rw [hts]; rfl))
      simpa using this
    · intro time ht ts hts
      have := hc _ (mem_comparisons.mpr (.inr (.inr ⟨time, ht, rfl⟩))) _ ((hend time ht).trans (by rw [hts]; rfl))
      simpa using this
  · rintro ⟨h1, h2, h3⟩ c hc g hg
    rcases mem_comparisons.mp hc with ⟨tag, ht, rfl⟩ | ⟨time, ht, rfl⟩ | ⟨time, ht, rfl⟩
    · rw [htag tag ht] at hg
      injection hg with hg
      subst hg
      simpa using h1 tag ht
    · rw [hstart time ht, Option.map_eq_some_iff] at hg
      obtain ⟨ts, hts, rfl⟩ := hg
      simpa using h2 time ht ts hts
    · rw [hend time ht, Option.map_eq_some_iff] at hg
      obtain ⟨ts, hts, rfl⟩ := hg
      simpa using h3 time ht ts hts

theorem condition_meant {more : List (List Char)} (parseTime : List Char → Option Int) {t : Table φ} {r : Request} (h : PlainRequest more t r) :
    let valid := (∀ tag ∈ r.tags, tag.1 ∈ t.tags) ∧ (∀ time ∈ r.startTime, (parseTime time).isSome = true) ∧
      (∀ time ∈ r.endTime, (parseTime time).isSome = true)
    let result := match (meant t r).condition with
      | none => some fun (_ : Row φ) => true
      | some parts => condition parseTime t parts
    (valid → ∃ keep, result = some keep ∧ ∀ row, keep row = true ↔ RequestedRow parseTime r row) ∧ (¬valid → result = none) := by
  intro valid result
  by_cases he : conditionTexts r = []
  · have hr : result = some fun _ => true := by
      show (match (meant t r).condition with
        | none => some fun (_ : Row φ) => true
        | some parts => condition parseTime t parts) = _
      rw [show (meant t r).condition = none from if_pos he]
    have hn := comparisons_nil he
    have hvalid : valid := (comparisons_checked parseTime h).mp (by rw [hn]; simp)
    refine ⟨fun _ => ⟨_, hr, fun row => ?_⟩, fun hv => absurd hvalid hv⟩
    have := comparisons_hold parseTime h hvalid.1 row
    rw [hn] at this
    simpa using this
  · have hr : result = ((comparisons r).mapM (comparison parseTime t)).map fun gs row => gs.all fun g => g row := by
      show (match (meant t r).condition with
        | none => some fun (_ : Row φ) => true
        | some parts => condition parseTime t parts) = _
      rw [show (meant t r).condition = some [comparisons r] from if_neg he]
      show condition parseTime t [comparisons r] = _
      unfold condition
      rw [List.mapM_cons]
      cases (comparisons r).mapM (comparison parseTime t) with
      | none => rfl
      | some gs =>
        show some _ = some _
        congr 1
        funext row
        simp
    obtain ⟨h1, h2⟩ := mapM_all (comparison parseTime t) (comparisons r)
    rw [hr]
    cases hm : (comparisons r).mapM (comparison parseTime t) with
    | none =>
      refine ⟨fun hv => ?_, fun _ => rfl⟩
      obtain ⟨c, hc, hn⟩ := h2 hm
      have := (comparisons_checked parseTime h).mpr hv c hc
      rw [hn] at this
      cases this
    | some gs =>
      obtain ⟨h3, h4⟩ := h1 gs hm
      have hvalid := (comparisons_checked parseTime h).mp h3
      exact ⟨fun hv => ⟨_, rfl, fun row => (h4 row).trans (comparisons_hold parseTime h hv.1 row)⟩, fun hv => absurd hvalid hv⟩

/-- **C63**, partial: if all names are identifiers in lower case that are not words of SQL, no value has a quote and the column with timestamps is called
`timestamp`, then `read_time_series_table` computes its result from exactly the columns, aggregates, groups and rows that are asked for, whatever the order
of the tags, and fails exactly if the request refers to something that does not exist. -/
theorem C63_reads_partial {ρ : Type} (more : List (List Char)) (parseTime : List Char → Option Int)
    (answer : Table φ → List (List Char × Aggregate) → List (List Char) → List (Row φ) → ρ) (tables : List (Table φ)) (t : Table φ) (r : Request)
    (ht : tables.find? (·.name == r.table) = some t) (h : PlainRequest more t r) :
    Reads parseTime answer t r (readTable more parseTime answer tables r) := by
  have hread : readTable more parseTime answer tables r = ReadTable.execute parseTime answer tables (meant t r) := by
    unfold readTable
    rw [ht]
    dsimp only
    rw [(lexes_read h).tokenize, Option.bind_some, parse_read h, Option.bind_some]
  have hitems : (requestedItems t r).all (fun item => t.columns.contains item.1) = true ↔ ∀ c ∈ r.columns, c.1 ∈ t.columns := by
    unfold requestedItems
    split
    · rename_i he
      rw [he]
      simp
    · simp
  rw [hread]
  unfold ReadTable.execute
  rw [show (meant t r).table = r.table from rfl, ht]
  dsimp only
  obtain ⟨h1, h2⟩ := condition_meant parseTime h
  rw [show (meant t r).items = requestedItems t r from rfl, show (meant t r).groupBy = r.groupBy from rfl]
  constructor
  · rintro ⟨hv1, hv2, hv3⟩
    obtain ⟨keep, hk, hrow⟩ := h1 hv3
    refine ⟨keep, hrow, ?_⟩
    rw [if_pos (by rw [Bool.and_eq_true, hitems]; exact ⟨hv1, by simpa using hv2⟩)]
    exact congrArg (Option.map _) hk
  · intro hv
    split
    · rename_i hc
      rw [Bool.and_eq_true, hitems] at hc
      exact congrArg (Option.map _) (h2 fun hc' => hv ⟨hc.1, by simpa using hc.2, hc'⟩)
    · rfl

/-! ### Cases that meet the hypotheses, and where the property is false -/

/-- The columns and the timestamps of the rows that are read. -/
def seen (_ : Table Unit) (items : List (List Char × Aggregate)) (_ : List (List Char)) (rows : List (Row Unit)) :
    List (List Char × Aggregate) × List Int := (items, rows.map (·.time))

/-- Timestamps are numbers. -/
def parseDigits (text : List Char) : Option Int := (parseU64 text).map fun n => (n : Int)

/-- A table with three rows and two tags. -/
def winds (timestamp tag value : String) : Table Unit :=
  ⟨"wind".toList, [timestamp.toList, tag.toList, value.toList], timestamp.toList, [tag.toList],
    [⟨1, fun _ => "a".toList, ()⟩, ⟨2, fun _ => "b".toList, ()⟩, ⟨3, fun _ => "b".toList, ()⟩]⟩

/-- Rows of a tag in a range of time, with an aggregate and a group. -/
def windRequest (tag : String) : Request :=
  ⟨"wind".toList, [("park".toList, .none), ("speed".toList, .sum)], ["park".toList], some "1".toList, some "2".toList, [("park".toList, tag.toList)]⟩

theorem readable_of {more : List (List Char)} {name : List Char}
    (h : (name.all isIdentifierPart && name.head?.any isIdentifierStart && name.all (fun c => c.toLower == c) && !isReserved more name) = true) :
    Readable more name := by
  simp only [Bool.and_eq_true, Bool.not_eq_true'] at h
  obtain ⟨⟨h1, h2⟩, h3⟩ := h
  refine ⟨plainName_of (by simpa [Bool.and_eq_true] using h1), ?_, isReserved_iff.mp h3⟩
  intro c hc
  simpa using List.all_eq_true.mp h2 c hc

example : PlainRequest [] (winds "timestamp" "park" "speed") (windRequest "b") ∧
    readTable [] parseDigits seen [winds "timestamp" "park" "speed"] (windRequest "b") =
      some ([("park".toList, .none), ("speed".toList, .sum)], [2]) ∧
    readTable [] parseDigits seen [winds "timestamp" "park" "speed"] ⟨"wind".toList, [], [], none, none, []⟩ =
      some ([("timestamp".toList, .none), ("park".toList, .none), ("speed".toList, .none)], [1, 2, 3]) := by
  refine ⟨⟨readable_of (by decide +kernel), ?_, ?_, ?_, ?_, ?_, ?_, ?_⟩, by decide +kernel, by decide +kernel⟩
  · simp only [windRequest, List.mem_cons, List.not_mem_nil, or_false]
    rintro c (rfl | rfl)
    · exact readable_of (by decide +kernel)
    · exact readable_of (by decide +kernel)
  · rintro ⟨⟩
  · simp only [windRequest, List.mem_cons, List.not_mem_nil, or_false]
    rintro c rfl
    exact readable_of (by decide +kernel)
  · simp only [windRequest, List.mem_cons, List.not_mem_nil, or_false]
    rintro tag rfl
    exact ⟨readable_of (by decide +kernel), by decide +kernel, by decide +kernel⟩
  · rintro time ⟨⟩
    decide +kernel
  · rintro time ⟨⟩
    decide +kernel
  · intro _
    exact ⟨rfl, readable_of (by decide +kernel)⟩

/-- **C63** is false of the code for tags with quotes: asking for the rows whose tag is `x' OR 'a' = 'a`, of which there are none, returns all rows. -/
theorem C63_quotes :
    readTable [] parseDigits seen [winds "timestamp" "park" "speed"] ⟨"wind".toList, [], [], none, none, [("park".toList, "x' OR 'a' = 'a".toList)]⟩ =
      some ([("timestamp".toList, .none), ("park".toList, .none), ("speed".toList, .none)], [1, 2, 3]) ∧
    ∀ row ∈ (winds "timestamp" "park" "speed").rows,
      ¬RequestedRow parseDigits ⟨"wind".toList, [], [], none, none, [("park".toList, "x' OR 'a' = 'a".toList)]⟩ row := by
  refine ⟨by decide +kernel, ?_⟩
  simp only [winds, List.mem_cons, List.not_mem_nil, or_false]
  rintro row (rfl | rfl | rfl) h
  all_goals
    have := h.1 ("park".toList, "x' OR 'a' = 'a".toList) (by simp)
    exact absurd this (by decide +kernel)

/-- **C63** is false of the code for tables whose column with timestamps has another name: rows cannot be read by time. -/
theorem C63_timestamp : ValidRequest parseDigits (winds "time" "park" "speed") ⟨"wind".toList, [], [], some "2".toList, none, []⟩ ∧
    readTable [] parseDigits seen [winds "time" "park" "speed"] ⟨"wind".toList, [], [], some "2".toList, none, []⟩ = none := by
  refine ⟨⟨by simp, by simp, by simp, ?_, by simp⟩, by decide +kernel⟩
  rintro time ⟨⟩
  decide +kernel

/-- Worse, if a tag is called `timestamp` the rows are selected by the text of the tag: all rows are returned although the first is before the start. -/
theorem C63_timestamp_tag :
    readTable [] parseDigits seen [winds "time" "timestamp" "speed"] ⟨"wind".toList, [("speed".toList, .none)], [], some "2".toList, none, []⟩ =
      some ([("speed".toList, .none)], [1, 2, 3]) ∧
    ¬RequestedRow parseDigits ⟨"wind".toList, [("speed".toList, .none)], [], some "2".toList, none, []⟩ (⟨1, fun _ => "a".toList, ()⟩ : Row Unit) := by
  refine ⟨by decide +kernel, fun h => ?_⟩
  have := h.2.1 "2".toList rfl 2 (by decide +kernel)
  exact absurd this (by decide)

/-- **C63** is false of the code for columns with upper-case letters: such a column cannot be read, and neither can all columns of its table. If there is
another column whose name only differs in case, that one is read instead. -/
theorem C63_case : ValidRequest parseDigits (winds "timestamp" "park" "Speed") ⟨"wind".toList, [("Speed".toList, .none)], [], none, none, []⟩ ∧
    readTable [] parseDigits seen [winds "timestamp" "park" "Speed"] ⟨"wind".toList, [("Speed".toList, .none)], [], none, none, []⟩ = none ∧
    readTable [] parseDigits seen [winds "timestamp" "park" "Speed"] ⟨"wind".toList, [], [], none, none, []⟩ = none ∧
    readTable [] parseDigits seen [{ winds "timestamp" "park" "Speed" with
        columns := ["timestamp".toList, "park".toList, "Speed".toList, "speed".toList] }]
      ⟨"wind".toList, [("Speed".toList, .none)], [], none, none, []⟩ = some ([("speed".toList, .none)], [1, 2, 3]) := by
  refine ⟨⟨?_, by simp, by simp, by simp, by simp⟩, by decide +kernel, by decide +kernel, by decide +kernel⟩
  intro c hc
  rw [List.mem_singleton.mp hc]
  decide +kernel

end ModelarDB.Props
