import Verif.Lemmas.Statements
/-
C42: statements act on exactly the tables they name.
-/
namespace ModelarDB.Props
open Model.Statements Spec Lemmas

/-! ### Parsing -/

theorem ends_dropWhile {pre tokens : List Token} (hpre : Ends pre) (h : tokens.head? ≠ some .semicolon) :
    (pre ++ tokens).dropWhile (· == .semicolon) = tokens := by
  induction pre with
  | nil =>
    cases tokens with
    | nil => rfl
    | cons t tokens =>
      rw [List.nil_append, List.dropWhile_cons, if_neg]
      simp only [beq_iff_eq]
      rintro rfl
      exact h rfl
  | cons t pre ih =>
    have := hpre t (List.mem_cons_self ..)
    subst this
    rw [List.cons_append, List.dropWhile_cons, if_pos (by rfl), ih fun x hx => hpre x (List.mem_cons_of_mem _ hx)]

theorem ends_all {post : List Token} (h : Ends post) : post.all (· == .semicolon) = true := by
  rw [List.all_eq_true]
  intro t ht
  rw [h t ht]
  rfl

/-- What `parse` does with the statement at the start. -/
theorem parse_between {pre body post : List Token} {s : Statement} (hpre : Ends pre) (hpost : Ends post)
    (hbody : body.head? ≠ some .semicolon) (h : parseStatement (body ++ post) = some (s, post)) (hne : body ≠ []) :
    parse (pre ++ (body ++ post)) = some s := by
  unfold parse
  rw [ends_dropWhile hpre, h]
  · simp only
    rw [if_pos (ends_all hpost)]
  · cases body with
    | nil => exact absurd rfl hne
    | cons t body => exact hbody

theorem parse_sound {tokens : List Token} {s : Statement} (h : parse tokens = some s) : ∃ pre body post, Ends pre ∧ Ends post ∧
    tokens = pre ++ body ∧ parseStatement body = some (s, post) := by
  unfold parse at h
  split at h
  · rename_i s' rest hs
    split at h
    · rename_i hall
      injection h with h
      subst h
      refine ⟨tokens.takeWhile (· == .semicolon), _, rest, ?_, ?_, (List.takeWhile_append_dropWhile).symm, hs⟩
      · intro t ht
        have := List.all_eq_true.mp (List.all_takeWhile (p := (· == Token.semicolon)) (l := tokens)) t ht
        simpa using this
      · intro t ht
        have := List.all_eq_true.mp hall t ht
        simpa using this
    · cases h
  · cases h

theorem parseCluster_clause {cluster : Bool} {flag rest : List Token} (hflag : ClusterClause cluster flag)
    (hnot : cluster = false → ∀ t, rest.head? = some t → ¬ Keyword t "CLUSTER") : parseCluster (flag ++ rest) = (cluster, rest) := by
  unfold ClusterClause at hflag
  cases cluster with
  | true =>
    obtain ⟨t, rfl, ht⟩ := hflag
    show parseCluster (t :: rest) = _
    rw [parseCluster, if_pos (isKeyword_iff.mpr ht)]
  | false =>
    simp only [Bool.false_eq_true, if_false] at hflag
    subst hflag
    cases rest with
    | nil => rfl
    | cons t rest =>
      show parseCluster (t :: rest) = _
      rw [parseCluster, if_neg]
      rw [isKeyword_iff]
      exact hnot rfl t rfl

theorem parseCluster_sound (rest : List Token) : ∃ flag, ClusterClause (parseCluster rest).1 flag ∧ rest = flag ++ (parseCluster rest).2 ∧
    ((parseCluster rest).1 = false → ∀ t, (parseCluster rest).2.head? = some t → ¬ Keyword t "CLUSTER") := by
  cases rest with
  | nil => exact ⟨[], rfl, rfl, by rintro _ t ⟨⟩⟩
  | cons t rest =>
    by_cases h : t.isKeyword "CLUSTER".toList = true
    · have hp : parseCluster (t :: rest) = (true, rest) := by rw [parseCluster, if_pos h]
      rw [hp]
      rw [isKeyword_iff] at h
      exact ⟨[t], ⟨t, rfl, h⟩, rfl, by simp⟩
    · have hp : parseCluster (t :: rest) = (false, t :: rest) := by rw [parseCluster, if_neg h]
      rw [hp]
      refine ⟨[], rfl, rfl, fun _ u hu => ?_⟩
      injection hu with hu
      subst hu
      rw [← isKeyword_iff]
      exact h

theorem ends_head {post : List Token} (h : Ends post) : ∀ t, post.head? = some t → t = .semicolon := by
  intro t ht
  exact h t (List.mem_of_mem_head? ht)

theorem listing_head {ws : List Word} {rest : List Token} (hne : ws ≠ []) :
    ∃ w, ws.head? = some w ∧ (listing ws ++ rest).head? = some w.token := by
  obtain ⟨w, ws, rfl⟩ := List.exists_cons_of_ne_nil hne
  refine ⟨w, rfl, ?_⟩
  rw [listing_cons]
  split <;> rfl

theorem semicolon_not_keyword (k : String) : ¬ Keyword .semicolon k := by rintro ⟨_, h, _⟩; cases h

/-- TRUNCATE is parsed to the names in the statement. -/
theorem C42_truncate_parsed (pre body post : List Token) (ws : List Word) (cluster : Bool) (hpre : Ends pre) (hpost : Ends post)
    (h : SaysTruncate body ws cluster) : parse (pre ++ (body ++ post)) = some (.truncate (ws.map Word.value) cluster) := by
  obtain ⟨t, flag, rfl, ht, hflag, hne, hnot⟩ := h
  refine parse_between hpre hpost ?_ ?_ (by simp)
  · intro hc
    injection hc with hc
    subst hc
    exact semicolon_not_keyword _ ht
  rw [List.cons_append, parseStatement_cons, if_neg (by rw [isKeyword_iff]; intro hv; exact absurd (keyword_unique hv ht) (by decide)),
    if_pos (isKeyword_iff.mpr ht), parseTruncate, List.append_assoc, parseCluster_clause hflag]
  · simp only
    rw [parseTableNames_listing ws hne post]
    · rfl
    · intro hc
      cases post with
      | nil => cases hc
      | cons p post =>
        injection hc with hc
        subst hc
        exact absurd (hpost _ (List.mem_cons_self ..)) (by simp)
  · intro hc u hu
    obtain ⟨w, hw, hh⟩ := listing_head (rest := post) hne
    rw [hh] at hu
    injection hu with hu
    subst hu
    exact hnot hc w hw

theorem retain_noComma {retention : Option Nat} {retain post : List Token} (h : RetainClause retention retain) (hpost : Ends post) :
    NoComma (retain ++ post) := by
  unfold NoComma
  intro hc
  cases retention with
  | none =>
    unfold RetainClause at h
    subst h
    exact absurd (ends_head hpost _ hc) (by simp)
  | some n =>
    obtain ⟨t, text, rfl, ⟨_, rfl, _⟩, _⟩ := h
    injection hc with hc
    cases hc

/-- The names and the period of VACUUM as they are parsed, before the names are joined and split. -/
theorem parseVacuum_says {flag retain post : List Token} {ws : List Word} {retention : Option Nat} {cluster : Bool} (hpost : Ends post)
    (hflag : ClusterClause cluster flag) (hretain : RetainClause retention retain) (hnr : ∀ w, ws.head? = some w → w.Not "RETAIN")
    (hnc : cluster = false → ∀ w, ws.head? = some w → w.Not "CLUSTER") :
    parseVacuum (flag ++ (listing ws ++ (retain ++ post))) =
      if ∀ n, retention = some n → n ≤ maxRetention then
        some ((join [';'] (ws.map Word.value), retention.map (Nat.toDigits 10), cluster), post)
      else none := by
  have hc := parseCluster_clause (rest := listing ws ++ (retain ++ post)) hflag (by
    intro hc u hu
    cases hws : ws with
    | nil =>
      subst hws
      rw [show listing [] = [] from rfl, List.nil_append] at hu
      cases retention with
      | none =>
        unfold RetainClause at hretain
        subst hretain
        rw [ends_head hpost u hu]
        exact semicolon_not_keyword _
      | some n =>
        obtain ⟨t, text, rfl, ht, _⟩ := hretain
        injection hu with hu
        subst hu
        intro hk
        exact absurd (keyword_unique hk ht) (by decide)
    | cons w ws' =>
      obtain ⟨w', hw', hh⟩ := listing_head (ws := ws) (rest := retain ++ post) (by rw [hws]; simp)
      rw [hh] at hu
      injection hu with hu
      subst hu
      exact hnc hc w' hw')
  have hnames : parseVacuumNames (listing ws ++ (retain ++ post)) = some (ws.map Word.value, retain ++ post) := by
    cases hws : ws with
    | nil =>
      rw [show listing [] = [] from rfl, List.nil_append]
      cases retention with
      | none =>
        unfold RetainClause at hretain
        subst hretain
        cases post with
        | nil => rfl
        | cons p post =>
          rw [hpost p (List.mem_cons_self ..)]
          rfl
      | some n =>
        obtain ⟨t, text, rfl, ⟨v, rfl, hv⟩, _⟩ := hretain
        show parseVacuumNames (.word v none :: .number text :: post) = _
        rw [parseVacuumNames, if_pos (isKeyword_iff.mpr ⟨v, rfl, hv⟩)]
        rfl
    | cons w ws' =>
      rw [← hws]
      have hne : ws ≠ [] := by rw [hws]; simp
      have hp := parseTableNames_listing ws hne (retain ++ post) (retain_noComma hretain hpost)
      have hl : ∃ rest, listing ws ++ (retain ++ post) = .word w.value w.quote :: rest := by
        rw [hws, listing_cons]
        split
        · exact ⟨_, rfl⟩
        · exact ⟨_, rfl⟩
      obtain ⟨rest, hl⟩ := hl
      rw [hl] at hp ⊢
      rw [parseVacuumNames, if_neg, hp]
      rw [isKeyword_iff]
      exact hnr w (by rw [hws]; rfl)
  have hret : parseRetain (retain ++ post) =
      if ∀ n, retention = some n → n ≤ maxRetention then some (retention, post) else none := by
    cases retention with
    | none =>
      unfold RetainClause at hretain
      subst hretain
      rw [if_pos (by simp), List.nil_append]
      cases post with
      | nil => rfl
      | cons p post =>
        rw [hpost p (List.mem_cons_self ..)]
        rfl
    | some n =>
      obtain ⟨t, text, rfl, ht, hne, hd, rfl⟩ := hretain
      show parseRetain (t :: .number text :: post) = _
      rw [parseRetain, if_pos (isKeyword_iff.mpr ht)]
      simp only [Option.some.injEq, forall_eq']
      by_cases hlt : Nat.ofDigitChars 10 text 0 < 2 ^ 64
      · rw [parseU64_digits hne hd hlt]
        simp only
        by_cases hm : maxRetention < Nat.ofDigitChars 10 text 0
        · rw [if_pos hm, if_neg (by omega)]
        · rw [if_neg hm, if_pos (by omega)]
      · rw [if_neg (by have : maxRetention < 2 ^ 64 := by decide
                       omega)]
        unfold parseU64
        rw [if_neg (by simp only [not_and]; intro _ _; exact hlt)]
  unfold parseVacuum
  rw [hc]
  simp only
  rw [hnames]
  simp only
  rw [hret]
  by_cases hle : ∀ n, retention = some n → n ≤ maxRetention
  · rw [if_pos hle, if_pos hle]
  · rw [if_neg hle, if_neg hle]

theorem parse_vacuum {pre body post : List Token} {ws : List Word} {retention : Option Nat} {cluster : Bool} (hpre : Ends pre)
    (hpost : Ends post) (h : SaysVacuum body ws retention cluster) :
    parse (pre ++ (body ++ post)) = if ∀ n, retention = some n → n ≤ maxRetention then
      some (.vacuum (splitTerminator ';' (join [';'] (ws.map Word.value))) retention cluster) else none := by
  obtain ⟨t, flag, retain, rfl, ht, hflag, hretain, hnr, hnc⟩ := h
  have hstart : ∀ r, parseStatement (t :: r) = (parseVacuum r).map fun p => (vacuumStatement p.1.1 p.1.2.1 p.1.2.2, p.2) := by
    intro r
    rw [parseStatement_cons, if_pos (isKeyword_iff.mpr ht)]
  have hv := parseVacuum_says hpost hflag hretain hnr hnc
  have hbody : t :: (flag ++ listing ws ++ retain) ++ post = t :: (flag ++ (listing ws ++ (retain ++ post))) := by
    rw [List.cons_append, List.append_assoc, List.append_assoc]
  have hsem : (t :: (flag ++ listing ws ++ retain)).head? ≠ some .semicolon := by
    intro hc
    injection hc with hc
    subst hc
    exact semicolon_not_keyword _ ht
  split at hv
  · rename_i hle
    rw [if_pos hle]
    refine parse_between hpre hpost hsem ?_ (by simp)
    rw [hbody, hstart, hv]
    have : (retention.map (Nat.toDigits 10)).bind parseU64 = retention := by
      cases retention with
      | none => rfl
      | some n =>
        have hn := hle n rfl
        have hmax : maxRetention < 2 ^ 64 := by decide
        simp only [Option.map_some, Option.bind_some]
        exact parseU64_toDigits (by omega)
    simp only [Option.map_some, vacuumStatement]
    rw [this]
  · rename_i hle
    rw [if_neg hle]
    unfold parse
    rw [ends_dropWhile hpre (by
      rw [hbody]
      exact hsem), hbody, hstart, hv]
    rfl

/-- VACUUM is parsed to the names in the statement if no name is empty or has a semicolon. -/
theorem C42_vacuum_parsed_partial (pre body post : List Token) (ws : List Word) (retention : Option Nat) (cluster : Bool) (hpre : Ends pre)
    (hpost : Ends post) (h : SaysVacuum body ws retention cluster) (hnames : ∀ w ∈ ws, ';' ∉ w.value ∧ w.value ≠ [])
    (hperiod : ∀ n, retention = some n → n ≤ maxRetention) :
    parse (pre ++ (body ++ post)) = some (.vacuum (ws.map Word.value) retention cluster) := by
  rw [parse_vacuum hpre hpost h, if_pos hperiod, split_join]
  intro n hn
  obtain ⟨w, hw, rfl⟩ := List.mem_map.mp hn
  exact hnames w hw

theorem parseObjectNames_listing : ∀ (ws : List Word), ws ≠ [] → ∀ post, Ends post →
    parseObjectNames (listing ws ++ post) = some (ws.map fun w => [w.value], post)
  | [], h, _, _ => absurd rfl h
  | [w], _, post, hpost => by
    show parseObjectNames (Token.word w.value w.quote :: post) = _
    cases post with
    | nil => rfl
    | cons p post =>
      rw [hpost p (List.mem_cons_self ..)]
      rfl
  | w :: v :: vs, _, post, hpost => by
    show parseObjectNames (Token.word w.value w.quote :: .comma :: (listing (v :: vs) ++ post)) = _
    rw [parseObjectNames, parseObjectNames_listing (v :: vs) (by simp) post hpost]
    rfl

/-- DROP TABLE is parsed to the names in the statement if each has one part. -/
theorem C42_drop_parsed_partial (pre body post : List Token) (ws : List Word) (hpre : Ends pre) (hpost : Ends post)
    (h : SaysDrop body ws) : parse (pre ++ (body ++ post)) = some (.dropTable (ws.map Word.value)) := by
  obtain ⟨t, t', rfl, ht, ht', hne⟩ := h
  refine parse_between hpre hpost ?_ ?_ (by simp)
  · intro hc
    injection hc with hc
    subst hc
    exact semicolon_not_keyword _ ht
  rw [List.cons_append, List.cons_append, parseStatement_cons,
    if_neg (by rw [isKeyword_iff]; intro hv; exact absurd (keyword_unique hv ht) (by decide)),
    if_neg (by rw [isKeyword_iff]; intro hv; exact absurd (keyword_unique hv ht) (by decide)), if_pos (isKeyword_iff.mpr ht)]
  simp only
  rw [if_pos (isKeyword_iff.mpr ht'), parseObjectNames_listing ws hne post hpost]
  simp only [Option.map_some, dropNames, List.map_map]
  congr 3
  refine List.map_congr_left fun w _ => ?_
  simp

/-- Statements that are accepted as TRUNCATE name the tables that are truncated. -/
theorem C42_truncate_sound (tokens : List Token) (names : List (List Char)) (cluster : Bool) (h : parse tokens = some (.truncate names cluster)) :
    ∃ pre body post ws, Ends pre ∧ Ends post ∧ tokens = pre ++ (body ++ post) ∧ SaysTruncate body ws cluster ∧ names = ws.map Word.value := by
  obtain ⟨pre, body, post, hpre, hpost, rfl, hs⟩ := parse_sound h
  cases body with
  | nil => cases hs
  | cons t rest =>
    rw [parseStatement_cons] at hs
    split at hs
    · cases hp : parseVacuum rest with
      | none => rw [hp] at hs; cases hs
      | some p => rw [hp] at hs; simp [vacuumStatement] at hs
    split at hs
    · rename_i _ ht
      rw [isKeyword_iff] at ht
      cases hp : parseTruncate rest with
      | none => rw [hp] at hs; cases hs
      | some p =>
        rw [hp] at hs
        simp only [Option.map_some, Option.some.injEq, Prod.mk.injEq, Statement.truncate.injEq] at hs
        obtain ⟨⟨rfl, rfl⟩, rfl⟩ := hs
        unfold parseTruncate at hp
        cases hn : parseTableNames (parseCluster rest).2 with
        | none => rw [hn] at hp; cases hp
        | some q =>
          rw [hn] at hp
          simp only [Option.map_some, Option.some.injEq] at hp
          obtain ⟨ws, hne, hw, hv⟩ := parseTableNames_sound (names := q.1) (rest := q.2) hn
          subst hp
          obtain ⟨flag, hflag, hrest, hnot⟩ := parseCluster_sound rest
          refine ⟨pre, t :: (flag ++ listing ws), q.2, ws, hpre, hpost, ?_, ⟨t, flag, rfl, ht, hflag, hne, ?_⟩, hv⟩
          · rw [List.cons_append, List.append_assoc, ← hw, ← hrest]
          · intro hc w hwh
            obtain ⟨w', hw', hh⟩ := listing_head (ws := ws) (rest := q.2) hne
            rw [hwh] at hw'
            injection hw' with hw'
            subst hw'
            exact hnot hc _ (by rw [hw]; exact hh)
    split at hs
    · split at hs
      · split at hs
        · rename_i rest' _
          cases hp : parseObjectNames rest' with
          | none => rw [hp] at hs; cases hs
          | some p => rw [hp] at hs; simp at hs
        · cases hs
      · cases hs
    · cases hs

theorem part_identifier (p : Part) : p.token.identifier = some p.value := by cases p <;> rfl

theorem identifier_part {t : Token} {value : List Char} (h : t.identifier = some value) : ∃ p : Part, p.token = t ∧ p.value = value := by
  cases t with
  | word v q => exact ⟨.word ⟨v, q⟩, rfl, Option.some.inj h⟩
  | string v => exact ⟨.text v, rfl, Option.some.inj h⟩
  | _ => simp [Token.identifier] at h

theorem dottedListing_part (p : Part) (names : List (List Part)) (hne : names ≠ []) :
    dottedListing ([p] :: names) = p.token :: .comma :: dottedListing names := by
  cases names with
  | nil => exact absurd rfl hne
  | cons n names => simp [dottedListing, dotted, List.intercalate]

theorem dottedListing_more (p : Part) (parts : List Part) (names : List (List Part)) (hne : parts ≠ []) :
    dottedListing ((p :: parts) :: names) = p.token :: .period :: dottedListing (parts :: names) := by
  cases parts with
  | nil => exact absurd rfl hne
  | cons q parts => cases names <;> simp [dottedListing, dotted, List.intercalate]

/-- The names that are parsed are those in the tokens. -/
theorem parseObjectNames_sound (tokens : List Token) : ∀ names rest, parseObjectNames tokens = some (names, rest) →
    ∃ parts : List (List Part), parts ≠ [] ∧ (∀ ps ∈ parts, ps ≠ []) ∧ tokens = dottedListing parts ++ rest ∧ names = parts.map (·.map Part.value) := by
  fun_induction parseObjectNames tokens with
  | case1 t rest part names r hrest ht ih =>
    intro names' rest' h
    injection h with h
    obtain ⟨rfl, rfl⟩ := Prod.mk.inj h
    obtain ⟨parts, hne, hall, rfl, rfl⟩ := ih _ _ hrest
    obtain ⟨p, rfl, rfl⟩ := identifier_part ht
    refine ⟨[p] :: parts, by simp, by simpa using hall, ?_, rfl⟩
    rw [dottedListing_part p parts hne]
    rfl
  | case2 => intro _ _ h; cases h
  | case3 t rest part name names r hrest ht ih =>
    intro names' rest' h
    injection h with h
    obtain ⟨rfl, rfl⟩ := Prod.mk.inj h
    obtain ⟨parts, hne, hall, rfl, hv⟩ := ih _ _ hrest
    obtain ⟨p, rfl, rfl⟩ := identifier_part ht
    cases parts with
    | nil => exact absurd rfl hne
    | cons ps parts =>
      simp only [List.map_cons, List.cons.injEq] at hv
      obtain ⟨rfl, rfl⟩ := hv
      refine ⟨(p :: ps) :: parts, by simp, ?_, ?_, rfl⟩
      · intro qs hqs
        rcases List.mem_cons.mp hqs with rfl | hqs
        · simp
        · exact hall qs (List.mem_cons_of_mem _ hqs)
      · rw [dottedListing_more p ps parts (hall ps (by simp))]
        rfl
  | case4 => intro _ _ h; cases h
  | case5 t rest =>
    intro names' rest' h
    cases ht : t.identifier with
    | none => rw [ht] at h; cases h
    | some part =>
      rw [ht] at h
      injection h with h
      obtain ⟨rfl, rfl⟩ := Prod.mk.inj h
      obtain ⟨p, rfl, rfl⟩ := identifier_part ht
      exact ⟨[[p]], by simp, by simp, rfl, rfl⟩
  | case6 => intro _ _ h; cases h

/-- All names in the tokens are parsed. -/
theorem parseObjectNames_dotted (post : List Token) (hpost : Ends post) : ∀ (names : List (List Part)), names ≠ [] → (∀ ps ∈ names, ps ≠ []) →
    parseObjectNames (dottedListing names ++ post) = some (names.map (·.map Part.value), post)
  | [], h, _ => absurd rfl h
  | [] :: _, _, h => absurd rfl (h [] (by simp))
  | [[p]], _, _ => by
    show parseObjectNames (p.token :: post) = _
    have hp := part_identifier p
    cases post with
    | nil => rw [parseObjectNames, hp]; rfl; all_goals simp
    | cons q post =>
      rw [hpost q (List.mem_cons_self ..), parseObjectNames, hp]
      · rfl
      all_goals simp
  | [p] :: n :: names, _, h => by
    rw [dottedListing_part p (n :: names) (by simp), List.cons_append, List.cons_append, parseObjectNames, part_identifier,
      parseObjectNames_dotted post hpost (n :: names) (by simp) fun ps hps => h ps (List.mem_cons_of_mem _ hps)]
    rfl
  | (p :: q :: parts) :: names, _, h => by
    rw [dottedListing_more p (q :: parts) names (by simp), List.cons_append, List.cons_append, parseObjectNames, part_identifier,
      parseObjectNames_dotted post hpost ((q :: parts) :: names) (by simp) fun ps hps => by
        rcases List.mem_cons.mp hps with rfl | hps
        · simp
        · exact h ps (List.mem_cons_of_mem _ hps)]
    rfl
termination_by names => (names.map List.length).sum + names.length

/-- Exactly the statements with DROP TABLE and names are accepted as such, and the parts of each name are put together. -/
theorem C42_drop_iff (tokens : List Token) (tables : List (List Char)) : parse tokens = some (.dropTable tables) ↔
    ∃ pre body post names, Ends pre ∧ Ends post ∧ tokens = pre ++ (body ++ post) ∧ SaysDropParts body names ∧
      tables = names.map fun parts => (parts.map Part.value).flatten := by
  constructor
  · intro h
    obtain ⟨pre, body, post, hpre, hpost, rfl, hs⟩ := parse_sound h
    cases body with
    | nil => cases hs
    | cons t rest =>
      rw [parseStatement_cons] at hs
      split at hs
      · cases hp : parseVacuum rest with
        | none => rw [hp] at hs; cases hs
        | some p => rw [hp] at hs; simp [vacuumStatement] at hs
      split at hs
      · cases hp : parseTruncate rest with
        | none => rw [hp] at hs; cases hs
        | some p => rw [hp] at hs; simp at hs
      split at hs
      · rename_i _ _ ht
        rw [isKeyword_iff] at ht
        split at hs
        · rename_i t' rest'
          split at hs
          · rename_i ht'
            rw [isKeyword_iff] at ht'
            cases hp : parseObjectNames rest' with
            | none => rw [hp] at hs; cases hs
            | some p =>
              rw [hp] at hs
              simp only [Option.map_some, Option.some.injEq, Prod.mk.injEq, Statement.dropTable.injEq] at hs
              obtain ⟨rfl, rfl⟩ := hs
              obtain ⟨parts, hne, hall, rfl, hv⟩ := parseObjectNames_sound rest' p.1 p.2 hp
              refine ⟨pre, t :: t' :: dottedListing parts, p.2, parts, hpre, hpost, rfl, ⟨t, t', rfl, ht, ht', hne, hall⟩, ?_⟩
              rw [hv]
              simp [dropNames]
          · cases hs
        · cases hs
      · cases hs
  · rintro ⟨pre, body, post, names, hpre, hpost, rfl, ⟨t, t', rfl, ht, ht', hne, hall⟩, rfl⟩
    refine parse_between hpre hpost ?_ ?_ (by simp)
    · intro hc
      injection hc with hc
      subst hc
      exact semicolon_not_keyword _ ht
    rw [List.cons_append, List.cons_append, parseStatement_cons,
      if_neg (by rw [isKeyword_iff]; intro hv; exact absurd (keyword_unique hv ht) (by decide)),
      if_neg (by rw [isKeyword_iff]; intro hv; exact absurd (keyword_unique hv ht) (by decide)), if_pos (isKeyword_iff.mpr ht)]
    simp only
    rw [if_pos (isKeyword_iff.mpr ht'), parseObjectNames_dotted post hpost names hne hall]
    simp [dropNames]

example : SaysDropParts [.word "DROP".toList none, .word "table".toList none, .word "a".toList none, .period, .string "b c".toList, .comma,
      .word "d".toList (some '"')] [[.word ⟨"a".toList, none⟩, .text "b c".toList], [.word ⟨"d".toList, some '"'⟩]] :=
  ⟨_, _, rfl, ⟨_, rfl, by decide +kernel⟩, ⟨_, rfl, by decide +kernel⟩, by simp, by simp⟩

theorem join_eq : ∀ names : List (List Char), join [';'] names = [';'].intercalate names
  | [] => rfl
  | [name] => by simp [join, List.intercalate]
  | name :: n :: rest => by
    rw [join, join_eq (n :: rest)]
    · simp [List.intercalate]
    · simp

theorem until_semicolon : ∀ {a b r r' : List Char}, ';' ∉ a → ';' ∉ b → a ++ ';' :: r = b ++ ';' :: r' → a = b ∧ r = r'
  | [], [], _, _, _, _, h => ⟨rfl, by simpa using h⟩
  | [], c :: b, _, _, _, hb, h => by
    injection h with h _
    exact absurd (h ▸ List.mem_cons_self ..) hb
  | c :: a, [], _, _, ha, _, h => by
    injection h with h _
    exact absurd (h ▸ List.mem_cons_self ..) ha
  | c :: a, d :: b, _, _, ha, hb, h => by
    injection h with h1 h2
    obtain ⟨rfl, h3⟩ := until_semicolon (fun hm => ha (List.mem_cons_of_mem _ hm)) (fun hm => hb (List.mem_cons_of_mem _ hm)) h2
    exact ⟨by rw [h1], h3⟩

theorem terminated_unique : ∀ {parts parts' : List (List Char)}, (∀ part ∈ parts, ';' ∉ part) → (∀ part ∈ parts', ';' ∉ part) →
    parts.flatMap (· ++ [';']) = parts'.flatMap (· ++ [';']) → parts = parts'
  | [], [], _, _, _ => rfl
  | [], p :: ps, _, _, h => by simp at h
  | p :: ps, [], _, _, h => by simp at h
  | p :: ps, q :: qs, hp, hq, h => by
    simp only [List.flatMap_cons, List.append_assoc, List.singleton_append] at h
    obtain ⟨rfl, hr⟩ := until_semicolon (hp p (by simp)) (hq q (by simp)) h
    rw [terminated_unique (fun x hx => hp x (List.mem_cons_of_mem _ hx)) (fun x hx => hq x (List.mem_cons_of_mem _ hx)) hr]

theorem splitTerminator_terminated : ∀ text : List Char, Terminated (splitTerminator ';' text) text
  | [] => ⟨by simp [splitTerminator], by simp [splitTerminator]⟩
  | c :: rest => by
    obtain ⟨h1, h2⟩ := splitTerminator_terminated rest
    have hlast : rest ≠ [] → (c :: rest).getLast? = rest.getLast? := by
      intro hne
      cases rest with
      | nil => exact absurd rfl hne
      | cons d rest => exact List.getLast?_cons_cons
    have htail : ∀ hne : rest ≠ [], (if c :: rest = [] ∨ (c :: rest).getLast? = some ';' then c :: rest else c :: rest ++ [';']) =
        c :: (if rest = [] ∨ rest.getLast? = some ';' then rest else rest ++ [';']) := by
      intro hne
      rw [hlast hne]
      simp only [hne, reduceCtorEq, false_or]
      split <;> rfl
    unfold splitTerminator
    by_cases hc : c = ';'
    · rw [if_pos hc]
      subst hc
      refine ⟨by simpa using h1, ?_⟩
      by_cases hne : rest = []
      · subst hne
        simp [splitTerminator]
      · rw [htail hne, ← h2]
        simp
    · rw [if_neg hc]
      split
      · refine ⟨by simpa using Ne.symm hc, ?_⟩
        simp [hc]
      · rename_i d rest' part parts hs
        rw [hs] at h1 h2
        refine ⟨?_, ?_⟩
        · intro p hp
          rcases List.mem_cons.mp hp with rfl | hp
          · simpa [Ne.symm hc] using h1 part (by simp)
          · exact h1 p (List.mem_cons_of_mem _ hp)
        · rw [htail (by simp), ← h2]
          simp
      · rename_i d rest' hs
        rw [hs] at h2
        simp only [List.flatMap_nil, reduceCtorEq, false_or] at h2
        split at h2 <;> simp at h2

theorem splitTerminator_iff {text : List Char} {names : List (List Char)} : splitTerminator ';' text = names ↔ Terminated names text := by
  constructor
  · rintro rfl
    exact splitTerminator_terminated text
  · intro h
    exact terminated_unique (splitTerminator_terminated text).1 h.1 ((splitTerminator_terminated text).2.trans h.2.symm)

/-- What is accepted after VACUUM. -/
theorem parseVacuum_sound {tokens rest : List Token} {name : List Char} {specifier : Option (List Char)} {cluster : Bool}
    (h : parseVacuum tokens = some ((name, specifier, cluster), rest)) : ∃ flag ws retain retention, tokens = flag ++ (listing ws ++ (retain ++ rest)) ∧
      ClusterClause cluster flag ∧ RetainClause retention retain ∧ (∀ w, ws.head? = some w → w.Not "RETAIN") ∧
      (cluster = false → ∀ w, ws.head? = some w → w.Not "CLUSTER") ∧ (∀ n, retention = some n → n ≤ maxRetention) ∧
      name = join [';'] (ws.map Word.value) ∧ specifier = retention.map (Nat.toDigits 10) := by
  unfold parseVacuum at h
  cases hn : parseVacuumNames (parseCluster tokens).2 with
  | none => rw [hn] at h; cases h
  | some p =>
    obtain ⟨names, r⟩ := p
    rw [hn] at h
    simp only at h
    cases hr : parseRetain r with
    | none => rw [hr] at h; cases h
    | some q =>
      obtain ⟨period, r'⟩ := q
      rw [hr] at h
      simp only [Option.some.injEq, Prod.mk.injEq] at h
      obtain ⟨⟨rfl, rfl, rfl⟩, rfl⟩ := h
      obtain ⟨flag, hflag, htokens, hnot⟩ := parseCluster_sound tokens
      have hnames : ∃ ws : List Word, (parseCluster tokens).2 = listing ws ++ r ∧ names = ws.map Word.value ∧ ∀ w, ws.head? = some w → w.Not "RETAIN" := by
        unfold parseVacuumNames at hn
        split at hn
        · rename_i value quote rest' hrest
          split at hn
          · injection hn with hn
            obtain ⟨rfl, rfl⟩ := Prod.mk.inj hn
            exact ⟨[], hrest, rfl, by rintro w ⟨⟩⟩
          · rename_i hk
            obtain ⟨ws, hne, hw, hv⟩ := parseTableNames_sound hn
            refine ⟨ws, hrest.trans hw, hv, fun w hwh => ?_⟩
            obtain ⟨w', hw', hh⟩ := listing_head (ws := ws) (rest := r) hne
            rw [hwh] at hw'
            injection hw' with hw'
            subst hw'
            rw [← hw] at hh
            injection hh with hh
            unfold Word.Not
            rw [← hh, ← isKeyword_iff]
            exact hk
        · injection hn with hn
          obtain ⟨rfl, rfl⟩ := Prod.mk.inj hn
          exact ⟨[], rfl, rfl, by rintro w ⟨⟩⟩
      have hretain : ∃ retain, r = retain ++ r' ∧ RetainClause period retain ∧ ∀ n, period = some n → n ≤ maxRetention := by
        unfold parseRetain at hr
        split at hr
        · injection hr with hr
          obtain ⟨rfl, rfl⟩ := Prod.mk.inj hr
          exact ⟨[], rfl, rfl, by simp⟩
        · rename_i t rest' 
          split at hr
          · rename_i hk
            split at hr
            · rename_i text rest''
              split at hr
              · cases hr
              · rename_i n hp
                split at hr
                · cases hr
                · rename_i hle
                  injection hr with hr
                  obtain ⟨rfl, rfl⟩ := Prod.mk.inj hr
                  obtain ⟨h1, h2, h3, _⟩ := parseU64_some hp
                  refine ⟨[t, .number text], rfl, ⟨t, text, rfl, isKeyword_iff.mp hk, h1, h2, h3⟩, ?_⟩
                  intro m hm
                  injection hm with hm
                  omega
            · cases hr
          · injection hr with hr
            obtain ⟨rfl, rfl⟩ := Prod.mk.inj hr
            exact ⟨[], rfl, rfl, by simp⟩
      obtain ⟨ws, hws, rfl, hnr⟩ := hnames
      obtain ⟨retain, rfl, hretain, hmax⟩ := hretain
      refine ⟨flag, ws, retain, period, by rw [← hws]; exact htokens, hflag, hretain, hnr, ?_, hmax, rfl, rfl⟩
      intro hc w hw
      obtain ⟨w', hw', hh⟩ := listing_head (ws := ws) (rest := retain ++ r') (by rintro rfl; cases hw)
      rw [hw] at hw'
      injection hw' with hw'
      subst hw'
      exact hnot hc _ (by rw [hws]; exact hh)

/-- Exactly the statements with VACUUM, names and a retention period that is not too large are accepted as such. The tables are not those that are
named but the parts between the semicolons in their names. -/
theorem C42_vacuum_iff (tokens : List Token) (tables : List (List Char)) (retention : Option Nat) (cluster : Bool) :
    parse tokens = some (.vacuum tables retention cluster) ↔
      ∃ pre body post ws, Ends pre ∧ Ends post ∧ tokens = pre ++ (body ++ post) ∧ SaysVacuum body ws retention cluster ∧
        (∀ n, retention = some n → n ≤ maxRetention) ∧ Terminated tables ([';'].intercalate (ws.map Word.value)) := by
  constructor
  · intro h
    obtain ⟨pre, body, post, hpre, hpost, rfl, hs⟩ := parse_sound h
    cases body with
    | nil => cases hs
    | cons t rest =>
      rw [parseStatement_cons] at hs
      split at hs
      · rename_i ht
        rw [isKeyword_iff] at ht
        cases hp : parseVacuum rest with
        | none => rw [hp] at hs; cases hs
        | some p =>
          obtain ⟨⟨name, specifier, flag'⟩, r⟩ := p
          rw [hp] at hs
          simp only [Option.map_some, vacuumStatement, Option.some.injEq, Prod.mk.injEq, Statement.vacuum.injEq] at hs
          obtain ⟨⟨hsplit, hret, rfl⟩, rfl⟩ := hs
          obtain ⟨flag, ws, retain, period, rfl, hflag, hretain, hnr, hnc, hmax, rfl, rfl⟩ := parseVacuum_sound hp
          have : (period.map (Nat.toDigits 10)).bind parseU64 = period := by
            cases period with
            | none => rfl
            | some n =>
              have hn := hmax n rfl
              have hm : maxRetention < 2 ^ 64 := by decide
              simp only [Option.map_some, Option.bind_some]
              exact parseU64_toDigits (by omega)
          rw [this] at hret
          subst hret
          refine ⟨pre, t :: (flag ++ listing ws ++ retain), r, ws, hpre, hpost, ?_, ⟨t, flag, retain, rfl, ht, hflag, hretain, hnr, hnc⟩, hmax, ?_⟩
          · simp
          · rw [← join_eq, ← splitTerminator_iff]
            exact hsplit
      split at hs
      · cases hp : parseTruncate rest with
        | none => rw [hp] at hs; cases hs
        | some p => rw [hp] at hs; simp at hs
      split at hs
      · split at hs
        · split at hs
          · rename_i rest' _
            cases hp : parseObjectNames rest' with
            | none => rw [hp] at hs; cases hs
            | some p => rw [hp] at hs; simp at hs
          · cases hs
        · cases hs
      · cases hs
  · rintro ⟨pre, body, post, ws, hpre, hpost, rfl, hsays, hmax, hsplit⟩
    rw [parse_vacuum hpre hpost hsays, if_pos hmax, join_eq, splitTerminator_iff.mpr hsplit]

example : SaysVacuum [.word "VACUUM".toList none, .word "a;b".toList (some '"'), .comma, .word "c".toList none, .word "RETAIN".toList none,
      .number "60".toList] [⟨"a;b".toList, some '"'⟩, ⟨"c".toList, none⟩] (some 60) false ∧
    Terminated ["a".toList, "b".toList, "c".toList] ([';'].intercalate ["a;b".toList, "c".toList]) := by
  refine ⟨⟨_, [], [.word "RETAIN".toList none, .number "60".toList], rfl, ⟨_, rfl, by decide +kernel⟩, rfl,
    ⟨_, _, rfl, ⟨_, rfl, by decide +kernel⟩, by decide +kernel, by decide +kernel, by decide +kernel⟩, ?_, ?_⟩, by decide +kernel, by decide +kernel⟩
  · rintro w ⟨⟩ ⟨_, h, _⟩
    cases h
  · rintro _ w ⟨⟩ ⟨_, h, _⟩
    cases h

/-! ### Executing -/

/-- TRUNCATE acts on exactly the tables it names. -/
theorem C42_truncate (pre body post : List Token) (ws : List Word) (cluster : Bool) (hpre : Ends pre) (hpost : Ends post)
    (h : SaysTruncate body ws cluster) (tables : List (List Char)) :
    ∃ s, parse (pre ++ (body ++ post)) = some s ∧ ActsOn tables (ws.map Word.value) (execute tables s) := by
  refine ⟨_, C42_truncate_parsed pre body post ws cluster hpre hpost h, fun name hn => ?_, fun hall => ?_⟩
  · exact perform_acts false _ _ name hn
  · exact perform_all false _ _ hall (by simp)

/-- VACUUM acts on exactly the tables it names, or on all tables if it names none, if no name is empty or has a semicolon. -/
theorem C42_vacuum_partial (pre body post : List Token) (ws : List Word) (retention : Option Nat) (cluster : Bool) (hpre : Ends pre)
    (hpost : Ends post) (h : SaysVacuum body ws retention cluster) (hnames : ∀ w ∈ ws, ';' ∉ w.value ∧ w.value ≠ [])
    (hperiod : ∀ n, retention = some n → n ≤ maxRetention) (tables : List (List Char)) :
    ∃ s, parse (pre ++ (body ++ post)) = some s ∧
      ActsOn tables (if ws = [] then tables else ws.map Word.value) (execute tables s) := by
  refine ⟨_, C42_vacuum_parsed_partial pre body post ws retention cluster hpre hpost h hnames hperiod, ?_⟩
  have : (if ws.map Word.value = [] then tables else ws.map Word.value) = if ws = [] then tables else ws.map Word.value := by
    cases ws <;> rfl
  unfold execute
  simp only
  rw [this]
  exact ⟨fun name hn => perform_acts false _ _ name hn, fun hall => perform_all false _ _ hall (by simp)⟩

/-- DROP TABLE acts on exactly the tables it names if each name has one part. -/
theorem C42_drop_partial (pre body post : List Token) (ws : List Word) (hpre : Ends pre) (hpost : Ends post) (h : SaysDrop body ws)
    (hnodup : (ws.map Word.value).Nodup) (tables : List (List Char)) :
    ∃ s, parse (pre ++ (body ++ post)) = some s ∧ ActsOn tables (ws.map Word.value) (execute tables s) :=
  ⟨_, C42_drop_parsed_partial pre body post ws hpre hpost h, fun name hn => perform_acts true _ _ name hn,
    fun hall => perform_all true _ _ hall fun _ => hnodup⟩

/-- A table is named by the word it was created with if the word has no upper-case letter. -/
theorem C42_created_partial (keywords : List (List Char)) (validPath : List Char → Bool) (w : Word) (table : List Char)
    (h : createdName keywords validPath [w.value] = some table) : table = w.value ↔ ∀ c ∈ w.value, c.toLower = c := by
  unfold createdName at h
  simp only at h
  split at h
  · cases h
  split at h
  · cases h
  split at h
  · injection h with h
    subst h
    unfold normalizeName
    rw [show (w.value.map Char.toLower = w.value) ↔ (w.value.map Char.toLower = w.value.map id) by rw [List.map_id]]
    exact List.map_inj_left
  · cases h

/-! ### Clusters -/

/-- The names that a statement acts on. -/
def namesOf : Statement → List (List Char)
  | .dropTable names => names
  | .truncate names _ => names
  | .vacuum names _ _ => names

/-- The same statement without the flag CLUSTER. -/
def locally : Statement → Statement
  | .truncate names _ => .truncate names false
  | .vacuum names period _ => .vacuum names period false
  | s => s

theorem plainName_of {name : List Char} (h : (name.all isIdentifierPart && name.head?.any isIdentifierStart) = true) : PlainName name := by
  simp only [Bool.and_eq_true, List.all_eq_true] at h
  refine plainName_iff.mpr ⟨h.1, ?_⟩
  cases name with
  | nil => exact absurd h.2 (by simp)
  | cons c rest => exact ⟨c, rest, rfl, by simpa using h.2⟩

/-- The tokens of a keyword, a space and what follows. -/
theorem tokenize_keyword {k : List Char} (hk : (k.all isIdentifierPart && k.head?.any isIdentifierStart) = true) {text : List Char}
    (ht : text = k ++ [' ']) (rest : List Char) : tokenize (text ++ rest) = (tokenize rest).map (Token.word k none :: ·) := by
  rw [ht, List.append_assoc, List.cons_append, List.nil_append, tokenize_word (plainName_of hk) (by rintro c ⟨⟩; decide +kernel),
    tokenize_space]

theorem tokenize_keywords {k k' : List Char} (hk : (k.all isIdentifierPart && k.head?.any isIdentifierStart) = true)
    (hk' : (k'.all isIdentifierPart && k'.head?.any isIdentifierStart) = true) {text : List Char}
    (ht : text = k ++ [' '] ++ (k' ++ [' '])) (rest : List Char) :
    tokenize (text ++ rest) = (tokenize rest).map fun l => Token.word k none :: .word k' none :: l := by
  rw [ht, List.append_assoc, tokenize_keyword hk rfl, tokenize_keyword hk' rfl, Option.map_map]
  rfl

/-- The tokens of names, a keyword and digits. -/
theorem tokenize_clause {k : List Char} (hk : (k.all isIdentifierPart && k.head?.any isIdentifierStart) = true) {text : List Char}
    (ht : text = ' ' :: (k ++ [' '])) {names : List (List Char)} (hne : names ≠ []) (hplain : ∀ n ∈ names, PlainName n) {digits : List Char}
    (hd : digits ≠ []) (hd' : ∀ c ∈ digits, c.isDigit = true) :
    tokenize (join ", ".toList names ++ (text ++ digits)) = some (listing (plainWords names) ++ [.word k none, .number digits]) := by
  have hstop : StopsWord (text ++ digits) := by
    rw [ht]
    rintro c ⟨⟩
    decide +kernel
  rw [tokenize_join names hne hplain _ hstop, ht, List.cons_append, tokenize_space, tokenize_keyword hk rfl, tokenize_digits hd hd']
  rfl

/-- The statement that other nodes receive acts on the same tables, if the names need no quotes and are no keywords. -/
theorem C42_forwarded_partial (s : Statement) (hne : namesOf s ≠ []) (hplain : ∀ n ∈ namesOf s, PlainName n)
    (hkeyword : ∀ n ∈ namesOf s, n.map Char.toUpper ≠ "CLUSTER".toList ∧ n.map Char.toUpper ≠ "RETAIN".toList)
    (hperiod : ∀ names n cluster, s = .vacuum names (some n) cluster → n ≤ maxRetention) :
    ∃ tokens, tokenize (forwardedText s) = some tokens ∧ parse tokens = some (locally s) := by
  have hwords : ∀ names : List (List Char), (plainWords names).map Word.value = names := by
    intro names
    rw [plainWords, List.map_map]
    exact List.map_id _
  have hnot : ∀ names : List (List Char), (∀ n ∈ names, n.map Char.toUpper ≠ "CLUSTER".toList ∧ n.map Char.toUpper ≠ "RETAIN".toList) →
      ∀ w, (plainWords names).head? = some w → w.Not "CLUSTER" ∧ w.Not "RETAIN" := by
    intro names hk w hw
    have hm := List.mem_of_mem_head? (Option.mem_def.mpr hw)
    obtain ⟨n, hn, rfl⟩ := List.mem_map.mp hm
    constructor
    · rintro ⟨v, hv, hu⟩
      injection hv with hv
      subst hv
      exact (hk n hn).1 hu
    · rintro ⟨v, hv, hu⟩
      injection hv with hv
      subst hv
      exact (hk n hn).2 hu
  have hjoin : ∀ names : List (List Char), names ≠ [] → (∀ n ∈ names, PlainName n) →
      tokenize (join ", ".toList names) = some (listing (plainWords names)) := by
    intro names h1 h2
    have := tokenize_join names h1 h2 [] (by rintro c ⟨⟩)
    rw [List.append_nil] at this
    rw [this, show tokenize [] = some [] from rfl, Option.map_some, List.append_nil]
  have hpn : ∀ names : List (List Char), names ≠ [] → plainWords names ≠ [] := by
    intro names h
    rw [plainWords]
    simpa using h
  have hnil : Ends [] := by intro t ht; cases ht
  cases s with
  | dropTable names =>
    refine ⟨.word "DROP".toList none :: .word "TABLE".toList none :: listing (plainWords names), ?_, ?_⟩
    · refine (tokenize_keywords (k := "DROP".toList) (k' := "TABLE".toList) (text := "DROP TABLE ".toList) (by decide +kernel)
        (by decide +kernel) (by decide +kernel) (join ", ".toList names)).trans ?_
      rw [hjoin names hne hplain, Option.map_some]
    · have := C42_drop_parsed_partial [] (.word "DROP".toList none :: .word "TABLE".toList none :: listing (plainWords names)) []
        (plainWords names) hnil hnil ⟨_, _, rfl, ⟨_, rfl, by decide +kernel⟩, ⟨_, rfl, by decide +kernel⟩, hpn names hne⟩
      rw [List.append_nil, List.nil_append, hwords] at this
      exact this
  | truncate names cluster =>
    refine ⟨.word "TRUNCATE".toList none :: listing (plainWords names), ?_, ?_⟩
    · refine (tokenize_keyword (k := "TRUNCATE".toList) (text := "TRUNCATE ".toList) (by decide +kernel) (by decide +kernel)
        (join ", ".toList names)).trans ?_
      rw [hjoin names hne hplain, Option.map_some]
    · have := C42_truncate_parsed [] (.word "TRUNCATE".toList none :: listing (plainWords names)) [] (plainWords names) false hnil hnil
        ⟨_, [], rfl, ⟨_, rfl, by decide +kernel⟩, rfl, hpn names hne, fun _ w hw => (hnot names hkeyword w hw).1⟩
      rw [List.append_nil, List.nil_append, hwords] at this
      exact this
  | vacuum names period cluster =>
    have hsemi : ∀ w ∈ plainWords names, ';' ∉ w.value ∧ w.value ≠ [] := by
      intro w hw
      obtain ⟨n, hn, rfl⟩ := List.mem_map.mp hw
      obtain ⟨h1, c, r, h2, _⟩ := hplain n hn
      refine ⟨fun hc => absurd (h1 _ hc) (by decide +kernel), ?_⟩
      simp only
      rw [h2]
      simp
    cases period with
    | none =>
      refine ⟨.word "VACUUM".toList none :: listing (plainWords names), ?_, ?_⟩
      · refine (tokenize_keyword (k := "VACUUM".toList) (text := "VACUUM ".toList) (by decide +kernel) (by decide +kernel)
          (join ", ".toList names)).trans ?_
        rw [hjoin names hne hplain, Option.map_some]
      · have := C42_vacuum_parsed_partial [] (.word "VACUUM".toList none :: listing (plainWords names)) [] (plainWords names) none false
          hnil hnil ⟨_, [], [], by rw [List.append_nil]; rfl, ⟨_, rfl, by decide +kernel⟩, rfl, rfl, fun w hw => (hnot names hkeyword w hw).2,
            fun _ w hw => (hnot names hkeyword w hw).1⟩ hsemi (by simp)
        rw [List.append_nil, List.nil_append, hwords] at this
        exact this
    | some n =>
      have hd := toDigits_digits n
      refine ⟨.word "VACUUM".toList none :: (listing (plainWords names) ++ [.word "RETAIN".toList none, .number (Nat.toDigits 10 n)]), ?_, ?_⟩
      · have e : forwardedText (.vacuum names (some n) cluster) =
            "VACUUM ".toList ++ (join ", ".toList names ++ (" RETAIN ".toList ++ Nat.toDigits 10 n)) :=
          (List.append_assoc _ _ _).trans (List.append_assoc _ _ _)
        rw [e]
        refine (tokenize_keyword (k := "VACUUM".toList) (text := "VACUUM ".toList) (by decide +kernel) (by decide +kernel) _).trans ?_
        rw [tokenize_clause (k := "RETAIN".toList) (text := " RETAIN ".toList) (names := names) (by decide +kernel) (by decide +kernel) hne hplain hd.1 hd.2, Option.map_some]
      · have := C42_vacuum_parsed_partial []
          (.word "VACUUM".toList none :: (listing (plainWords names) ++ [.word "RETAIN".toList none, .number (Nat.toDigits 10 n)])) []
          (plainWords names) (some n) false hnil hnil
          ⟨_, [], _, rfl, ⟨_, rfl, by decide +kernel⟩, rfl,
            ⟨_, _, rfl, ⟨_, rfl, by decide +kernel⟩, hd.1, hd.2, Nat.ofDigitChars_ten_toDigits⟩, fun w hw => (hnot names hkeyword w hw).2,
            fun _ w hw => (hnot names hkeyword w hw).1⟩ hsemi (by rintro m ⟨⟩; exact hperiod names n cluster rfl)
        rw [List.append_nil, List.nil_append, hwords] at this
        exact this

/-! ### Cases that meet the hypotheses, and where the property is false -/

/-- `VACUUM CLUSTER a, "B" RETAIN 30;`. -/
example : tokenize "VACUUM CLUSTER a, \"B\" RETAIN 30;".toList = some ([.word "VACUUM".toList none, .word "CLUSTER".toList none,
      .word ['a'] none, .comma, .word ['B'] (some '"'), .word "RETAIN".toList none, .number ['3', '0']] ++ [.semicolon]) ∧
    SaysVacuum [.word "VACUUM".toList none, .word "CLUSTER".toList none, .word ['a'] none, .comma, .word ['B'] (some '"'),
      .word "RETAIN".toList none, .number ['3', '0']] [⟨['a'], none⟩, ⟨['B'], some '"'⟩] (some 30) true ∧
    parse [.word "VACUUM".toList none, .word "CLUSTER".toList none, .word ['a'] none, .comma, .word ['B'] (some '"'),
      .word "RETAIN".toList none, .number ['3', '0'], .semicolon] = some (.vacuum [['a'], ['B']] (some 30) true) ∧
    execute [['a'], ['B'], ['c']] (.vacuum [['a'], ['B']] (some 30) true) = ([['a'], ['B']], true) := by
  refine ⟨by decide +kernel, ?_, by decide +kernel, by decide +kernel⟩
  refine ⟨.word "VACUUM".toList none, [.word "CLUSTER".toList none], [.word "RETAIN".toList none, .number ['3', '0']], by decide +kernel,
    isKeyword_iff.1 (by decide +kernel), ⟨.word "CLUSTER".toList none, by decide +kernel, isKeyword_iff.1 (by decide +kernel)⟩,
    ⟨.word "RETAIN".toList none, ['3', '0'], by decide +kernel, isKeyword_iff.1 (by decide +kernel), by decide +kernel, by decide +kernel,
      by decide +kernel⟩, ?_, nofun⟩
  intro w hw
  injection hw with hw
  subst hw
  exact isKeyword_false_iff.1 (by decide +kernel)

/-- `TRUNCATE a, b` and `DROP TABLE a, b`. -/
example : (∃ tokens, tokenize "TRUNCATE a, b".toList = some tokens ∧ parse tokens = some (.truncate [['a'], ['b']] false)) ∧
    (∃ tokens, tokenize "drop table a, b".toList = some tokens ∧ parse tokens = some (.dropTable [['a'], ['b']])) ∧
    execute [['a'], ['b'], ['c']] (.dropTable [['a'], ['b']]) = ([['a'], ['b']], true) ∧
    execute [['a'], ['c']] (.dropTable [['a'], ['b'], ['c']]) = ([['a']], false) := by
  refine ⟨⟨[.word "TRUNCATE".toList none, .word ['a'] none, .comma, .word ['b'] none], by decide +kernel, by decide +kernel⟩,
    ⟨[.word "drop".toList none, .word "table".toList none, .word ['a'] none, .comma, .word ['b'] none], by decide +kernel, by decide +kernel⟩,
    by decide +kernel, by decide +kernel⟩

/-- **C42** is false of the code for VACUUM if a name has a semicolon: `VACUUM "a;b"` vacuums the tables `a` and `b`. -/
theorem C42_vacuum_semicolon : tokenize "VACUUM \"a;b\"".toList = some [.word "VACUUM".toList none, .word ['a', ';', 'b'] (some '"')] ∧
    SaysVacuum [.word "VACUUM".toList none, .word ['a', ';', 'b'] (some '"')] [⟨['a', ';', 'b'], some '"'⟩] none false ∧
    parse [.word "VACUUM".toList none, .word ['a', ';', 'b'] (some '"')] = some (.vacuum [['a'], ['b']] none false) ∧
    execute [['a'], ['b'], ['a', ';', 'b']] (.vacuum [['a'], ['b']] none false) = ([['a'], ['b']], true) := by
  refine ⟨by decide +kernel, ?_, by decide +kernel, by decide +kernel⟩
  refine ⟨.word "VACUUM".toList none, [], [], by decide +kernel, isKeyword_iff.1 (by decide +kernel), rfl, rfl, ?_, ?_⟩
  · intro w hw
    injection hw with hw
    subst hw
    exact isKeyword_false_iff.1 (by decide +kernel)
  · intro _ w hw
    injection hw with hw
    subst hw
    exact isKeyword_false_iff.1 (by decide +kernel)

/-- **C42** is false of the code for VACUUM if the name is empty: `VACUUM ""` vacuums all tables. -/
theorem C42_vacuum_empty : ∃ tokens, tokenize "VACUUM \"\"".toList = some tokens ∧
    parse tokens = some (.vacuum [] none false) ∧ ∀ tables, execute tables (.vacuum [] none false) = (tables, true) := by
  refine ⟨[.word "VACUUM".toList none, .word [] (some '"')], by decide +kernel, by decide +kernel, fun tables => ?_⟩
  exact perform_all false tables tables (fun _ h => h) (by simp)

/-- **C42** is false of the code for DROP TABLE if a name has several parts: `DROP TABLE a.b` drops the table `ab`. -/
theorem C42_drop_parts : ∃ tokens, tokenize "DROP TABLE a.b".toList = some tokens ∧ parse tokens = some (.dropTable [['a', 'b']]) ∧
    execute [['a', 'b'], ['b']] (.dropTable [['a', 'b']]) = ([['a', 'b']], true) := by
  refine ⟨[.word "DROP".toList none, .word "TABLE".toList none, .word ['a'] none, .period, .word ['b'] none], by decide +kernel,
    by decide +kernel, by decide +kernel⟩

/-- **C42** is false of the code for names with upper-case letters: the table that `CREATE TABLE Foo` creates is not found by
`DROP TABLE Foo`. -/
theorem C42_created_case : createdName [] (fun _ => true) ["Foo".toList] = some "foo".toList ∧
    ∃ tokens, tokenize "DROP TABLE Foo".toList = some tokens ∧ parse tokens = some (.dropTable ["Foo".toList]) ∧
      execute ["foo".toList] (.dropTable ["Foo".toList]) = ([], false) := by
  refine ⟨by decide +kernel, [.word "DROP".toList none, .word "TABLE".toList none, .word "Foo".toList none], by decide +kernel,
    by decide +kernel, by decide +kernel⟩

/-- **C42** is false of the code in a cluster if a name needs quotes: `DROP TABLE "a,b"` drops the tables `a` and `b` at the other nodes. The
name is one that a table can be created with. -/
theorem C42_forwarded_comma : createdName [] (fun _ => true) ["a,b".toList] = some "a,b".toList ∧
    ∃ tokens, tokenize "DROP TABLE \"a,b\"".toList = some tokens ∧ parse tokens = some (.dropTable ["a,b".toList]) ∧
    ∃ sent, tokenize (forwardedText (.dropTable ["a,b".toList])) = some sent ∧ parse sent = some (.dropTable [['a'], ['b']]) ∧
      execute [['a'], ['b'], "a,b".toList] (.dropTable [['a'], ['b']]) = ([['a'], ['b']], true) := by
  refine ⟨by decide +kernel, [.word "DROP".toList none, .word "TABLE".toList none, .word "a,b".toList (some '"')], by decide +kernel,
    by decide +kernel, [.word "DROP".toList none, .word "TABLE".toList none, .word ['a'] none, .comma, .word ['b'] none], by decide +kernel,
    by decide +kernel, by decide +kernel⟩

end ModelarDB.Props
