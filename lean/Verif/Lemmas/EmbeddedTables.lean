import Verif.Spec.EmbeddedTables
import Verif.Lemmas.CreateTableAccept
import Verif.Lemmas.DataFolder
/-
Lemmas about creating tables with the embedded library, for C82.
-/
namespace ModelarDB.Lemmas.EmbeddedTables
open Model Model.Statements Model.TableDefinition Model.CreateTable Model.EmbeddedTables Spec Spec.EmbeddedTables Lemmas.CreateTable

variable {ε β : Type} {sql : Sql ε}

theorem get_eq_some {m : Map β} (h : (m.map (·.1)).Nodup) (key : String) (b : β) : m.get key = some b ↔ (key, b) ∈ m := by
  induction m with
  | nil => simp [Map.get]
  | cons p m ih =>
    obtain ⟨k, v⟩ := p
    simp only [List.map_cons, List.nodup_cons] at h
    have ih := ih h.2
    unfold Map.get at ih ⊢
    rw [List.find?_cons]
    by_cases hk : k = key
    · subst hk
      simp only [decide_true, Option.map_some, Option.some.injEq, List.mem_cons, Prod.mk.injEq, true_and]
      constructor
      · intro h'
        exact .inl h'.symm
      · rintro (h' | h')
        · exact h'.symm
        · exact absurd (List.mem_map_of_mem (f := (·.1)) h') h.1
    · simp only [hk, decide_false, List.mem_cons, Prod.mk.injEq]
      rw [ih]
      constructor
      · exact .inr
      · rintro (⟨h', -⟩ | h')
        · exact absurd h'.symm hk
        · exact h'

theorem get_eq_none (m : Map β) (key : String) : m.get key = none ↔ ∀ b, (key, b) ∉ m := by
  unfold Map.get
  rw [Option.map_eq_none_iff, List.find?_eq_none]
  constructor
  · intro h b hb
    exact h _ hb (by simp)
  · rintro h ⟨k, v⟩ hp hk
    have : k = key := of_decide_eq_true hk
    subst this
    exact h v hp

theorem get_remove_of_ne (m : Map β) {key other : String} (h : key ≠ other) : (m.remove other).get key = m.get key := by
  unfold Map.get Map.remove
  congr 1
  induction m with
  | nil => rfl
  | cons p m ih =>
    rw [List.filter_cons, List.find?_cons]
    by_cases hp : p.1 = other
    · simp only [hp, ne_eq, not_true_eq_false, decide_false, Bool.false_eq_true, if_false]
      rw [ih, show decide (other = key) = false from decide_eq_false (Ne.symm h)]
    · simp only [hp, ne_eq, not_false_eq_true, decide_true, if_true, List.find?_cons, ih]

/-- The loop gives every column its error bound and its expression. -/
theorem columnsLoop_ok {schema : List Column} {expressions : Map (List Token)} : ∀ {cs : List Column} {bounds : Map ErrorBound}
    {bs : List ErrorBound} {gs : List (Option (Generated ε))}, (cs.map (·.name)).Nodup →
    (columnsLoop sql schema expressions cs bounds = .ok (bs, gs) ↔
      bs = cs.map (fun c => (bounds.get c.name).getD .lossless) ∧
      List.Forall₂ (fun c g => generatedFor sql schema expressions c = .ok g) cs gs) := by
  intro cs
  induction cs with
  | nil =>
    intro bounds bs gs _
    simp only [columnsLoop, Except.ok.injEq, Prod.mk.injEq, List.map_nil, List.forall₂_nil_left_iff]
    exact ⟨fun h => ⟨h.1.symm, h.2.symm⟩, fun h => ⟨h.1.symm, h.2.symm⟩⟩
  | cons c cs ih =>
    intro bounds bs gs hn
    simp only [List.map_cons, List.nodup_cons] at hn
    have hmap : cs.map (fun c' => ((bounds.remove c.name).get c'.name).getD .lossless) = cs.map fun c' => (bounds.get c'.name).getD .lossless := by
      refine List.map_congr_left ?_
      intro c' hc'
      rw [get_remove_of_ne]
      intro h
      exact hn.1 (List.mem_map.mpr ⟨c', hc', h⟩)
    unfold columnsLoop
    cases hg : generatedFor sql schema expressions c with
    | error e =>
      simp only [reduceCtorEq, List.map_cons, List.forall₂_cons_left_iff, hg, false_and, exists_false, and_false]
    | ok g =>
      dsimp only
      cases hl : columnsLoop sql schema expressions cs (bounds.remove c.name) with
      | error e =>
        simp only [reduceCtorEq, List.map_cons, false_iff]
        rintro ⟨-, h⟩
        obtain ⟨g', gs', -, h2, -⟩ := List.forall₂_cons_left_iff.mp h
        have := (ih (bounds := bounds.remove c.name) (gs := gs') hn.2).mpr ⟨rfl, h2⟩
        rw [hl] at this
        cases this
      | ok r =>
        obtain ⟨bs', gs'⟩ := r
        have := (ih hn.2).mp hl
        rw [hmap] at this
        simp only [Except.ok.injEq, Prod.mk.injEq, List.map_cons]
        constructor
        · rintro ⟨rfl, rfl⟩
          exact ⟨by rw [this.1], .cons hg this.2⟩
        · rintro ⟨rfl, h⟩
          obtain ⟨g'', gs'', h1, h2, rfl⟩ := List.forall₂_cons_left_iff.mp h
          rw [hg] at h1
          injection h1 with h1
          subst h1
          have h3 := (ih (bounds := bounds.remove c.name) hn.2).mpr ⟨rfl, h2⟩
          rw [hl] at h3
          injection h3 with h3
          injection h3 with h4 h5
          subst h4 h5
          exact ⟨by rw [hmap], rfl⟩

/-- When a definition is made and what it is made of. -/
theorem tryNewMetadata_ok {name : String} {schema : List Column} {bounds : Map ErrorBound} {expressions : Map (List Token)} {m : Metadata ε} :
    tryNewMetadata sql name schema bounds expressions = .ok m ↔
      (schema.map (·.name)).Nodup ∧ ∃ gs, List.Forall₂ (fun c g => generatedFor sql schema expressions c = .ok g) schema gs ∧
        tryNew name schema (schema.map fun c => (bounds.get c.name).getD .lossless) gs = .ok m := by
  unfold tryNewMetadata uniqueNames
  by_cases hn : (schema.map (·.name)).Nodup
  · simp only [hn, decide_true, Bool.not_true, Bool.false_eq_true, if_false, true_and]
    cases hl : columnsLoop sql schema expressions schema bounds with
    | error e =>
      simp only [reduceCtorEq, false_iff, not_exists, not_and]
      intro gs hgs
      have := (columnsLoop_ok (bounds := bounds) hn).mpr ⟨rfl, hgs⟩
      rw [hl] at this
      cases this
    | ok r =>
      obtain ⟨bs, gs⟩ := r
      obtain ⟨rfl, hgs⟩ := (columnsLoop_ok hn).mp hl
      dsimp only
      constructor
      · intro h
        exact ⟨gs, hgs, h⟩
      · rintro ⟨gs', hgs', h⟩
        have := (columnsLoop_ok (bounds := bounds) hn).mpr ⟨rfl, hgs'⟩
        rw [hl] at this
        injection this with this
        injection this with _ this
        subst this
        exact h
  · simp [hn]

/-- The expression of a column. -/
theorem generatedFor_ok {schema : List Column} {expressions : Map (List Token)} (he : (expressions.map (·.1)).Nodup) {c : Column}
    {g : Option (Generated ε)} : generatedFor sql schema expressions c = .ok g ↔
      (g = none ∧ ∀ text, (c.name, text) ∉ expressions) ∨
      ∃ text g' rest, g = some g' ∧ (c.name, text) ∈ expressions ∧ sql.parseExpr text = some (g'.expr, rest) ∧
        List.Forall₂ (fun n k => indexOf schema n = some k) (sql.refs g'.expr) g'.sources := by
  unfold generatedFor
  cases hx : expressions.get c.name with
  | none =>
    rw [get_eq_none] at hx
    simp only [Except.ok.injEq]
    constructor
    · intro h
      exact .inl ⟨h.symm, hx⟩
    · rintro (⟨rfl, -⟩ | ⟨text, -, -, -, h, -⟩)
      · rfl
      · exact absurd h (hx text)
  | some text =>
    have hmem := (get_eq_some he _ _).mp hx
    dsimp only
    have hsame : ∀ text', (c.name, text') ∈ expressions → text' = text := by
      intro text' h
      have := (get_eq_some he _ _).mpr h
      rw [hx] at this
      exact (Option.some.inj this).symm
    unfold parseExpression
    cases hp : sql.parseExpr text with
    | none =>
      simp only [Option.map_none, reduceCtorEq, false_iff]
      rintro (⟨-, h⟩ | ⟨text', g', rest, -, h, h', -⟩)
      · exact h _ hmem
      · rw [hsame _ h, hp] at h'
        cases h'
    | some r =>
      obtain ⟨e, rest⟩ := r
      simp only [Option.map_some]
      constructor
      · intro h
        cases ht : tryFromExpr sql.env schema e with
        | error e' => rw [ht] at h; cases h
        | ok g' =>
          rw [ht] at h
          injection h with h
          obtain ⟨h1, h2⟩ := (tryFromExpr_iff _ _ _ _).mp ht
          subst h1
          exact .inr ⟨text, g', rest, h.symm, hmem, hp, h2⟩
      · rintro (⟨-, h⟩ | ⟨text', g', rest', rfl, h, h1, h2⟩)
        · exact absurd hmem (h _)
        · rw [hsame _ h, hp] at h1
          injection h1 with h1
          injection h1 with h1 h3
          subst h1
          have := (tryFromExpr_iff sql.env schema g'.expr g').mpr ⟨rfl, h2⟩
          rw [this]
          rfl

/-- The element at a position of the first list of two. -/
theorem forall₂_at {α γ : Type} {r : α → γ → Prop} {l : List α} {m : List γ} (h : List.Forall₂ r l m) (i : Nat) (a : α) (ha : l[i]? = some a) :
    ∃ b, m[i]? = some b ∧ r a b := by
  obtain ⟨hi, rfl⟩ := List.getElem?_eq_some_iff.mp ha
  have hi' : i < m.length := by rw [← h.length_eq]; exact hi
  exact ⟨_, List.getElem?_eq_getElem hi', List.Forall₂.get h hi hi'⟩

theorem single_of_unique {l : List Nat} (hl : l.Pairwise (· < ·)) {k : Nat} (h : ∀ j, j ∈ l ↔ j = k) : l = [k] := by
  match l, hl, h with
  | [], _, h => exact absurd ((h k).mpr rfl) (by simp)
  | [a], _, h => rw [(h a).mp (by simp)]
  | a :: b :: l, hl, h =>
    have h1 := (h a).mp (by simp)
    have h2 := (h b).mp (by simp)
    have := List.rel_of_pairwise_cons hl (List.mem_cons_self (a := b))
    omega

/-- When a definition is accepted. -/
theorem tryNew_accepts {name : String} {qs : List Column} {bs : List ErrorBound} {gs : List (Option (Generated ε))} (hb : qs.length = bs.length)
    (hg : qs.length = gs.length) :
    (∃ m, tryNew name qs bs gs = .ok m) ↔
      (∀ g : Generated ε, some g ∈ gs → ∀ s ∈ g.sources, gs[s]? = some none) ∧ qs.length ≤ 32767 ∧
      (∀ c ∈ qs, c.type = .timestamp ∨ c.type = .value ∨ c.type = .string) ∧
      (∃ (i : Nat) (c : Column), qs[i]? = some c ∧ c.type = .timestamp ∧ gs[i]? = some none ∧
        ∀ (k : Nat) (c' : Column), qs[k]? = some c' → c'.type = .timestamp → gs[k]? = some none → k = i) ∧
      ∃ (i : Nat) (c : Column), qs[i]? = some c ∧ c.type = .value ∧ gs[i]? = some none := by
  have hl := wg_length 0 qs bs gs
  have hmem : ∀ k, k ∈ (withoutGenerated 0 qs bs gs).2.1 ↔ gs[k]? = some none := by
    intro k
    rw [wg_mem 0 qs bs gs k hb hg]
    constructor
    · rintro ⟨n, rfl, h⟩
      rwa [Nat.zero_add]
    · intro h
      exact ⟨k, by omega, h⟩
  have hget : ∀ (j k : Nat), (withoutGenerated 0 qs bs gs).2.1[j]? = some k → (withoutGenerated 0 qs bs gs).1[j]? = qs[k]? := by
    intro j k h
    obtain ⟨n, rfl, -, h, -⟩ := wg_get 0 qs bs gs j k h
    rw [h, Nat.zero_add]
  -- A stored column and its position.
  have hstored : ∀ t, (∃ j, j ∈ indicesOfType (withoutGenerated 0 qs bs gs).1 t) ↔ ∃ (i : Nat) (c : Column), qs[i]? = some c ∧ c.type = t ∧ gs[i]? = some none := by
    intro t
    constructor
    · rintro ⟨j, hj⟩
      obtain ⟨c, hc, ht⟩ := (mem_indicesOfType _ _ _).mp hj
      have hjl : j < (withoutGenerated 0 qs bs gs).2.1.length := by
        rw [← hl.1]
        exact (List.getElem?_eq_some_iff.mp hc).1
      have hk := List.getElem?_eq_getElem hjl
      refine ⟨_, c, ?_, ht, (hmem _).mp (List.getElem_mem hjl)⟩
      rw [← hget j _ hk, hc]
    · rintro ⟨i, c, hc, ht, hi⟩
      obtain ⟨j, hj⟩ := List.mem_iff_getElem?.mp ((hmem i).mpr hi)
      exact ⟨j, (mem_indicesOfType _ _ _).mpr ⟨c, by rw [hget j i hj, hc], ht⟩⟩
  constructor
  · rintro ⟨m, h⟩
    obtain ⟨-, -, h3, h4, h5, h6, h7, -⟩ := tryNew_ok.mp h
    refine ⟨(checkGenerated_ok gs gs).mp h3, h4, h5, ?_, ?_⟩
    · have hmem' : ∀ j, j ∈ indicesOfType (withoutGenerated 0 qs bs gs).1 .timestamp ↔ j = m.timestampIndex := by
        rw [h6]
        simp
      obtain ⟨i, c, hc, ht, hi⟩ := (hstored .timestamp).mp ⟨_, (hmem' _).mpr rfl⟩
      refine ⟨i, c, hc, ht, hi, ?_⟩
      have hpos : ∀ (k : Nat) (c' : Column), qs[k]? = some c' → c'.type = .timestamp → gs[k]? = some none →
          (withoutGenerated 0 qs bs gs).2.1[m.timestampIndex]? = some k := by
        intro k c' hc' ht' hk
        obtain ⟨j, hj⟩ := List.mem_iff_getElem?.mp ((hmem k).mpr hk)
        have : j = m.timestampIndex := (hmem' j).mp ((mem_indicesOfType _ _ _).mpr ⟨c', by rw [hget j k hj, hc'], ht'⟩)
        rwa [this] at hj
      intro k c' hc' ht' hk
      have h1 := hpos k c' hc' ht' hk
      rw [hpos i c hc ht hi] at h1
      exact (Option.some.inj h1).symm
    · obtain ⟨j, hj⟩ := List.exists_mem_of_ne_nil _ h7
      exact (hstored .value).mp ⟨j, hj⟩
  · rintro ⟨h3, h4, h5, ⟨i, c, hc, ht, hi, hu⟩, hv⟩
    obtain ⟨j, hj⟩ := List.mem_iff_getElem?.mp ((hmem i).mpr hi)
    have h6 : indicesOfType (withoutGenerated 0 qs bs gs).1 .timestamp = [j] := by
      refine single_of_unique (indicesOfType_sorted _ _) ?_
      intro j'
      rw [mem_indicesOfType]
      constructor
      · rintro ⟨c', hc', ht'⟩
        have hjl : j' < (withoutGenerated 0 qs bs gs).2.1.length := by
          rw [← hl.1]
          exact (List.getElem?_eq_some_iff.mp hc').1
        have hk := List.getElem?_eq_getElem hjl
        have := hu _ c' (by rw [← hget j' _ hk, hc']) ht' ((hmem _).mp (List.getElem_mem hjl))
        rw [this] at hk
        obtain ⟨hj1, hj2⟩ := List.getElem?_eq_some_iff.mp hj
        obtain ⟨hj3, hj4⟩ := List.getElem?_eq_some_iff.mp hk
        have hnd : (withoutGenerated 0 qs bs gs).2.1.Nodup := (wg_sorted 0 qs bs gs).imp fun h => Nat.ne_of_lt h
        exact (List.Nodup.getElem_inj_iff hnd).mp (hj4.trans hj2.symm)
      · rintro rfl
        exact ⟨c, by rw [hget _ i hj, hc], ht⟩
    have h7 : indicesOfType (withoutGenerated 0 qs bs gs).1 .value ≠ [] := by
      obtain ⟨k, hk⟩ := (hstored .value).mpr hv
      exact List.ne_nil_of_mem hk
    exact ⟨{ name := name, timestampIndex := j
             fieldIndices := indicesOfType (withoutGenerated 0 qs bs gs).1 .value
             tagIndices := indicesOfType (withoutGenerated 0 qs bs gs).1 .string
             errorBounds := (withoutGenerated 0 qs bs gs).2.2, generated := gs, schema := (withoutGenerated 0 qs bs gs).1
             querySchema := qs, querySchemaToSchema := (withoutGenerated 0 qs bs gs).2.1
             compressedSchema := compressedSchemaBase ++
               (indicesOfType (withoutGenerated 0 qs bs gs).1 .string).filterMap fun i => (withoutGenerated 0 qs bs gs).1[i]? },
      tryNew_ok.mpr ⟨hb, hg, (checkGenerated_ok gs gs).mpr h3, h4, h5, h6, h7, rfl⟩⟩

/-! ### From C -/

theorem insert_new {m : Map β} {key : String} (h : key ∉ m.map (·.1)) (b : β) : m.insert key b = m ++ [(key, b)] := by
  unfold Map.insert Map.remove
  congr 1
  rw [List.filter_eq_self]
  intro p hp
  simp only [ne_eq, decide_not, Bool.not_eq_eq_eq_not, Bool.not_true, decide_eq_false_iff_not]
  rintro rfl
  exact h (List.mem_map.mpr ⟨p, hp, rfl⟩)

theorem mapOfArray_from (entries : List (String × β)) : ∀ m : Map β, ((m ++ entries).map (·.1)).Nodup →
    entries.foldl (fun m p => m.insert p.1 p.2) m = m ++ entries := by
  induction entries with
  | nil => intro m _; simp
  | cons p entries ih =>
    intro m h
    have hnew : p.1 ∉ m.map (·.1) := by
      intro hm
      rw [List.map_append, List.nodup_append] at h
      exact h.2.2 _ hm _ (by simp) rfl
    rw [List.foldl_cons, insert_new hnew]
    have : m ++ p :: entries = (m ++ [(p.1, p.2)]) ++ entries := by simp
    rw [this] at h ⊢
    exact ih _ h

/-- Entries with different keys are all in the map. -/
theorem mapOfArray_eq {entries : List (String × β)} (h : (entries.map (·.1)).Nodup) : mapOfArray entries = entries := by
  have := mapOfArray_from entries [] (by simpa using h)
  simpa [mapOfArray] using this

/-- The error bounds that are made from entries with different keys. -/
theorem boundsOfArray_ok {entries : List (String × FVal)} : ∀ {m r : Map ErrorBound}, ((m.map (·.1)) ++ entries.map (·.1)).Nodup →
    (boundsOfArray entries m = .ok r ↔ ∃ bs, r = m ++ bs ∧ List.Forall₂ (fun p q => p.1 = q.1 ∧ capiBound p.2 = .ok q.2) entries bs) := by
  induction entries with
  | nil =>
    intro m r _
    simp only [boundsOfArray, Except.ok.injEq, List.forall₂_nil_left_iff]
    constructor
    · rintro rfl
      exact ⟨[], by simp, rfl⟩
    · rintro ⟨_, h, rfl⟩
      simpa using h.symm
  | cons p entries ih =>
    intro m r h
    obtain ⟨n, v⟩ := p
    have hnew : n ∉ m.map (·.1) := by
      intro hm
      rw [List.nodup_append] at h
      exact h.2.2 _ hm _ (by simp) rfl
    unfold boundsOfArray
    cases hb : capiBound v with
    | error e =>
      simp only [reduceCtorEq, false_iff]
      rintro ⟨bs, -, hbs⟩
      cases hbs with
      | cons h' _ => rw [hb] at h'; cases h'.2
    | ok b =>
      simp only
      rw [insert_new hnew, ih (by simpa using h)]
      constructor
      · rintro ⟨bs, rfl, hbs⟩
        exact ⟨(n, b) :: bs, by simp, .cons ⟨rfl, hb⟩ hbs⟩
      · rintro ⟨bs, rfl, hbs⟩
        cases hbs with
        | cons h' hbs =>
          rename_i q bs
          obtain ⟨qn, qb⟩ := q
          obtain ⟨rfl, h'⟩ := h'
          simp only at h'
          rw [hb] at h'
          injection h' with h'
          subst h'
          exact ⟨bs, by simp, hbs⟩

end ModelarDB.Lemmas.EmbeddedTables
