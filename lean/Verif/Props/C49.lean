import Verif.Lemmas.Cluster
/-
C49: a new node cannot join with a conflicting table.

If no creation or drop of a table was interrupted in the local and the remote data folder and no normal table in the remote data folder has the schema
of segments, then a node that starts has only tables that the cluster has with the same definitions, and has exactly the tables of the cluster
afterwards (C49_partial). A node whose tables all exist in the cluster with definitions that compare as equal starts (C49_accepts).

Without the conditions this is false. The check for normal tables reads the Delta table with the name, so a Delta table that was left by an interrupted
creation counts as the table and the node starts without it (C49_interrupted), and a time series table counts as a normal table with the schema of
segments (C49_kind). An interrupted creation of a time series table makes each start fail (C49_unstartable).
-/
namespace ModelarDB.Props
open Model.Cluster Spec.Cluster Lemmas.Cluster

variable {μ σ : Type} [DecidableEq σ]

theorem missingNormal_some (l r : Folder μ σ) (names : List String) (out : List (String × σ)) (h : missingNormal l r names = some out) :
    (∀ p, p ∈ out ↔ p.1 ∈ names ∧ r.delta.lookup p.1 = some p.2 ∧ l.delta.lookup p.1 = none) ∧
      ∀ name ∈ names, ∀ s, l.delta.lookup name = some s → r.delta.lookup name = some s := by
  induction names generalizing out with
  | nil =>
    simp only [missingNormal, Option.some.injEq] at h
    subst h
    exact ⟨fun p => by simp, nofun⟩
  | cons name rest ih =>
    rw [missingNormal] at h
    split at h
    · simp at h
    · rename_i remoteSchema hr
      split at h
      · rename_i localSchema hl
        split at h
        · rename_i he
          subst he
          obtain ⟨h1, h2⟩ := ih out h
          refine ⟨fun p => ?_, fun n hn s hs => ?_⟩
          · rw [h1 p, List.mem_cons]
            constructor
            · rintro ⟨a, b, c⟩; exact ⟨Or.inr a, b, c⟩
            · rintro ⟨a | a, b, c⟩
              · rw [a, hl] at c; simp at c
              · exact ⟨a, b, c⟩
          · rcases List.mem_cons.1 hn with rfl | hn
            · rw [hl] at hs; rw [hr, hs]
            · exact h2 n hn s hs
        · simp at h
      · rename_i hl
        simp only [Option.map_eq_some_iff] at h
        obtain ⟨out', h, rfl⟩ := h
        obtain ⟨h1, h2⟩ := ih out' h
        refine ⟨fun p => ?_, fun n hn s hs => ?_⟩
        · rw [List.mem_cons, List.mem_cons, h1 p]
          constructor
          · rintro (rfl | ⟨a, b, c⟩)
            · exact ⟨Or.inl rfl, hr, hl⟩
            · exact ⟨Or.inr a, b, c⟩
          · rintro ⟨a | a, b, c⟩
            · refine Or.inl ?_
              obtain ⟨n, s⟩ := p
              simp only at a b
              subst a
              rw [hr] at b
              injection b with b
              rw [b]
            · exact Or.inr ⟨a, b, c⟩
        · rcases List.mem_cons.1 hn with rfl | hn
          · rw [hl] at hs; simp at hs
          · exact h2 n hn s hs

omit [DecidableEq σ] in
theorem missingSeries_some (same : μ → μ → Bool) (l : Folder μ σ) (tables : List (String × μ)) (out : List (String × μ))
    (h : missingSeries same l tables = some out) :
    (∀ p, p ∈ out ↔ p ∈ tables ∧ l.series.lookup p.1 = none) ∧
      ∀ p ∈ tables, ∀ m, l.series.lookup p.1 = some m → same p.2 m = true := by
  induction tables generalizing out with
  | nil =>
    simp only [missingSeries, Option.some.injEq] at h
    subst h
    exact ⟨fun p => by simp, nofun⟩
  | cons q rest ih =>
    obtain ⟨name, remote⟩ := q
    rw [missingSeries] at h
    split at h
    · rename_i localMetadata hl
      split at h
      · rename_i he
        obtain ⟨h1, h2⟩ := ih out h
        refine ⟨fun p => ?_, fun p hp m hm => ?_⟩
        · rw [h1 p, List.mem_cons]
          constructor
          · rintro ⟨a, b⟩; exact ⟨Or.inr a, b⟩
          · rintro ⟨rfl | a, b⟩
            · rw [hl] at b; simp at b
            · exact ⟨a, b⟩
        · rcases List.mem_cons.1 hp with rfl | hp
          · rw [hl] at hm; injection hm with hm; subst hm; exact he
          · exact h2 p hp m hm
      · simp at h
    · rename_i hl
      simp only [Option.map_eq_some_iff] at h
      obtain ⟨out', h, rfl⟩ := h
      obtain ⟨h1, h2⟩ := ih out' h
      refine ⟨fun p => ?_, fun p hp m hm => ?_⟩
      · rw [List.mem_cons, List.mem_cons, h1 p]
        constructor
        · rintro (rfl | ⟨a, b⟩)
          · exact ⟨Or.inl rfl, hl⟩
          · exact ⟨Or.inr a, b⟩
        · rintro ⟨rfl | a, b⟩
          · exact Or.inl rfl
          · exact Or.inr ⟨a, b⟩
      · rcases List.mem_cons.1 hp with rfl | hp
        · rw [hl] at hm; simp at hm
        · exact h2 p hp m hm

omit [DecidableEq σ] in
theorem createNormals_some (f f' : Folder μ σ) (tables : List (String × σ)) (h : createNormals f tables = some f') :
    f'.normal = f.normal ++ tables.map Prod.fst ∧ f'.series = f.series ∧ f'.delta = f.delta ++ tables := by
  induction tables generalizing f with
  | nil =>
    simp only [createNormals, Option.some.injEq] at h
    subst h
    simp
  | cons p rest ih =>
    obtain ⟨name, schema⟩ := p
    simp only [createNormals, createNormal, Option.bind_eq_some_iff] at h
    obtain ⟨f1, h1, h2⟩ := h
    split at h1
    · simp at h1
    · simp only [Option.some.injEq] at h1
      subst h1
      obtain ⟨a, b, c⟩ := ih _ h2
      exact ⟨by simp [a], b, by simp [c]⟩

omit [DecidableEq σ] in
theorem createAllSeries_some (compressed : μ → σ) (f f' : Folder μ σ) (tables : List (String × μ)) (h : createAllSeries compressed f tables = some f') :
    f'.normal = f.normal ∧ f'.series = f.series ++ tables ∧ f'.delta = f.delta ++ tables.map (fun p => (p.1, compressed p.2)) ∧
      ∀ p ∈ tables, p.1 ∉ f.names := by
  induction tables generalizing f with
  | nil =>
    simp only [createAllSeries, Option.some.injEq] at h
    subst h
    simp
  | cons p rest ih =>
    obtain ⟨name, m⟩ := p
    simp only [createAllSeries, createSeries, Option.bind_eq_some_iff] at h
    obtain ⟨f1, h1, h2⟩ := h
    split at h1
    · simp at h1
    · rename_i hn
      simp only [Option.some.injEq] at h1
      subst h1
      obtain ⟨a, b, c, d⟩ := ih _ h2
      refine ⟨a, by simp [b], by simp [c], fun p hp => ?_⟩
      rcases List.mem_cons.1 hp with rfl | hp
      · exact fun h => hn (Or.inl h)
      · intro hmem
        refine d p hp ?_
        simp only [Folder.names, List.map_append, List.mem_append] at hmem ⊢
        tauto

omit [DecidableEq σ] in
theorem mem_names_of_lookup {f : Folder μ σ} {name : String} {m : μ} (h : f.series.lookup name = some m) : name ∈ f.names := by
  refine List.mem_append_right _ ?_
  exact List.mem_map.2 ⟨_, mem_of_lookup h, rfl⟩

omit [DecidableEq σ] in
theorem not_both {f : Folder μ σ} (h : f.names.Nodup) {name : String} (hn : name ∈ f.normal) : f.series.lookup name = none := by
  cases hs : f.series.lookup name with
  | none => rfl
  | some m =>
    have := (List.nodup_append.1 h).2.2 name hn name (List.mem_map.2 ⟨_, mem_of_lookup hs, rfl⟩)
    exact absurd rfl this

theorem lookup_of_mem {α : Type} {t : List (String × α)} (h : (t.map Prod.fst).Nodup) {p : String × α} (hp : p ∈ t) : t.lookup p.1 = some p.2 := by
  induction t with
  | nil => simp at hp
  | cons q t ih =>
    rw [lookup_cons]
    rw [List.map_cons, List.nodup_cons] at h
    rcases List.mem_cons.1 hp with rfl | hp
    · simp
    · have : p.1 ≠ q.1 := fun e => h.1 (e ▸ List.mem_map.2 ⟨p, hp, rfl⟩)
      rw [if_neg this]
      exact ih h.2 hp

/-- **C49, partial**: if the data folders have no interrupted changes and no normal table of the cluster has the schema of segments, then a node that
starts in the cluster has only tables that exist in the cluster with the same definitions, and afterwards has exactly the tables of the cluster with
their definitions. -/
theorem C49_partial (same : μ → μ → Bool) (hsame : ∀ a b, same a b = true → a = b) (compressed : μ → σ) (l r l' : Folder μ σ)
    (hl : WellFormed compressed l) (hr : WellFormed compressed r) (hk : ∀ name ∈ r.normal, ∀ m, r.delta.lookup name ≠ some (compressed m))
    (h : retrieveAndCreate same compressed l r = some l') :
    (∀ name d, Defines l name d → Defines r name d) ∧ ∀ name d, Defines l' name d ↔ Defines r name d := by
  rw [retrieveAndCreate] at h
  split at h
  swap
  · simp at h
  rename_i hex
  simp only [Option.bind_eq_some_iff] at h
  obtain ⟨normal, hnormal, series, hseries, l1, hl1, hl2⟩ := h
  obtain ⟨n1, n2⟩ := missingNormal_some l r _ _ hnormal
  obtain ⟨s1, s2⟩ := missingSeries_some same l _ _ hseries
  obtain ⟨a1, a2, a3⟩ := createNormals_some _ _ _ hl1
  obtain ⟨b1, b2, b3, b4⟩ := createAllSeries_some compressed _ _ _ hl2
  have hnames : ∀ name ∈ l.names, name ∈ r.names := by
    intro name hn
    have := List.all_eq_true.1 hex name hn
    simpa using this
  have key : ∀ name d, Defines l' name d ↔ Defines r name d := by
    intro name d
    cases d with
    | normal s =>
      simp only [Defines, b1, b3, a1, a3, List.append_assoc, lookup_append]
      constructor
      · rintro ⟨hmem, hlook⟩
        rcases List.mem_append.1 hmem with hmem | hmem
        · have hin : name ∈ l.names := List.mem_append_left _ hmem
          have hrn : name ∈ r.normal := by
            rcases List.mem_append.1 (hnames name hin) with h | h
            · exact h
            · obtain ⟨p, hp, rfl⟩ := List.mem_map.1 h
              have : p ∈ series := (s1 p).2 ⟨hp, not_both hl.nodup hmem⟩
              refine absurd ?_ (b4 p this)
              simp only [Folder.names, a1, a2, List.mem_append]
              exact Or.inl (Or.inl hmem)
          obtain ⟨s0, hs0⟩ := Option.isSome_iff_exists.1 ((hl.delta name).2 hin)
          rw [hs0] at hlook
          simp only [Option.some_or, Option.some.injEq] at hlook
          subst hlook
          exact ⟨hrn, n2 name hrn s0 hs0⟩
        · obtain ⟨p, hp, rfl⟩ := List.mem_map.1 hmem
          have hp' := (n1 p).1 hp
          refine ⟨hp'.1, ?_⟩
          rw [hp'.2.2] at hlook
          obtain ⟨s', hs'⟩ := Option.isSome_iff_exists.1 (lookup_isSome_of_mem hp)
          rw [hs'] at hlook
          simp only [Option.none_or, Option.some_or, Option.some.injEq] at hlook
          subst hlook
          exact ((n1 _).1 (mem_of_lookup hs')).2.1
      · rintro ⟨hmem, hlook⟩
        cases hd : l.delta.lookup name with
        | some s0 =>
          have := n2 name hmem s0 hd
          rw [hlook] at this
          injection this with this
          subst this
          have hin := (hl.delta name).1 (by rw [hd]; rfl)
          rcases List.mem_append.1 hin with hin | hin
          · exact ⟨List.mem_append_left _ hin, by simp⟩
          · obtain ⟨p, hp, rfl⟩ := List.mem_map.1 hin
            obtain ⟨m, hm⟩ := Option.isSome_iff_exists.1 (lookup_isSome_of_mem hp)
            have := hl.series _ m hm
            rw [hd] at this
            exact absurd (hlook.trans this) (hk _ hmem m)
        | none =>
          have hp : (name, s) ∈ normal := (n1 (name, s)).2 ⟨hmem, hlook, hd⟩
          refine ⟨List.mem_append_right _ (List.mem_map.2 ⟨_, hp, rfl⟩), ?_⟩
          obtain ⟨s', hs'⟩ := Option.isSome_iff_exists.1 (lookup_isSome_of_mem hp)
          have := ((n1 _).1 (mem_of_lookup hs')).2.1
          simp only at this hs'
          rw [hlook] at this
          injection this with this
          subst this
          simp [hs']
    | series m =>
      simp only [Defines, b2, a2, lookup_append]
      have hrs : (r.series.map Prod.fst).Nodup := (List.nodup_append.1 hr.nodup).2.1
      constructor
      · intro hlook
        cases hls : l.series.lookup name with
        | some m0 =>
          rw [hls] at hlook
          simp only [Option.some_or, Option.some.injEq] at hlook
          subst hlook
          have hin := mem_names_of_lookup hls
          rcases List.mem_append.1 (hnames name hin) with h | h
          · have := n2 name h _ (hl.series _ _ hls)
            exact absurd this (hk name h m0)
          · obtain ⟨p, hp, rfl⟩ := List.mem_map.1 h
            have := hsame _ _ (s2 p hp _ hls)
            subst this
            exact lookup_of_mem hrs hp
        | none =>
          rw [hls] at hlook
          simp only [Option.none_or] at hlook
          have := (s1 _).1 (mem_of_lookup hlook)
          exact lookup_of_mem hrs this.1
      · intro hlook
        cases hls : l.series.lookup name with
        | some m0 =>
          have := hsame _ _ (s2 _ (mem_of_lookup hlook) m0 hls)
          simp only at this
          subst this
          simp
        | none =>
          have hp : (name, m) ∈ series := (s1 _).2 ⟨mem_of_lookup hlook, hls⟩
          obtain ⟨m', hm'⟩ := Option.isSome_iff_exists.1 (lookup_isSome_of_mem hp)
          have := lookup_of_mem hrs ((s1 _).1 (mem_of_lookup hm')).1
          simp only at this hm'
          rw [hlook] at this
          injection this with this
          subst this
          simp [hm']
  refine ⟨fun name d hd => (key name d).1 ?_, key⟩
  cases d with
  | normal s =>
    obtain ⟨h1, h2⟩ := hd
    simp only [Defines, b1, b3, a1, a3, List.append_assoc, lookup_append, h2]
    exact ⟨List.mem_append_left _ h1, rfl⟩
  | series m =>
    simp only [Defines] at hd
    simp only [Defines, b2, a2, lookup_append, hd]
    rfl

omit [DecidableEq σ] in
theorem createNormals_total (f : Folder μ σ) (tables : List (String × σ)) (hn : (tables.map Prod.fst).Nodup)
    (h : ∀ p ∈ tables, p.1 ∉ f.names ∧ f.delta.lookup p.1 = none) : ∃ f', createNormals f tables = some f' := by
  induction tables generalizing f with
  | nil => exact ⟨f, rfl⟩
  | cons p rest ih =>
    obtain ⟨name, schema⟩ := p
    rw [List.map_cons, List.nodup_cons] at hn
    have hp := h (name, schema) (List.mem_cons_self ..)
    simp only [createNormals, createNormal]
    rw [if_neg (by rw [hp.2]; simp [hp.1]), Option.bind_some]
    refine ih _ hn.2 fun q hq => ?_
    have hq' := h q (List.mem_cons_of_mem _ hq)
    have hne : q.1 ≠ name := fun e => hn.1 (List.mem_map.2 ⟨q, hq, e⟩)
    refine ⟨?_, ?_⟩
    · intro hmem
      simp only [Folder.names, List.mem_append, List.mem_singleton] at hmem hq'
      tauto
    · simp only [lookup_append, hq'.2, lookup_cons, if_neg hne]
      rfl

omit [DecidableEq σ] in
theorem createAllSeries_total (compressed : μ → σ) (f : Folder μ σ) (tables : List (String × μ)) (hn : (tables.map Prod.fst).Nodup)
    (h : ∀ p ∈ tables, p.1 ∉ f.names ∧ f.delta.lookup p.1 = none) : ∃ f', createAllSeries compressed f tables = some f' := by
  induction tables generalizing f with
  | nil => exact ⟨f, rfl⟩
  | cons p rest ih =>
    obtain ⟨name, m⟩ := p
    rw [List.map_cons, List.nodup_cons] at hn
    have hp := h (name, m) (List.mem_cons_self ..)
    simp only [createAllSeries, createSeries]
    rw [if_neg (by rw [hp.2]; simp [hp.1]), Option.bind_some]
    refine ih _ hn.2 fun q hq => ?_
    have hq' := h q (List.mem_cons_of_mem _ hq)
    have hne : q.1 ≠ name := fun e => hn.1 (List.mem_map.2 ⟨q, hq, e⟩)
    refine ⟨?_, ?_⟩
    · intro hmem
      simp only [Folder.names, List.map_append, List.mem_append, List.map_cons, List.map_nil, List.mem_singleton] at hmem hq'
      tauto
    · simp only [lookup_append, hq'.2, lookup_cons, if_neg hne]
      rfl

theorem missingNormal_total (l r : Folder μ σ) (names : List String) (hn : names.Nodup)
    (h : ∀ name ∈ names, ∃ s, r.delta.lookup name = some s ∧ ∀ s', l.delta.lookup name = some s' → s = s') :
    ∃ out, missingNormal l r names = some out ∧ (out.map Prod.fst).Nodup := by
  induction names with
  | nil => exact ⟨[], rfl, List.nodup_nil⟩
  | cons name rest ih =>
    rw [List.nodup_cons] at hn
    obtain ⟨out, ho, hd⟩ := ih hn.2 fun n hn => h n (List.mem_cons_of_mem _ hn)
    obtain ⟨s, hs, he⟩ := h name (List.mem_cons_self ..)
    rw [missingNormal, hs]
    cases hl : l.delta.lookup name with
    | some s' => exact ⟨out, by simp [he s' hl, ho], hd⟩
    | none =>
      refine ⟨(name, s) :: out, by simp [ho], ?_⟩
      rw [List.map_cons, List.nodup_cons]
      refine ⟨fun hm => ?_, hd⟩
      obtain ⟨p, hp, he⟩ := List.mem_map.1 hm
      have := ((missingNormal_some l r rest out ho).1 p).1 hp
      have he : p.1 = name := he
      exact hn.1 (he ▸ this.1)

omit [DecidableEq σ] in
theorem missingSeries_total (same : μ → μ → Bool) (l : Folder μ σ) (tables : List (String × μ)) (hn : (tables.map Prod.fst).Nodup)
    (h : ∀ p ∈ tables, ∀ m, l.series.lookup p.1 = some m → same p.2 m = true) :
    ∃ out, missingSeries same l tables = some out ∧ (out.map Prod.fst).Nodup := by
  induction tables with
  | nil => exact ⟨[], rfl, List.nodup_nil⟩
  | cons p rest ih =>
    obtain ⟨name, m⟩ := p
    rw [List.map_cons, List.nodup_cons] at hn
    obtain ⟨out, ho, hd⟩ := ih hn.2 fun n hn => h n (List.mem_cons_of_mem _ hn)
    have he := h (name, m) (List.mem_cons_self ..)
    rw [missingSeries]
    cases hl : l.series.lookup name with
    | some m' => exact ⟨out, by simp [he m' hl, ho], hd⟩
    | none =>
      refine ⟨(name, m) :: out, by simp [ho], ?_⟩
      rw [List.map_cons, List.nodup_cons]
      refine ⟨fun hm => ?_, hd⟩
      obtain ⟨p, hp, he⟩ := List.mem_map.1 hm
      have := ((missingSeries_some same l rest out ho).1 p).1 hp
      exact hn.1 (List.mem_map.2 ⟨p, this.1, he⟩)

/-- **C49**: if the data folders have no interrupted changes and each local table exists in the cluster with the same definition, which compares as
equal to itself, then the node starts. -/
theorem C49_accepts (same : μ → μ → Bool) (compressed : μ → σ) (l r : Folder μ σ) (hl : WellFormed compressed l) (hr : WellFormed compressed r)
    (hsame : ∀ name m, l.series.lookup name = some m → same m m = true) (h : ∀ name d, Defines l name d → Defines r name d) :
    ∃ l', retrieveAndCreate same compressed l r = some l' := by
  have hlnd := (List.nodup_append.1 hl.nodup)
  have hrnd := (List.nodup_append.1 hr.nodup)
  have hmemNormal : ∀ name ∈ l.normal, ∃ s, l.delta.lookup name = some s ∧ r.delta.lookup name = some s ∧ name ∈ r.normal := by
    intro name hn
    obtain ⟨s, hs⟩ := Option.isSome_iff_exists.1 ((hl.delta name).2 (List.mem_append_left _ hn))
    have := h name (.normal s) ⟨hn, hs⟩
    exact ⟨s, hs, this.2, this.1⟩
  have hmemSeries : ∀ name ∈ l.series.map Prod.fst, ∃ m, l.series.lookup name = some m ∧ r.series.lookup name = some m := by
    intro name hn
    obtain ⟨p, hp, rfl⟩ := List.mem_map.1 hn
    obtain ⟨m, hm⟩ := Option.isSome_iff_exists.1 (lookup_isSome_of_mem hp)
    exact ⟨m, hm, h _ (.series m) hm⟩
  have hex : localExistRemotely l r = true := by
    refine List.all_eq_true.2 fun name hn => ?_
    rcases List.mem_append.1 hn with hn | hn
    · obtain ⟨_, _, _, h⟩ := hmemNormal name hn
      exact List.contains_iff_mem.2 (List.mem_append_left _ h)
    · obtain ⟨_, _, h⟩ := hmemSeries name hn
      simpa using mem_names_of_lookup h
  have hlocal : ∀ name ∈ r.normal, name ∈ l.names → name ∈ l.normal := by
    intro name hr' hn
    rcases List.mem_append.1 hn with hn | hn
    · exact hn
    · obtain ⟨m, _, h⟩ := hmemSeries name hn
      rw [not_both hr.nodup hr'] at h
      simp at h
  obtain ⟨normal, hnormal, hnd⟩ := missingNormal_total l r r.normal hrnd.1 (by
    intro name hn
    obtain ⟨s, hs⟩ := Option.isSome_iff_exists.1 ((hr.delta name).2 (List.mem_append_left _ hn))
    refine ⟨s, hs, fun s' hs' => ?_⟩
    have := hlocal name hn ((hl.delta name).1 (by rw [hs']; rfl))
    obtain ⟨s0, h1, h2, _⟩ := hmemNormal name this
    rw [h1] at hs'
    rw [h2] at hs
    injection hs' with hs'
    injection hs with hs
    rw [← hs, hs'])
  obtain ⟨series, hseries, hsd⟩ := missingSeries_total same l r.series hrnd.2.1 (by
    intro p hp m hm
    obtain ⟨m', h1, h2⟩ := hmemSeries p.1 (List.mem_map.2 ⟨_, mem_of_lookup hm, rfl⟩)
    rw [hm] at h1
    injection h1 with h1
    subst h1
    rw [lookup_of_mem hrnd.2.1 hp] at h2
    injection h2 with h2
    rw [h2]
    exact hsame _ _ hm)
  obtain ⟨n1, _⟩ := missingNormal_some l r _ _ hnormal
  obtain ⟨s1, _⟩ := missingSeries_some same l _ _ hseries
  obtain ⟨l1, hl1⟩ := createNormals_total l normal hnd (by
    intro p hp
    have := (n1 p).1 hp
    refine ⟨fun hn => ?_, this.2.2⟩
    have h' := (hl.delta p.1).2 hn
    rw [this.2.2] at h'
    simp at h')
  obtain ⟨a1, a2, a3⟩ := createNormals_some _ _ _ hl1
  obtain ⟨l2, hl2⟩ := createAllSeries_total compressed l1 series hsd (by
    intro p hp
    have hp' := (s1 p).1 hp
    have hnotnormal : p.1 ∉ r.normal := fun hn => by
      have := not_both hr.nodup hn
      rw [lookup_of_mem hrnd.2.1 hp'.1] at this
      simp at this
    have hnotlocal : p.1 ∉ l.names := by
      intro hn
      rcases List.mem_append.1 hn with hn | hn
      · obtain ⟨_, _, _, h⟩ := hmemNormal _ hn
        exact hnotnormal h
      · obtain ⟨m, h, _⟩ := hmemSeries _ hn
        rw [hp'.2] at h
        simp at h
    have hnotnew : p.1 ∉ normal.map Prod.fst := by
      intro hn
      obtain ⟨q, hq, he⟩ := List.mem_map.1 hn
      exact hnotnormal (he ▸ ((n1 q).1 hq).1)
    constructor
    · intro hn
      simp only [Folder.names, a1, a2, List.mem_append] at hn hnotlocal
      tauto
    · rw [a3, lookup_append]
      have h1 : l.delta.lookup p.1 = none := by
        cases hd : l.delta.lookup p.1 with
        | none => rfl
        | some s => exact absurd ((hl.delta p.1).1 (by rw [hd]; rfl)) hnotlocal
      have h2 : normal.lookup p.1 = none := by
        cases hd : normal.lookup p.1 with
        | none => rfl
        | some s => exact absurd (List.mem_map.2 ⟨_, mem_of_lookup hd, rfl⟩) hnotnew
      rw [h1, h2]
      rfl)
  refine ⟨l2, ?_⟩
  simp only [retrieveAndCreate, hex, if_true, hnormal, hseries, hl1, hl2, Option.bind_some]

/-- Schemas are numbers here, and the schema of the segments of a time series table is a hundred more than its metadata. -/
def segments (m : Nat) : Nat := m + 100

/-- A node that has one of the tables of a cluster with three tables starts, and then has all tables. -/
example : WellFormed segments ⟨["a"], [], [("a", 1)]⟩ ∧ WellFormed segments ⟨["a", "b"], [("c", 3)], [("a", 1), ("b", 2), ("c", 103)]⟩ ∧
    (∀ name ∈ ["a", "b"], ∀ m, [("a", 1), ("b", 2), ("c", 103)].lookup name ≠ some (segments m)) ∧
    retrieveAndCreate (fun a b => decide (a = b)) segments ⟨["a"], [], [("a", 1)]⟩ ⟨["a", "b"], [("c", 3)], [("a", 1), ("b", 2), ("c", 103)]⟩ =
      some ⟨["a", "b"], [("c", 3)], [("a", 1), ("b", 2), ("c", 103)]⟩ := by
  refine ⟨⟨by decide, ?_, ?_⟩, ⟨by decide, ?_, ?_⟩, ?_, by decide +kernel⟩
  · intro name
    simp only [Folder.names, lookup_cons]
    by_cases h : name = "a" <;> simp [h]
  · intro name m h; simp at h
  · intro name
    simp only [Folder.names, lookup_cons]
    by_cases h : name = "a" <;> by_cases h' : name = "b" <;> by_cases h'' : name = "c" <;> simp [h, h', h'']
  · intro name m h
    rw [lookup_cons] at h
    by_cases hc : name = "c"
    · subst hc; simp at h; subst h; decide +kernel
    · simp [hc] at h
  · intro name hn m
    simp only [List.mem_cons, List.not_mem_nil, or_false] at hn
    rcases hn with rfl | rfl <;> simp [lookup_cons, segments]

/-- A crash interrupted the creation of the normal table `t` at the node, whose Delta table exists but which is not in the metadata. The node starts
without the table. -/
theorem C49_interrupted :
    retrieveAndCreate (fun a b => decide (a = b)) segments ⟨[], [], [("t", 1)]⟩ ⟨["t"], [], [("t", 1)]⟩ = some ⟨[], [], [("t", 1)]⟩ ∧
      Defines (μ := Nat) ⟨["t"], [], [("t", 1)]⟩ "t" (.normal 1) ∧ "t" ∉ (⟨[], [], [("t", 1)]⟩ : Folder Nat Nat).names :=
  ⟨by decide +kernel, ⟨by decide, by decide +kernel⟩, by decide⟩

/-- A crash interrupted the creation of the time series table `t` at the node. The node does not start. -/
theorem C49_unstartable :
    retrieveAndCreate (fun a b => decide (a = b)) segments ⟨[], [], [("t", 101)]⟩ ⟨[], [("t", 1)], [("t", 101)]⟩ = none := by decide +kernel

/-- The node has a time series table `t` and the cluster a normal table `t` with the schema of the segments. The node starts with its table. -/
theorem C49_kind :
    retrieveAndCreate (fun a b => decide (a = b)) segments ⟨[], [("t", 1)], [("t", 101)]⟩ ⟨["t"], [], [("t", 101)]⟩ =
        some ⟨[], [("t", 1)], [("t", 101)]⟩ ∧
      WellFormed segments ⟨[], [("t", 1)], [("t", 101)]⟩ ∧ WellFormed segments ⟨["t"], [], [("t", 101)]⟩ := by
  refine ⟨by decide +kernel, ⟨by decide, ?_, ?_⟩, ⟨by decide, ?_, nofun⟩⟩
  · intro name
    simp only [Folder.names, lookup_cons]
    by_cases h : name = "t" <;> simp [h]
  · intro name m h
    rw [lookup_cons] at h
    by_cases hc : name = "t"
    · subst hc; simp at h; subst h; decide +kernel
    · simp [hc] at h
  · intro name
    simp only [Folder.names, lookup_cons]
    by_cases h : name = "t" <;> simp [h]

end ModelarDB.Props
