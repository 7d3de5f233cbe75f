import Verif.Spec.OpenFolders
/-
Lemmas for C85.
-/
namespace ModelarDB.Lemmas.OpenFolders
open Model.OpenFolders Spec.OpenFolders

variable {σ : Type} {α : Type}

theorem lookup_snoc (l : List (String × α)) (m n : String) (a : α) :
    (l ++ [(m, a)]).lookup n = (l.lookup n).or (if m = n then some a else none) := by
  induction l with
  | nil =>
    by_cases h : m = n
    · subst h
      simp [List.lookup]
    · have : (n == m) = false := by simp [Ne.symm h]
      simp [List.lookup, this, h]
  | cons x l ih =>
    obtain ⟨k, b⟩ := x
    by_cases h : n = k
    · subst h
      simp [List.lookup]
    · have : (n == k) = false := by simp [h]
      simp [List.lookup, this, ih]

theorem lookup_filter (l : List (String × α)) (m n : String) :
    (l.filter fun x => x.1 ≠ m).lookup n = if n = m then none else l.lookup n := by
  induction l with
  | nil => simp
  | cons x l ih =>
    obtain ⟨k, b⟩ := x
    by_cases hk : k = m
    · subst hk
      rw [List.filter_cons_of_neg (by simp), ih]
      by_cases h : n = k
      · simp [h]
      · have : (n == k) = false := by simp [h]
        simp [List.lookup, this, h]
    · rw [List.filter_cons_of_pos (by simp [hk])]
      by_cases h : n = k
      · subst h
        simp [List.lookup, hk]
      · have : (n == k) = false := by simp [h]
        simp only [List.lookup, this]
        exact ih

theorem lookup_isSome (l : List (String × α)) (n : String) : (l.lookup n).isSome = true ↔ n ∈ l.map Prod.fst := by
  induction l with
  | nil => simp
  | cons x l ih =>
    obtain ⟨k, b⟩ := x
    by_cases h : n = k
    · subst h
      simp [List.lookup]
    · have : (n == k) = false := by simp [h]
      simp only [List.lookup, this, List.map_cons, List.mem_cons, h, false_or]
      exact ih

theorem lookup_mem {l : List (String × α)} {n : String} {a : α} (h : l.lookup n = some a) : (n, a) ∈ l := by
  induction l with
  | nil => cases h
  | cons x l ih =>
    obtain ⟨k, b⟩ := x
    by_cases hk : n = k
    · subst hk
      simp [List.lookup] at h
      simp [h]
    · have hb : (n == k) = false := by simp [hk]
      simp only [List.lookup, hb] at h
      exact List.mem_cons_of_mem _ (ih h)

theorem mem_lookup {l : List (String × α)} (hn : (l.map Prod.fst).Nodup) {n : String} {a : α} (h : (n, a) ∈ l) : l.lookup n = some a := by
  induction l with
  | nil => cases h
  | cons x l ih =>
    obtain ⟨k, b⟩ := x
    rw [List.map_cons, List.nodup_cons] at hn
    rcases List.mem_cons.mp h with h' | h'
    · cases h'
      simp [List.lookup]
    · have hk : n ≠ k := by
        rintro rfl
        exact hn.1 (List.mem_map.mpr ⟨_, h', rfl⟩)
      have hb : (n == k) = false := by simp [hk]
      simp only [List.lookup, hb]
      exact ih hn.2 h'

/-- A data folder contains the tables of a map. -/
structure Contains (disk : Disk σ) (tables : String → Option (Definition σ)) : Prop where
  deltas : ∀ n, disk.deltas.lookup n = (tables n).map fun d => if d.kind = .normal then some d.schema else none
  normal : ∀ n, n ∈ disk.normalRows ↔ ∃ x, tables n = some ⟨.normal, x⟩
  series : ∀ n, disk.seriesRows.lookup n = (tables n).bind fun d => if d.kind = .timeSeries then some d.schema else none
  nodupNormal : disk.normalRows.Nodup
  nodupSeries : (disk.seriesRows.map Prod.fst).Nodup

theorem contains_empty : Contains (⟨[], [], []⟩ : Disk σ) fun _ => none := ⟨by simp, by simp, by simp, by simp, by simp⟩

theorem contains_delta {disk : Disk σ} {t : String → Option (Definition σ)} (h : Contains disk t) (n : String) :
    (disk.deltas.lookup n).isSome = (t n).isSome := by
  rw [h.deltas]
  simp

theorem contains_add {disk : Disk σ} {t : String → Option (Definition σ)} (h : Contains disk t) {name : String} (hn : t name = none)
    (d : Definition σ) : Contains (disk.add name d) fun n => if n = name then some d else t n := by
  obtain ⟨kind, x⟩ := d
  have hser : name ∉ disk.seriesRows.map Prod.fst := by
    rw [← lookup_isSome, h.series, hn]
    simp
  cases kind with
  | normal =>
    refine ⟨fun n => ?_, fun n => ?_, fun n => ?_, ?_, h.nodupSeries⟩
    · simp only [Disk.add]
      rw [lookup_snoc, h.deltas]
      by_cases hc : n = name
      · subst hc
        simp [hn]
      · simp [hc, Ne.symm hc]
    · simp only [Disk.add, List.mem_append, List.mem_singleton]
      rw [h.normal]
      by_cases hc : n = name
      · subst hc
        simp
      · simp [hc]
    · simp only [Disk.add]
      rw [h.series]
      by_cases hc : n = name
      · subst hc
        simp [hn]
      · simp [hc]
    · simp only [Disk.add]
      rw [List.nodup_append]
      refine ⟨h.nodupNormal, by simp, ?_⟩
      intro a ha b hb
      rw [List.mem_singleton] at hb
      subst hb
      rintro rfl
      obtain ⟨y, hy⟩ := (h.normal _).mp ha
      rw [hn] at hy
      cases hy
  | timeSeries =>
    refine ⟨fun n => ?_, fun n => ?_, fun n => ?_, h.nodupNormal, ?_⟩
    · simp only [Disk.add]
      rw [lookup_snoc, h.deltas]
      by_cases hc : n = name
      · subst hc
        simp [hn]
      · simp [hc, Ne.symm hc]
    · simp only [Disk.add]
      rw [h.normal]
      by_cases hc : n = name
      · subst hc
        simp [hn]
      · simp [hc]
    · simp only [Disk.add]
      rw [lookup_snoc, h.series]
      by_cases hc : n = name
      · subst hc
        simp [hn]
      · simp [hc, Ne.symm hc]
    · simp only [Disk.add, List.map_append, List.map_cons, List.map_nil]
      rw [List.nodup_append]
      refine ⟨h.nodupSeries, by simp, ?_⟩
      intro a ha b hb
      rw [List.mem_singleton] at hb
      subst hb
      rintro rfl
      exact hser ha

theorem contains_remove {disk : Disk σ} {t : String → Option (Definition σ)} (h : Contains disk t) (name : String) :
    (t name = none ∧ disk.remove name = none) ∨
    ∃ disk', disk.remove name = some disk' ∧ (t name).isSome = true ∧ Contains disk' fun n => if n = name then none else t n := by
  have hd := h.deltas name
  unfold Disk.remove
  cases ht : t name with
  | none =>
    rw [ht] at hd
    left
    simp [hd]
  | some d =>
    obtain ⟨kind, x⟩ := d
    rw [ht] at hd
    right
    cases kind with
    | normal =>
      simp only [Option.map_some, if_true] at hd
      rw [hd]
      refine ⟨_, rfl, rfl, fun n => ?_, fun n => ?_, fun n => ?_, h.nodupNormal.filter _, h.nodupSeries⟩
      · dsimp only
        rw [lookup_filter, h.deltas]
        by_cases hc : n = name <;> simp [hc]
      · simp only [List.mem_filter, decide_eq_true_eq]
        rw [h.normal]
        by_cases hc : n = name <;> simp [hc]
      · dsimp only
        rw [h.series]
        by_cases hc : n = name
        · subst hc
          simp [ht]
        · simp [hc]
    | timeSeries =>
      simp only [Option.map_some, reduceCtorEq, if_false] at hd
      rw [hd]
      refine ⟨_, rfl, rfl, fun n => ?_, fun n => ?_, fun n => ?_, h.nodupNormal, ?_⟩
      · dsimp only
        rw [lookup_filter, h.deltas]
        by_cases hc : n = name <;> simp [hc]
      · dsimp only
        rw [h.normal]
        by_cases hc : n = name
        · subst hc
          simp [ht]
        · simp [hc]
      · dsimp only
        rw [lookup_filter, h.series]
        by_cases hc : n = name <;> simp [hc]
      · exact (List.filter_sublist.map Prod.fst).nodup h.nodupSeries

theorem registerAll_append {l : List (String × Definition σ)} : ∀ {s : Session σ}, ((s ++ l).map Prod.fst).Nodup → registerAll s l = some (s ++ l) := by
  induction l with
  | nil => intro s _; simp [registerAll]
  | cons x l ih =>
    intro s h
    obtain ⟨n, d⟩ := x
    have hn : (s.lookup n).isSome = false := by
      cases hc : (s.lookup n).isSome with
      | false => rfl
      | true =>
        have := (lookup_isSome s n).mp hc
        rw [List.map_append, List.map_cons, List.nodup_append] at h
        exact absurd rfl (h.2.2 n this n (by simp))
    unfold registerAll register
    rw [hn]
    simp only [Bool.false_eq_true, if_false, Option.bind_some]
    rw [ih (by simpa using h)]
    simp

theorem mapM_some {β γ : Type} {f : β → Option γ} {g : β → γ} {l : List β} (h : ∀ x ∈ l, f x = some (g x)) : l.mapM f = some (l.map g) := by
  induction l with
  | nil => rfl
  | cons x l ih =>
    rw [List.mapM_cons, h x (by simp), ih fun y hy => h y (by simp [hy])]
    rfl

/-- A data folder can be opened and all its tables are registered. -/
theorem openSession_contains {disk : Disk σ} {t : String → Option (Definition σ)} (h : Contains disk t) :
    ∃ s, openSession disk = some s ∧ (s.map Prod.fst).Nodup ∧ ∀ n, s.lookup n = t n := by
  have hkey : ∀ n ∈ disk.normalRows, ∃ x, t n = some ⟨.normal, x⟩ := fun n hn => (h.normal n).mp hn
  have hser : ∀ r ∈ disk.seriesRows, t r.1 = some ⟨.timeSeries, r.2⟩ := by
    intro r hr
    have h1 := mem_lookup h.nodupSeries (show (r.1, r.2) ∈ disk.seriesRows from hr)
    rw [h.series] at h1
    cases ht : t r.1 with
    | none => rw [ht] at h1; cases h1
    | some d =>
      rw [ht] at h1
      obtain ⟨kind, x⟩ := d
      cases kind with
      | normal => simp at h1
      | timeSeries =>
        simp at h1
        rw [h1]
  have hnorm1 : ∀ n ∈ disk.normalRows, normalOf disk n = (t n).map fun d => (n, d) := by
    intro n hn
    obtain ⟨x, hx⟩ := hkey n hn
    unfold normalOf
    rw [h.deltas, hx]
    rfl
  obtain ⟨normal, hm, hfst, hmem⟩ : ∃ normal, disk.normalRows.mapM (normalOf disk) = some normal ∧ normal.map Prod.fst = disk.normalRows ∧
      ∀ p ∈ normal, t p.1 = some p.2 := by
    clear hser
    generalize disk.normalRows = l at hkey hnorm1
    induction l with
    | nil => exact ⟨[], rfl, rfl, by simp⟩
    | cons n l ih =>
      obtain ⟨normal, i1, i2, i3⟩ := ih (fun m hm => hkey m (by simp [hm])) fun m hm => hnorm1 m (by simp [hm])
      obtain ⟨x, hx⟩ := hkey n (by simp)
      refine ⟨(n, ⟨.normal, x⟩) :: normal, ?_, ?_, ?_⟩
      · rw [List.mapM_cons, hnorm1 n (by simp), hx, i1]
        rfl
      · simp [i2]
      · intro p hp
        rcases List.mem_cons.mp hp with rfl | hp
        · exact hx
        · exact i3 p hp
  have hs : disk.seriesRows.mapM (seriesOf disk) = some (disk.seriesRows.map fun r => (r.1, ⟨.timeSeries, r.2⟩)) := by
    refine mapM_some fun r hr => ?_
    unfold seriesOf
    rw [h.deltas, hser r hr]
    rfl
  have hnd : ((normal ++ disk.seriesRows.map fun r => (r.1, (⟨.timeSeries, r.2⟩ : Definition σ))).map Prod.fst).Nodup := by
    rw [List.map_append, hfst, List.map_map]
    refine List.nodup_append.mpr ⟨h.nodupNormal, h.nodupSeries, ?_⟩
    intro a ha b hb
    rintro rfl
    obtain ⟨x, hx⟩ := hkey a ha
    obtain ⟨r, hr, hra⟩ := List.mem_map.mp hb
    have := hser r hr
    rw [show r.1 = a from hra, hx] at this
    cases this
  refine ⟨_, ?_, hnd, fun n => ?_⟩
  · unfold openSession
    rw [hm, hs]
    exact registerAll_append (s := []) hnd
  · cases ht : t n with
    | none =>
      cases hl : List.lookup n (normal ++ disk.seriesRows.map fun r => (r.1, (⟨.timeSeries, r.2⟩ : Definition σ))) with
      | none => rfl
      | some d =>
        rcases List.mem_append.mp (lookup_mem hl) with hp | hp
        · have := hmem _ hp
          rw [ht] at this
          cases this
        · obtain ⟨r, hr, hra⟩ := List.mem_map.mp hp
          have := hser r hr
          injection hra with h1 h2
          rw [h1, ht] at this
          cases this
    | some d =>
      refine mem_lookup hnd (List.mem_append.mpr ?_)
      obtain ⟨kind, x⟩ := d
      cases kind with
      | normal =>
        left
        have : n ∈ normal.map Prod.fst := by
          rw [hfst]
          exact (h.normal n).mpr ⟨x, ht⟩
        obtain ⟨p, hp, hpn⟩ := List.mem_map.mp this
        have hp' := hmem p hp
        rw [hpn, ht] at hp'
        obtain ⟨p1, p2⟩ := p
        cases hpn
        injection hp' with hp'
        rw [hp']
        exact hp
      | timeSeries =>
        right
        refine List.mem_map.mpr ⟨(n, x), lookup_mem ?_, rfl⟩
        rw [h.series, ht]
        rfl

/-- What holds after any events that are possible. -/
structure Inv (role : Nat → Role) (events : List (Event σ)) (st : State σ) : Prop where
  disk : Contains st.disk fun n => existing n events
  closed : ∀ p, isOpen p events = false → st.session p = none
  session : ∀ p, isOpen p events = true → ∃ s, st.session p = some s ∧ (s.map Prod.fst).Nodup ∧
    ∀ n, upToDate p n events = true → s.lookup n = existing n events

theorem upToDate_open {p : Nat} {n : String} {events : List (Event σ)} (h : upToDate p n events = true) : isOpen p events = true := by
  induction events with
  | nil => cases h
  | cons e older ih =>
    cases e with
    | start q =>
      unfold upToDate at h
      unfold isOpen
      by_cases hq : q = p
      · simp [hq]
      · rw [if_neg hq] at h ⊢
        exact ih h
    | stop q =>
      unfold upToDate at h
      unfold isOpen
      by_cases hq : q = p
      · rw [if_pos hq] at h
        cases h
      · rw [if_neg hq] at h ⊢
        exact ih h
    | create q m d =>
      unfold upToDate at h
      split at h
      · cases h
      · exact ih h
    | drop q m =>
      unfold upToDate at h
      split at h
      · cases h
      · exact ih h

theorem contains_congr {disk : Disk σ} {t u : String → Option (Definition σ)} (h : Contains disk t) (e : ∀ n, t n = u n) : Contains disk u := by
  have : t = u := funext e
  exact this ▸ h

theorem existing_create (older : List (Event σ)) (p : Nat) (n m : String) (d : Definition σ) :
    existing m (.create p n d :: older) = if m = n then (existing m older).or (some d) else existing m older := by
  rw [existing]
  by_cases h : n = m
  · simp [h]
  · simp [h, Ne.symm h]

theorem existing_drop (older : List (Event σ)) (p : Nat) (n m : String) :
    existing m (.drop p n :: older) = if m = n then none else existing m older := by
  rw [existing]
  by_cases h : n = m
  · simp [h]
  · simp [h, Ne.symm h]

theorem inv_create {role : Nat → Role} {older : List (Event σ)} {st : State σ} (h : Inv role older st) {p : Nat} {n : String} {d : Definition σ}
    (hopen : isOpen p older = true) (hserver : role p = .server → upToDate p n older = true) :
    Inv role (.create p n d :: older) (step role st (.create p n d)).1 ∧
    (upToDate p n older = true → ((step role st (.create p n d)).2 = true ↔ existing n older = none)) := by
  obtain ⟨s, hs, hnd, hup⟩ := h.session p hopen
  have hdelta := contains_delta h.disk n
  have same : (existing n older).isSome = true → Inv role (.create p n d :: older) st := by
    intro hsome
    have hex : ∀ m, existing m older = existing m (.create p n d :: older) := by
      intro m
      rw [existing_create]
      by_cases hm : m = n
      · subst hm
        obtain ⟨x, hx⟩ := Option.isSome_iff_exists.mp hsome
        simp [hx]
      · simp [hm]
    refine ⟨contains_congr h.disk hex, h.closed, fun q hq => ?_⟩
    obtain ⟨s', k1, k2, k3⟩ := h.session q hq
    refine ⟨s', k1, k2, fun m hm => ?_⟩
    rw [← hex]
    refine k3 m ?_
    unfold upToDate at hm
    split at hm
    · cases hm
    · exact hm
  simp only [step, hs, create]
  by_cases h1 : role p = .server ∧ (s.lookup n).isSome = true
  · rw [if_pos h1]
    have hu := hup n (hserver h1.1)
    rw [hu] at h1
    refine ⟨same h1.2, fun _ => ?_⟩
    constructor
    · intro hc
      cases hc
    · intro hc
      rw [hc] at h1
      cases h1.2
  · rw [if_neg h1]
    by_cases h2 : (st.disk.deltas.lookup n).isSome = true
    · rw [if_pos h2]
      rw [hdelta] at h2
      refine ⟨same h2, fun _ => ?_⟩
      constructor
      · intro hc
        cases hc
      · intro hc
        rw [hc] at h2
        cases h2
    · rw [if_neg h2]
      have hnone : existing n older = none := by
        rw [hdelta] at h2
        exact Option.not_isSome_iff_eq_none.mp h2
      have hex : ∀ m, (if m = n then some d else existing m older) = existing m (.create p n d :: older) := by
        intro m
        rw [existing_create]
        by_cases hm : m = n
        · subst hm
          simp [hnone]
        · simp [hm]
      have hdisk := contains_congr (contains_add h.disk hnone d) hex
      have others : ∀ q, q ≠ p → isOpen q older = true → ∃ s, st.session q = some s ∧ (s.map Prod.fst).Nodup ∧
          ∀ m, upToDate q m (.create p n d :: older) = true → s.lookup m = existing m (.create p n d :: older) := by
        intro q hq ho
        obtain ⟨s', k1, k2, k3⟩ := h.session q ho
        refine ⟨s', k1, k2, fun m hm => ?_⟩
        unfold upToDate at hm
        split at hm
        · cases hm
        · rename_i hc
          rw [← hex, if_neg fun hmn => hc ⟨hmn.symm, hq.symm⟩]
          exact k3 m hm
      cases hr : register s n d with
      | some s' =>
        refine ⟨⟨hdisk, fun q hq => ?_, fun q hq => ?_⟩, fun _ => by simp [hnone]⟩
        · have : q ≠ p := by
            rintro rfl
            exact absurd (hopen.symm.trans hq) (by decide)
          simp only [State.setSession, if_neg this]
          exact h.closed q hq
        · by_cases hqp : q = p
          · subst hqp
            unfold register at hr
            split at hr
            · cases hr
            · rename_i hl
              injection hr with hr
              subst hr
              refine ⟨_, if_pos rfl, ?_, fun m hm => ?_⟩
              · rw [List.map_append, List.nodup_append]
                refine ⟨hnd, by simp, ?_⟩
                intro a ha b hb
                simp only [List.map_cons, List.map_nil, List.mem_singleton] at hb
                subst hb
                rintro rfl
                exact hl ((lookup_isSome s _).mpr ha)
              · rw [lookup_snoc, ← hex]
                by_cases hmn : m = n
                · subst hmn
                  rw [Option.not_isSome_iff_eq_none.mp hl]
                  simp
                · rw [if_neg hmn, if_neg (Ne.symm hmn), Option.or_none]
                  refine hup m ?_
                  unfold upToDate at hm
                  split at hm
                  · cases hm
                  · exact hm
          · obtain ⟨s'', k1, k2, k3⟩ := others q hqp hq
            exact ⟨s'', by simp only [State.setSession, if_neg hqp]; exact k1, k2, k3⟩
      | none =>
        have hl : (s.lookup n).isSome = true := by
          unfold register at hr
          split at hr
          · assumption
          · cases hr
        refine ⟨⟨hdisk, h.closed, fun q hq => ?_⟩, fun hu => ?_⟩
        · by_cases hqp : q = p
          · subst hqp
            refine ⟨s, hs, hnd, fun m hm => ?_⟩
            have hm' : upToDate q m older = true := by
              unfold upToDate at hm
              split at hm
              · cases hm
              · exact hm
            have := hup m hm'
            by_cases hmn : m = n
            · subst hmn
              rw [this, hnone] at hl
              cases hl
            · rw [← hex, if_neg hmn]
              exact this
          · exact others q hqp hq
        · rw [hup n hu, hnone] at hl
          cases hl

theorem inv_drop {role : Nat → Role} {older : List (Event σ)} {st : State σ} (h : Inv role older st) {p : Nat} {n : String}
    (hopen : isOpen p older = true) (hserver : role p = .server → upToDate p n older = true) :
    Inv role (.drop p n :: older) (step role st (.drop p n)).1 ∧
    ((step role st (.drop p n)).2 = true ↔ (existing n older).isSome = true) := by
  obtain ⟨s, hs, hnd, hup⟩ := h.session p hopen
  have others : ∀ q, q ≠ p → isOpen q older = true → ∃ s, st.session q = some s ∧ (s.map Prod.fst).Nodup ∧
      ∀ m, upToDate q m (.drop p n :: older) = true → s.lookup m = existing m (.drop p n :: older) := by
    intro q hq ho
    obtain ⟨s', k1, k2, k3⟩ := h.session q ho
    refine ⟨s', k1, k2, fun m hm => ?_⟩
    unfold upToDate at hm
    split at hm
    · cases hm
    · rename_i hc
      rw [existing_drop, if_neg fun hmn => hc ⟨hmn.symm, hq.symm⟩]
      exact k3 m hm
  have older_of : ∀ m, upToDate p m (.drop p n :: older) = true → upToDate p m older = true := by
    intro m hm
    unfold upToDate at hm
    split at hm
    · cases hm
    · exact hm
  simp only [step, hs, drop]
  by_cases h1 : role p = .server ∧ (s.lookup n).isNone = true
  · rw [if_pos h1]
    have hnone : existing n older = none := by
      rw [← hup n (hserver h1.1)]
      exact Option.isNone_iff_eq_none.mp h1.2
    have hex : ∀ m, existing m older = existing m (.drop p n :: older) := by
      intro m
      rw [existing_drop]
      by_cases hm : m = n
      · subst hm
        simp [hnone]
      · simp [hm]
    refine ⟨⟨contains_congr h.disk hex, h.closed, fun q hq => ?_⟩, by simp [hnone]⟩
    by_cases hqp : q = p
    · subst hqp
      refine ⟨s, hs, hnd, fun m hm => ?_⟩
      rw [← hex]
      exact hup m (older_of m hm)
    · exact others q hqp hq
  · rw [if_neg h1]
    have hsession : ∀ (st' : State σ), st'.session = (st.setSession p (some (s.filter (·.1 ≠ n)))).session →
        (∀ q, isOpen q older = false → st'.session q = none) ∧
        ∀ q, isOpen q older = true → ∃ s, st'.session q = some s ∧ (s.map Prod.fst).Nodup ∧
          ∀ m, upToDate q m (.drop p n :: older) = true → s.lookup m = existing m (.drop p n :: older) := by
      intro st' he
      constructor
      · intro q hq
        have : q ≠ p := by
          rintro rfl
          exact absurd (hopen.symm.trans hq) (by decide)
        rw [he]
        simp only [State.setSession, if_neg this]
        exact h.closed q hq
      · intro q hq
        rw [he]
        by_cases hqp : q = p
        · subst hqp
          refine ⟨_, if_pos rfl, (List.filter_sublist.map Prod.fst).nodup hnd, fun m hm => ?_⟩
          rw [lookup_filter, existing_drop]
          by_cases hmn : m = n
          · simp [hmn]
          · rw [if_neg hmn, if_neg hmn]
            exact hup m (older_of m hm)
        · simp only [State.setSession, if_neg hqp]
          exact others q hqp hq
    rcases contains_remove h.disk n with ⟨hnone, hrem⟩ | ⟨disk', hrem, hsome, hc⟩
    · rw [hrem]
      obtain ⟨k1, k2⟩ := hsession _ rfl
      refine ⟨⟨contains_congr h.disk fun m => ?_, k1, k2⟩, by simp [hnone]⟩
      rw [existing_drop]
      by_cases hm : m = n
      · subst hm
        simp [hnone]
      · simp [hm]
    · rw [hrem]
      obtain ⟨k1, k2⟩ := hsession { st.setSession p (some (s.filter (·.1 ≠ n))) with disk := disk' } rfl
      refine ⟨⟨contains_congr hc fun m => ?_, k1, k2⟩, by simp [hsome]⟩
      rw [existing_drop]

theorem inv_run {role : Nat → Role} {events : List (Event σ)} (h : Possible role events) : Inv role events (run role events) := by
  induction events with
  | nil => exact ⟨contains_empty, fun _ _ => rfl, fun p hp => by cases hp⟩
  | cons e older ih =>
    cases e with
    | start p =>
      have hi := ih h
      obtain ⟨s, hs, hnd, hl⟩ := openSession_contains hi.disk
      simp only [run, step, hs]
      refine ⟨hi.disk, fun q hq => ?_, fun q hq => ?_⟩
      · unfold isOpen at hq
        split at hq
        · cases hq
        · rename_i hne
          simp only [State.setSession, if_neg (Ne.symm hne)]
          exact hi.closed q hq
      · by_cases hqp : q = p
        · subst hqp
          exact ⟨s, by simp only [State.setSession, if_true], hnd, fun m _ => hl m⟩
        · unfold isOpen at hq
          rw [if_neg (Ne.symm hqp)] at hq
          obtain ⟨s', k1, k2, k3⟩ := hi.session q hq
          refine ⟨s', by simp only [State.setSession, if_neg hqp]; exact k1, k2, fun m hm => ?_⟩
          unfold upToDate at hm
          rw [if_neg (Ne.symm hqp)] at hm
          exact k3 m hm
    | stop p =>
      have hi := ih h
      simp only [run, step]
      refine ⟨hi.disk, fun q hq => ?_, fun q hq => ?_⟩
      · by_cases hqp : q = p
        · simp only [State.setSession, if_pos hqp]
        · unfold isOpen at hq
          rw [if_neg (Ne.symm hqp)] at hq
          simp only [State.setSession, if_neg hqp]
          exact hi.closed q hq
      · unfold isOpen at hq
        split at hq
        · cases hq
        · rename_i hne
          obtain ⟨s', k1, k2, k3⟩ := hi.session q hq
          refine ⟨s', by simp only [State.setSession, if_neg (Ne.symm hne)]; exact k1, k2, fun m hm => ?_⟩
          unfold upToDate at hm
          rw [if_neg hne] at hm
          exact k3 m hm
    | create p n d =>
      obtain ⟨h1, h2, h3⟩ := h
      exact (inv_create (ih h1) h2 h3).1
    | drop p n =>
      obtain ⟨h1, h2, h3⟩ := h
      exact (inv_drop (ih h1) h2 h3).1

end ModelarDB.Lemmas.OpenFolders
