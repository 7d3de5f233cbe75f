import Verif.Lemmas.WriteAheadLogOps
import Mathlib.Data.List.Flatten
/-
The invariant of the write-ahead log.
-/
namespace ModelarDB.Lemmas.Wal
open Model.Wal Spec.Wal

variable {β : Type}

theorem mem_ids_iff {s : Seg β} {p : Nat × β} : p ∈ ids s ↔ ∃ k, s.2[k]? = some p.2 ∧ p.1 = s.1 + k := by
  unfold ids
  rw [List.mem_iff_getElem?]
  constructor
  · rintro ⟨k, hk⟩
    rw [List.getElem?_zip_eq_some] at hk
    refine ⟨k, hk.2, ?_⟩
    have h1 := hk.1
    rw [List.getElem?_eq_some_iff] at h1
    obtain ⟨_, h1⟩ := h1
    rw [List.getElem_range'] at h1
    omega
  · rintro ⟨k, h1, h2⟩
    refine ⟨k, ?_⟩
    rw [List.getElem?_zip_eq_some]
    refine ⟨?_, h1⟩
    obtain ⟨hk, _⟩ := List.getElem?_eq_some_iff.mp h1
    rw [List.getElem?_range' hk]
    simp [h2]

/-- What is stored is what is in the segments. -/
theorem View.stored {d : Disk β} {segs : List (Seg β)} {act : Option (Seg β)} (hv : View d segs act) (p : Nat × β) :
    Stored d p ↔ p ∈ content segs act := by
  unfold Stored content
  rw [List.mem_append, List.mem_flatMap, List.mem_flatMap]
  constructor
  · rintro ⟨f, hf, k, h1, h2⟩
    have := hv.perm.mem_iff.mp hf
    simp only [files, List.mem_append, List.mem_map] at this
    rcases this with ⟨s, hs, rfl⟩ | ⟨s, hs, rfl⟩
    · exact Or.inl ⟨s, hs, mem_ids_iff.mpr ⟨k, h1, h2⟩⟩
    · exact Or.inr ⟨s, hs, mem_ids_iff.mpr ⟨k, h1, h2⟩⟩
  · rintro (⟨s, hs, hp⟩ | ⟨s, hs, hp⟩)
    · obtain ⟨k, h1, h2⟩ := mem_ids_iff.mp hp
      exact ⟨closedFile s, hv.perm.mem_iff.mpr (by
        simp only [files, List.mem_append]; exact Or.inl (List.mem_map_of_mem hs)), k, h1, h2⟩
    · obtain ⟨k, h1, h2⟩ := mem_ids_iff.mp hp
      exact ⟨activeFile s, hv.perm.mem_iff.mpr (by
        simp only [files, List.mem_append]; exact Or.inr (List.mem_map_of_mem hs)), k, h1, h2⟩

theorem filter_mem_sublist {α : Type} [DecidableEq α] {l' l : List α} (h : l'.Sublist l) (hn : l.Nodup) (q : α → Bool)
    (hq : ∀ x, q x = true ↔ x ∈ l') : l.filter q = l' := by
  have h1 : l' = l'.filter q := by
    rw [eq_comm, List.filter_eq_self]
    exact fun x hx => (hq x).mpr hx
  have h2 : l'.Sublist (l.filter q) := by rw [h1]; exact h.filter q
  refine (h2.eq_of_length_le ?_).symm
  refine List.Subperm.length_le (List.subperm_of_subset (hn.filter _) ?_)
  intro x hx
  exact (hq x).mp (List.mem_filter.mp hx).2

/-- The histories in which ids are not reused. -/
def Tidy (cfg : Config) : Prop := cfg.outOfOrder = false ∧ cfg.emptied = false

/-- The next id as implied by the folder. -/
def after (segs : List (Seg β)) (act : Option (Seg β)) : Nat :=
  ((act.map fun a => a.1 + a.2.length).or (segs.getLast?.map fun s => s.1 + s.2.length)).getD 0

/-- The closed segments end where the active one starts. -/
def Adjacent (segs : List (Seg β)) (act : Option (Seg β)) : Prop :=
  ∀ a ∈ act, ∀ s ∈ segs.getLast?, s.1 + s.2.length = a.1

structure Extra (history saved : List (Entry β)) (segs : List (Seg β)) (act : Option (Seg β)) : Prop where
  sorted : history.Pairwise fun a b => a.id < b.id
  below : ∀ e ∈ history, e.id < after segs act
  adjacent : Adjacent segs act

/-- Batches that have not been recorded as persisted. -/
def unsaved (commits : List Nat) (l : List (Nat × β)) : List (Nat × β) := l.filter fun p => p.1 ∉ commits

structure InvAt (cfg : Config) (w : World β) (segs : List (Seg β)) (act : Option (Seg β)) : Prop where
  view : View w.disk segs act
  same : unsaved w.commits (w.live.map Entry.pair) = unsaved w.commits (content segs act)
  running : ∀ log, w.log = some log → ∃ a, act = some a ∧ Running log segs a w.commits
  acked : cfg.crashInAppend = false → ∀ e ∈ w.history, e.acked = true
  sublist : w.live.Sublist w.history
  commits : w.commits = w.saved.map Entry.id
  saved : ∀ e ∈ w.saved, e ∈ w.history
  extra : Tidy cfg → Extra w.history w.saved segs act

def Inv (cfg : Config) (w : World β) : Prop := ∃ segs act, InvAt cfg w segs act

theorem inv_initial (cfg : Config) : Inv cfg (World.initial : World β) :=
  ⟨[], none, ⟨List.Perm.refl _, List.Pairwise.nil, by simp, by simp⟩, rfl, by simp [World.initial], by simp [World.initial],
    by simp [World.initial], rfl, by simp [World.initial], fun _ => ⟨by simp [World.initial], by simp [World.initial], by simp [Adjacent]⟩⟩

/-- The last segment that is kept is the last segment. -/
theorem getLast?_filter {α : Type} {l : List α} {q : α → Bool} (h : ∀ x ∈ l.getLast?, ∀ y ∈ l, q y = true → q x = true) :
    ∀ s ∈ (l.filter q).getLast?, s ∈ l.getLast? := by
  intro s hs
  cases hl : l.getLast? with
  | none =>
    rw [List.getLast?_eq_none_iff.mp hl] at hs
    simp at hs
  | some x =>
    have hsm := List.mem_filter.mp (List.mem_of_getLast? hs)
    have hx := h x hl s hsm.1 hsm.2
    obtain ⟨init, rfl⟩ := List.getLast?_eq_some_iff.mp hl
    rw [List.filter_append, List.filter_cons_of_pos (by exact hx), List.filter_nil, List.getLast?_concat] at hs
    exact hs

theorem View.start_le_last {d : Disk β} {segs : List (Seg β)} {act : Option (Seg β)} (hv : View d segs act) {l s : Seg β}
    (hl : segs.getLast? = some l) (hs : s ∈ segs) : s = l ∨ s.1 < l.1 := by
  obtain ⟨init, rfl⟩ := List.getLast?_eq_some_iff.mp hl
  rcases List.mem_append.mp hs with hs | hs
  · exact Or.inr ((List.pairwise_append.mp hv.starts).2.2 s hs l (by simp))
  · exact Or.inl (List.mem_singleton.mp hs)

theorem adjacent_filter {segs : List (Seg β)} {act : Option (Seg β)} {q : Seg β → Bool} (ha : Adjacent segs act)
    (h : ∀ x ∈ segs.getLast?, ∀ y ∈ segs, q y = true → q x = true) : Adjacent (segs.filter q) act :=
  fun a haa s hs => ha a haa s (getLast?_filter h s hs)

/-- In orderly histories the newest segment is deleted last. -/
theorem adjacent_doomed {d : Disk β} {segs : List (Seg β)} {a : Seg β} {P : List Nat} (hv : View d segs (some a))
    (ha : Adjacent segs (some a))
    (ho : ∀ s ∈ segs.map key, ∀ t ∈ segs.map key, s.1 < t.1 → isFullyPersisted P t = true → isFullyPersisted P s = true)
    {pre : List (Nat × Nat)} (hpre : pre <+: doomed segs P) : Adjacent (segs.filter fun s => key s ∉ pre) (some a) := by
  refine adjacent_filter ha fun x hx y hy hq => ?_
  simp only [decide_eq_true_eq] at hq ⊢
  intro hxp
  obtain ⟨rest, hrest⟩ := hpre
  have hxs := List.mem_of_getLast? hx
  have hxd : key x ∈ doomed segs P := by rw [← hrest]; simp [hxp]
  rcases hv.start_le_last hx hy with rfl | hlt
  · exact hq hxp
  · have hyf := ho (key y) (List.mem_map_of_mem hy) (key x) (List.mem_map_of_mem hxs) hlt ((mem_doomed hxs).mp hxd)
    have hyd := (mem_doomed (P := P) hy).mpr hyf
    rw [← hrest] at hyd
    rcases List.mem_append.mp hyd with h | h
    · exact hq h
    · have hsorted : (doomed segs P).Pairwise fun a b => a.1 < b.1 :=
        (List.Pairwise.map key (fun _ _ h => h) hv.starts).filter _
      rw [← hrest] at hsorted
      have := (List.pairwise_append.mp hsorted).2.2 _ hxp _ h
      simp only [key] at this
      omega

/-- Deleting segments from the oldest on. -/
theorem adjacent_prefix {d : Disk β} {segs : List (Seg β)} {a : Seg β} (hv : View d segs (some a))
    (ha : Adjacent segs (some a)) {pre : List (Nat × Nat)} (hpre : pre <+: segs.map key) :
    Adjacent (segs.filter fun s => key s ∉ pre) (some a) := by
  refine adjacent_filter ha fun x hx y hy hq => ?_
  simp only [decide_eq_true_eq] at hq ⊢
  intro hxp
  obtain ⟨rest, hrest⟩ := hpre
  rcases hv.start_le_last hx hy with rfl | hlt
  · exact hq hxp
  · have hyd : key y ∈ segs.map key := List.mem_map_of_mem hy
    rw [← hrest] at hyd
    rcases List.mem_append.mp hyd with h | h
    · exact hq h
    · have hsorted : (segs.map key).Pairwise fun a b => a.1 < b.1 := List.Pairwise.map key (fun _ _ h => h) hv.starts
      rw [← hrest] at hsorted
      have := (List.pairwise_append.mp hsorted).2.2 _ hxp _ h
      simp only [key] at this
      omega

theorem after_some (segs : List (Seg β)) (a : Seg β) : after segs (some a) = a.1 + a.2.length := rfl

theorem content_write (segs : List (Seg β)) (a : Seg β) (b : β) :
    content segs (some (a.1, a.2 ++ [b])) = content segs (some a) ++ [(a.1 + a.2.length, b)] := by
  simp only [content, Option.toList_some, List.flatMap_cons, List.flatMap_nil, List.append_nil, List.append_assoc, ids,
    List.length_append, List.length_cons, List.length_nil, Nat.zero_add]
  rw [List.range'_append_1.symm, List.zip_append (by simp)]
  simp

theorem content_close (segs : List (Seg β)) (a : Seg β) : content (segs ++ [a]) none = content segs (some a) := by
  simp [content]

theorem content_empty (segs : List (Seg β)) (n : Nat) : content segs (some (n, [])) = content segs none := by
  simp [content, ids]

theorem unsaved_append (commits : List Nat) (a b : List (Nat × β)) :
    unsaved commits (a ++ b) = unsaved commits a ++ unsaved commits b := List.filter_append ..

theorem getLast?_append_one {α : Type} (l : List α) (x : α) : (l ++ [x]).getLast? = some x := by simp

/-- A new batch. -/
theorem InvAt.extend {cfg : Config} {w : World β} {segs : List (Seg β)} {a : Seg β} (h : InvAt cfg w segs (some a))
    (b : β) (ack : Bool) (hack : cfg.crashInAppend = false → ack = true) {d' : Disk β} {log' : Option Log}
    {segs' : List (Seg β)} {act' : Option (Seg β)}
    (hv : View d' segs' act') (hc : content segs' act' = content segs (some (a.1, a.2 ++ [b])))
    (hafter : after segs' act' = a.1 + a.2.length + 1)
    (hadj : Adjacent segs (some a) → Adjacent segs' act')
    (hrun : ∀ log, log' = some log → ∃ a', act' = some a' ∧ Running log segs' a' w.commits) :
    Inv cfg { w with
      disk := d', log := log', live := w.live ++ [⟨a.1 + a.2.length, b, ack⟩],
      history := w.history ++ [⟨a.1 + a.2.length, b, ack⟩] } := by
  refine ⟨segs', act', hv, ?_, hrun, ?_, h.sublist.append (List.Sublist.refl _), h.commits,
    fun e he => List.mem_append_left _ (h.saved e he), fun ht => ⟨?_, ?_, hadj (h.extra ht).adjacent⟩⟩
  · simp only
    rw [hc, content_write, List.map_append, unsaved_append, unsaved_append, h.same]
    rfl
  · intro hcfg e he
    rcases List.mem_append.mp he with he | he
    · exact h.acked hcfg e he
    · rw [List.mem_singleton.mp he]; exact hack hcfg
  · rw [List.pairwise_append]
    refine ⟨(h.extra ht).sorted, by simp, ?_⟩
    intro x hx y hy
    rw [List.mem_singleton.mp hy]
    exact (h.extra ht).below x hx
  · intro e he
    rw [hafter]
    rcases List.mem_append.mp he with he | he
    · have := (h.extra ht).below e he
      rw [after_some] at this
      omega
    · rw [List.mem_singleton.mp he]; simp

/-- Saved segments are deleted. -/
theorem InvAt.shrink {cfg : Config} {w : World β} {segs : List (Seg β)} {act : Option (Seg β)} (h : InvAt cfg w segs act)
    {d' : Disk β} {log' : Option Log} {segs' : List (Seg β)} {act' : Option (Seg β)} (hv : View d' segs' act')
    (hc : unsaved w.commits (content segs' act') = unsaved w.commits (content segs act))
    (hex : Tidy cfg → after segs act ≤ after segs' act' ∧ Adjacent segs' act')
    (hrun : ∀ log, log' = some log → ∃ a', act' = some a' ∧ Running log segs' a' w.commits) :
    Inv cfg { w with disk := d', log := log' } :=
  ⟨segs', act', hv, by simp only; rw [hc]; exact h.same, hrun, h.acked, h.sublist, h.commits, h.saved, fun ht =>
    ⟨(h.extra ht).sorted, fun e he => Nat.lt_of_lt_of_le ((h.extra ht).below e he) (hex ht).1, (hex ht).2⟩⟩

theorem not_torn {cfg : Config} {d : Disk β} (hcfg : cfg.allows d) (ht : cfg.tornCreate = false) :
    ¬∃ f ∈ d, f.schema = false := by
  rintro ⟨f, hf, hs⟩
  rcases hcfg.1 with h | h
  · rw [ht] at h; cases h
  · rw [h f hf] at hs; cases hs

theorem not_emptied {cfg : Config} {d : Disk β} (hcfg : cfg.allows d) (ht : Tidy cfg) {segs : List (Seg β)}
    (hv : View d segs none) : segs ≠ [] := by
  rintro rfl
  have : d = [] := hv.perm.eq_nil
  rcases hcfg.2 with h | h
  · rw [ht.2] at h; cases h
  · exact h this

theorem unsaved_unsaved {commits more : List Nat} {l : List (Nat × β)} :
    unsaved (commits ++ more) l = unsaved more (unsaved commits l) := by
  unfold unsaved
  rw [List.filter_filter]
  refine List.filter_congr fun p _ => ?_
  simp [not_or, Bool.and_comm]

/-- The next id after a restart. -/
theorem nextOf_eq {d : Disk β} {segs : List (Seg β)} {act : Option (Seg β)} (hv : View d segs act) (ha : Adjacent segs act) :
    nextOf segs act = after segs act := by
  unfold nextOf after withLeftover
  cases act with
  | none => simp
  | some a =>
    obtain ⟨s, bs⟩ := a
    cases bs with
    | cons b bs => simp
    | nil =>
      simp only [Option.toList_some, List.isEmpty_nil, Bool.not_true, Bool.false_eq_true, not_false_eq_true,
        List.filter_cons_of_neg, List.filter_nil, List.append_nil, Option.map_some, List.length_nil, Nat.add_zero, Option.some_or]
      cases hl : segs.getLast? with
      | none => rfl
      | some l => simpa using ha (s, []) (by simp) l (by simp [hl])

theorem after_withLeftover {d : Disk β} {segs : List (Seg β)} {act : Option (Seg β)} (hv : View d segs act) (ha : Adjacent segs act)
    (hne : withLeftover segs act ≠ []) : after (withLeftover segs act) none = after segs act := by
  rw [← nextOf_eq hv ha]
  unfold after nextOf
  cases hl : (withLeftover segs act).getLast? with
  | none => exact absurd (List.getLast?_eq_none_iff.mp hl) hne
  | some l => rfl

theorem adjacent_next {segs : List (Seg β)} {act : Option (Seg β)} :
    Adjacent (withLeftover segs act) (some (nextOf segs act, [])) := by
  intro a ha s hs
  obtain rfl := (Option.mem_some_iff.mp ha).symm
  unfold nextOf
  rw [Option.mem_def.mp hs]
  rfl

/-- The invariant is kept. -/
theorem inv_step {cfg : Config} (htorn : cfg.tornCreate = false) (hsync : cfg.failedSync = false) {op : Op} {w w' : World β}
    (h : Inv cfg w) (hs : Step cfg op w w') : Inv cfg w' := by
  obtain ⟨segs, act, h⟩ := h
  cases hs with
  | @append _ log log' d' id batch size hlog hres =>
    obtain ⟨a, rfl, hr⟩ := h.running log hlog
    obtain ⟨⟨log1, d1, h1, h2⟩, _⟩ := appendAndSync_spec h.view hr batch size
    rw [h1] at hres
    obtain ⟨⟨rfl, rfl⟩, rfl⟩ : ((a.1 + a.2.length = id ∧ log1 = log') ∧ d1 = d') := by simpa using hres
    rcases h2 with ⟨hv, hr'⟩ | ⟨hv, hr'⟩
    · refine h.extend batch true (fun _ => rfl) hv rfl ?_ (fun ha => ?_) (fun log hl => ?_)
      · simp [after_some, Nat.add_assoc]
      · intro x hx s hs
        obtain rfl := (Option.mem_some_iff.mp hx).symm
        exact ha a (by simp) s hs
      · obtain rfl := Option.some.inj hl
        exact ⟨_, rfl, hr'⟩
    · refine h.extend batch true (fun _ => rfl) hv ?_ rfl (fun ha => ?_) (fun log hl => ?_)
      · rw [content_empty, content_close]
      · intro x hx s hs
        obtain rfl := (Option.mem_some_iff.mp hx).symm
        rw [getLast?_append_one] at hs
        obtain rfl := (Option.mem_some_iff.mp hs).symm
        simp [Nat.add_assoc]
      · obtain rfl := Option.some.inj hl
        exact ⟨_, rfl, hr'⟩
  | @appendCrash _ log d' batch size hlog hres hcfg hcfg' =>
    obtain ⟨a, rfl, hr⟩ := h.running log hlog
    obtain ⟨_, h2⟩ := appendAndSync_spec h.view hr batch size
    rw [hr.next]
    rcases h2 d' hres with hv | hv | hv
    · refine h.extend batch false (fun h => by rw [h] at hcfg'; cases hcfg') hv rfl ?_ (fun ha => ?_) (fun log hl => by cases hl)
      · simp [after_some, Nat.add_assoc]
      · intro x hx s hs
        obtain rfl := (Option.mem_some_iff.mp hx).symm
        exact ha a (by simp) s hs
    · refine h.extend batch false (fun h => by rw [h] at hcfg'; cases hcfg') hv (content_close _ _) ?_ (fun ha => ?_)
        (fun log hl => by cases hl)
      · simp [after, Nat.add_assoc]
      · intro x hx; cases hx
    · exact absurd hv (not_torn hcfg htorn)
  | @appendFails _ log d' batch hlog hres hcfg => rw [hsync] at hcfg; cases hcfg
  | commit es hes =>
    refine ⟨segs, act, h.view, ?_, ?_, h.acked, h.sublist, ?_, ?_, fun ht => ⟨(h.extra ht).sorted, (h.extra ht).below, (h.extra ht).adjacent⟩⟩
    · simp only
      rw [unsaved_unsaved, unsaved_unsaved, h.same]
    · intro log hlog
      obtain ⟨a, ha, hr⟩ := h.running log hlog
      exact ⟨a, ha, hr.weaken fun i hi => List.mem_append_left _ hi⟩
    · simp [h.commits]
    · intro e he
      rcases List.mem_append.mp he with he | he
      · exact h.saved e he
      · exact hes e he
  | @mark _ log log' d' ids hlog hids hcfg hres =>
    obtain ⟨a, rfl, hr⟩ := h.running log hlog
    obtain ⟨⟨log1, d1, h1, hv, hr', _⟩, _⟩ := mark_spec h.view hr hids
    rw [h1] at hres
    obtain ⟨rfl, rfl⟩ : log1 = log' ∧ d1 = d' := by simpa using hres
    refine h.shrink hv (content_remove fun s hs hq => ?_) (fun ht => ⟨Nat.le_refl _, ?_⟩) (fun log hl => ?_)
    · refine doomed_saved h.view (P := log.persisted ++ ids) ?_ hs (by simpa using hq)
      intro i hi
      rcases List.mem_append.mp hi with hi | hi
      · exact hr.persisted i hi
      · exact hids i hi
    · refine adjacent_doomed h.view (h.extra ht).adjacent (P := log.persisted ++ ids) ?_ (List.prefix_refl _)
      rcases hcfg with hcfg | hcfg
      · rw [ht.1] at hcfg; cases hcfg
      · rw [← hr.closed]; exact hcfg
    · obtain rfl := Option.some.inj hl
      exact ⟨_, rfl, hr'⟩
  | @markCrash _ log d' ids hlog hids hcfg hres =>
    obtain ⟨a, rfl, hr⟩ := h.running log hlog
    obtain ⟨_, h2⟩ := mark_spec h.view hr hids
    obtain ⟨pre, hpre, hv⟩ := h2 d' hres
    refine h.shrink hv (content_remove fun s hs hq => ?_) (fun ht => ⟨Nat.le_refl _, ?_⟩) (fun log hl => by cases hl)
    · refine doomed_saved h.view (P := log.persisted ++ ids) ?_ hs (hpre.subset (by simpa using hq))
      intro i hi
      rcases List.mem_append.mp hi with hi | hi
      · exact hr.persisted i hi
      · exact hids i hi
    · refine adjacent_doomed h.view (h.extra ht).adjacent (P := log.persisted ++ ids) ?_ hpre
      rcases hcfg with hcfg | hcfg
      · rw [ht.1] at hcfg; cases hcfg
      · rw [← hr.closed]; exact hcfg
  | @truncate _ log log' d' hlog hres =>
    obtain ⟨a, rfl, hr⟩ := h.running log hlog
    obtain ⟨⟨log1, d1, h1, hv, hr'⟩, _⟩ := truncate_spec h.view hr
    rw [h1] at hres
    obtain ⟨rfl, rfl⟩ : log1 = log' ∧ d1 = d' := by simpa using hres
    refine ⟨[], some (a.1 + a.2.length, []), hv, ?_, ?_, h.acked, by simp, h.commits, h.saved, fun ht => ⟨(h.extra ht).sorted, ?_, ?_⟩⟩
    · simp [content, ids, unsaved]
    · intro log hl
      obtain rfl := Option.some.inj hl
      exact ⟨_, rfl, hr'⟩
    · intro e he
      exact (h.extra ht).below e he
    · intro a ha s hs
      simp at hs
  | @truncateCrash _ log d' hlog hres hcfg =>
    obtain ⟨a, rfl, hr⟩ := h.running log hlog
    obtain ⟨_, h2⟩ := truncate_spec h.view hr
    have key1 : ∀ segs' act', View d' segs' act' → (content segs' act').Sublist (content segs (some a)) →
        (Tidy cfg → after segs (some a) ≤ after segs' act' ∧ Adjacent segs' act') → Inv cfg { w with
          disk := d', log := none, live := w.live.filter fun e => @decide _ (Classical.propDecidable (Stored d' e.pair)) } := by
      classical
      intro segs' act' hv hsub hex
      refine ⟨segs', act', hv, ?_, fun log hl => (by cases hl), h.acked, List.filter_sublist.trans h.sublist, h.commits, h.saved,
        fun ht => ⟨(h.extra ht).sorted, fun e he => Nat.lt_of_lt_of_le ((h.extra ht).below e he) (hex ht).1, (hex ht).2⟩⟩
      simp only
      have hmap : ((w.live.filter fun e => @decide _ (Classical.propDecidable (Stored d' e.pair))).map Entry.pair) =
          (w.live.map Entry.pair).filter fun p => @decide _ (Classical.propDecidable (Stored d' p)) := by
        rw [List.filter_map]; rfl
      have hnd : (content segs (some a)).Nodup := h.view.ids_pairwise.imp fun hab e => by rw [e] at hab; omega
      have hf : (content segs (some a)).filter (fun p => @decide _ (Classical.propDecidable (Stored d' p))) = content segs' act' :=
        filter_mem_sublist hsub hnd _ fun x => by
          rw [decide_eq_true_eq]; exact hv.stored x
      rw [hmap, ← hf]
      have hswap : ∀ l : List (Nat × β), unsaved w.commits (l.filter fun p => @decide _ (Classical.propDecidable (Stored d' p))) =
          (unsaved w.commits l).filter fun p => @decide _ (Classical.propDecidable (Stored d' p)) := by
        intro l
        unfold unsaved
        rw [List.filter_filter, List.filter_filter]
        exact List.filter_congr fun _ _ => Bool.and_comm _ _
      rw [hswap, hswap, h.same]
    rcases h2 d' hres with ⟨pre, hpre, hv⟩ | hv | hv
    · refine key1 _ _ hv ?_ fun ht => ⟨Nat.le_refl _, adjacent_prefix h.view (h.extra ht).adjacent hpre⟩
      unfold content
      refine List.Sublist.append ?_ (List.Sublist.refl _)
      exact List.Sublist.flatMap List.filter_sublist _
    · refine key1 _ _ hv (by simp [content]) fun ht => absurd rfl (not_emptied hcfg ht hv)
    · exact absurd hv (not_torn hcfg htorn)
  | crash => exact ⟨segs, act, h.view, h.same, fun log hl => (by cases hl), h.acked, h.sublist, h.commits, h.saved, h.extra⟩
  | @restart _ log' d' threshold hlog hcfg hres =>
    obtain ⟨d0, _, _, hv0⟩ := closeLeftover_spec h.view
    obtain ⟨⟨logt, dt, ht1, hvt, hrt, hpt⟩, _⟩ := tryNew_spec threshold h.view
    obtain ⟨⟨log1, d1, h1, hv, hr', _⟩, _⟩ := restart_spec threshold w.commits h.view
    rw [h1] at hres
    obtain ⟨rfl, rfl⟩ : log1 = log' ∧ d1 = d' := by simpa using hres
    refine h.shrink hv ?_ (fun ht => ⟨?_, ?_⟩) (fun log hl => ?_)
    · rw [← content_withLeftover segs act, content_empty]
      exact content_remove fun s hs hq => doomed_saved hv0 (fun _ h => h) hs (by simpa using hq)
    · rw [← nextOf_eq h.view (h.extra ht).adjacent]
      exact Nat.le_refl _
    · refine adjacent_doomed hvt adjacent_next ?_ (List.prefix_refl _)
      rcases hcfg with hcfg | hcfg
      · rw [ht.1] at hcfg; cases hcfg
      · rw [← hrt.closed]; exact hcfg _ _ ht1
    · obtain rfl := Option.some.inj hl
      exact ⟨_, rfl, hr'⟩
  | @restartCrash _ d' threshold hlog hcfg hres hcfg' =>
    obtain ⟨d0, _, _, hv0⟩ := closeLeftover_spec h.view
    obtain ⟨⟨logt, dt, ht1, hvt, hrt, hpt⟩, _⟩ := tryNew_spec threshold h.view
    obtain ⟨_, h2⟩ := restart_spec threshold w.commits h.view
    have hrun : ∀ (segs' : List (Seg β)) (act' : Option (Seg β)) (log : Log), w.log = some log → ∃ a', act' = some a' ∧ Running log segs' a' w.commits := by
      intro _ _ log hl; rw [hlog] at hl; cases hl
    rcases h2 d' hres with hv | hv | hv | ⟨pre, hpre, hv⟩
    · refine h.shrink hv (by rw [content_withLeftover]) (fun ht => ?_) (hrun _ _)
      have hne := not_emptied hcfg' ht hv
      exact ⟨Nat.le_of_eq (after_withLeftover h.view (h.extra ht).adjacent hne).symm, fun a ha => by cases ha⟩
    · exact absurd hv (not_torn hcfg' htorn)
    · refine h.shrink hv (by rw [content_empty, content_withLeftover]) (fun ht => ⟨?_, adjacent_next⟩) (hrun _ _)
      rw [← nextOf_eq h.view (h.extra ht).adjacent]
      exact Nat.le_refl _
    · refine h.shrink hv ?_ (fun ht => ⟨?_, ?_⟩) (hrun _ _)
      · rw [← content_withLeftover segs act, content_empty]
        exact content_remove fun s hs hq => doomed_saved hv0 (fun _ h => h) hs (hpre.subset (by simpa using hq))
      · rw [← nextOf_eq h.view (h.extra ht).adjacent]
        exact Nat.le_refl _
      · refine adjacent_doomed hvt adjacent_next ?_ hpre
        rcases hcfg with hcfg | hcfg
        · rw [ht.1] at hcfg; cases hcfg
        · rw [← hrt.closed]; exact hcfg _ _ ht1
  | @setThreshold _ log threshold hlog =>
    obtain ⟨a, rfl, hr⟩ := h.running log hlog
    refine ⟨segs, some a, h.view, h.same, fun log hl => ?_, h.acked, h.sublist, h.commits, h.saved, h.extra⟩
    obtain rfl := Option.some.inj hl
    exact ⟨a, rfl, hr.start, hr.next, hr.closed, hr.persisted⟩

theorem inv_steps {cfg : Config} (htorn : cfg.tornCreate = false) (hsync : cfg.failedSync = false) {ops : List Op} {w w' : World β}
    (h : Inv cfg w) (hs : Steps cfg ops w w') : Inv cfg w' := by
  induction hs with
  | refl => exact h
  | tail _ hs ih => exact inv_step htorn hsync (ih h) hs

theorem inv_reachable {cfg : Config} (htorn : cfg.tornCreate = false) (hsync : cfg.failedSync = false) {w : World β}
    (h : Reachable cfg w) : Inv cfg w := by
  obtain ⟨_, hs⟩ := h
  exact inv_steps htorn hsync (inv_initial cfg) hs

end ModelarDB.Lemmas.Wal
