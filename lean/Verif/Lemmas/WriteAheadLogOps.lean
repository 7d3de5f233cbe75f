import Verif.Lemmas.WriteAheadLog
/-
The operations of the write-ahead log in terms of the view of its folder.
-/
namespace ModelarDB.Lemmas.Wal
open Model.Wal Spec.Wal

variable {β : Type}

/-- What the log in memory has to do with the folder. -/
structure Running (log : Log) (segs : List (Seg β)) (a : Seg β) (commits : List Nat) : Prop where
  start : log.activeStart = a.1
  next : log.nextBatchId = a.1 + a.2.length
  closed : log.closed = segs.map key
  persisted : ∀ i ∈ log.persisted, i ∈ commits

theorem torn_put (d : Disk β) (n : Name) : ∃ f ∈ d.put ⟨n, false, []⟩, f.schema = false :=
  ⟨⟨n, false, []⟩, by simp [Disk.put], rfl⟩

/-- Closing the active segment. -/
theorem closeActiveSegment_spec {log : Log} {d : Disk β} {segs : List (Seg β)} {a : Seg β} {commits : List Nat}
    (hv : View d segs (some a)) (hr : Running log segs a commits) (hne : a.2 ≠ []) :
    (∃ log' d', (closeActiveSegment log d).result = some (log', d') ∧
      View d' (segs ++ [a]) (some (a.1 + a.2.length, [])) ∧
      Running log' (segs ++ [a]) (a.1 + a.2.length, []) commits ∧ log'.persisted = log.persisted) ∧
    ∀ d' ∈ (closeActiveSegment log d).crashes, View d' (segs ++ [a]) none ∨ ∃ f ∈ d', f.schema = false := by
  have hlen := List.length_pos_iff.mpr hne
  have hk : key a = (log.activeStart, log.nextBatchId - 1) := by rw [hr.start, hr.next]; rfl
  have hren := hv.rename
  rw [hk] at hren
  have hc := hv.close hne
  have hend : ∀ s ∈ segs ++ [a], s.1 + s.2.length ≤ a.1 + a.2.length := by
    intro s hs
    rcases List.mem_append.mp hs with hs | hs
    · have := hv.last a (by simp) s hs
      omega
    · rw [List.mem_singleton.mp hs]; exact Nat.le_refl _
  have hlast : log.nextBatchId - 1 + 1 = a.1 + a.2.length := by rw [hr.next]; omega
  rw [← hr.start] at hren
  unfold closeActiveSegment
  dsimp only at hren ⊢
  rw [hren]
  simp only [createActive]
  rw [hr.start, hlast]
  refine ⟨⟨_, _, rfl, hc.put_active hend, ⟨rfl, by simp, ?_, hr.persisted⟩, rfl⟩, ?_⟩
  · simp only [hr.closed, List.map_append, List.map_cons, List.map_nil, hk, hr.start]
  · intro d' hd'
    simp only [List.mem_cons, List.not_mem_nil, or_false] at hd'
    rcases hd' with rfl | rfl
    · exact Or.inl hc
    · exact Or.inr (torn_put _ _)

theorem writeBatch_spec {log : Log} {d : Disk β} {segs : List (Seg β)} {a : Seg β} {commits : List Nat}
    (hv : View d segs (some a)) (hr : Running log segs a commits) (b : β) :
    ∃ d', writeBatch log d b = some d' ∧ View d' segs (some (a.1, a.2 ++ [b])) := by
  unfold writeBatch
  rw [hr.start, hv.open_active]
  exact ⟨_, rfl, hv.write b⟩

/-- Writing a batch: it is the last batch of the active segment, or of the last closed one. -/
theorem appendAndSync_spec {log : Log} {d : Disk β} {segs : List (Seg β)} {a : Seg β} {commits : List Nat}
    (hv : View d segs (some a)) (hr : Running log segs a commits) (b : β) (size : Nat) :
    (∃ log' d', (appendAndSync log d b size).result = some ((a.1 + a.2.length, log'), d') ∧
      ((View d' segs (some (a.1, a.2 ++ [b])) ∧ Running log' segs (a.1, a.2 ++ [b]) commits) ∨
        (View d' (segs ++ [(a.1, a.2 ++ [b])]) (some (a.1 + a.2.length + 1, [])) ∧
          Running log' (segs ++ [(a.1, a.2 ++ [b])]) (a.1 + a.2.length + 1, []) commits))) ∧
    ∀ d' ∈ (appendAndSync log d b size).crashes,
      View d' segs (some (a.1, a.2 ++ [b])) ∨ View d' (segs ++ [(a.1, a.2 ++ [b])]) none ∨ ∃ f ∈ d', f.schema = false := by
  obtain ⟨d1, hw, hv1⟩ := writeBatch_spec hv hr b
  unfold appendAndSync
  rw [hw]
  dsimp only
  have hr1 : Running { log with nextBatchId := log.nextBatchId + 1, approximateSize := log.approximateSize + size } segs
      (a.1, a.2 ++ [b]) commits := by
    refine ⟨hr.start, ?_, hr.closed, hr.persisted⟩
    simp only [hr.next, List.length_append, List.length_cons, List.length_nil]
    omega
  split
  · obtain ⟨⟨log', d', h1, h2, h3, _⟩, h4⟩ := closeActiveSegment_spec hv1 hr1 (by simp)
    simp only [List.length_append, List.length_cons, List.length_nil, Nat.zero_add, ← Nat.add_assoc] at h2 h3
    refine ⟨⟨log', d', ?_, Or.inr ⟨h2, h3⟩⟩, ?_⟩
    · rw [h1, hr.next]; rfl
    · intro d' hd'
      rcases List.mem_cons.mp hd' with rfl | hd'
      · exact Or.inl hv1
      · exact Or.inr (h4 d' hd')
  · refine ⟨⟨_, d1, by rw [hr.next], Or.inl ⟨hv1, hr1⟩⟩, ?_⟩
    intro d' hd'
    rw [List.mem_singleton.mp hd']
    exact Or.inl hv1

theorem key_start_inj {segs : List (Seg β)} (h : segs.Pairwise fun a b => a.1 < b.1) {s t : Seg β} (hs : s ∈ segs)
    (ht : t ∈ segs) (he : s.1 = t.1) : s = t := by
  by_contra hne
  have hp : segs.Pairwise fun a b => a.1 ≠ b.1 := h.imp fun hab => by omega
  have : Std.Symm fun a b : Seg β => a.1 ≠ b.1 := ⟨fun _ _ h => h.symm⟩
  exact List.Pairwise.forall (R := fun a b : Seg β => a.1 ≠ b.1) hp hs ht hne he

/-- The closed segments that are deleted. -/
def doomed (segs : List (Seg β)) (P : List Nat) : List (Nat × Nat) := (segs.map key).filter (isFullyPersisted P)

theorem mem_doomed {segs : List (Seg β)} {P : List Nat} {s : Seg β} (hs : s ∈ segs) :
    key s ∈ doomed segs P ↔ isFullyPersisted P (key s) = true := by
  unfold doomed
  rw [List.mem_filter]
  exact ⟨fun h => h.2, fun h => ⟨List.mem_map_of_mem hs, h⟩⟩

/-- Recording batches as persisted. -/
theorem mark_spec {log : Log} {d : Disk β} {segs : List (Seg β)} {a : Seg β} {commits : List Nat} {ids : List Nat}
    (hv : View d segs (some a)) (hr : Running log segs a commits) (hids : ∀ i ∈ ids, i ∈ commits) :
    (∃ log' d', (markBatchesAsPersisted log d ids).result = some (log', d') ∧
      View d' (segs.filter fun s => key s ∉ doomed segs (log.persisted ++ ids)) (some a) ∧
      Running log' (segs.filter fun s => key s ∉ doomed segs (log.persisted ++ ids)) a commits ∧
      log'.persisted = (log.persisted ++ ids).filter fun id =>
        !((doomed segs (log.persisted ++ ids)).any fun s => decide (s.1 ≤ id ∧ id ≤ s.2))) ∧
    ∀ d' ∈ (markBatchesAsPersisted log d ids).crashes, ∃ pre, pre <+: doomed segs (log.persisted ++ ids) ∧
      View d' (segs.filter fun s => key s ∉ pre) (some a) := by
  unfold markBatchesAsPersisted
  simp only [hr.closed]
  refine ⟨⟨_, _, rfl, hv.removeAll _, ⟨hr.start, hr.next, ?_, ?_⟩, rfl⟩, fun d' hd' => hv.crash hd'⟩
  · simp only
    rw [List.filter_map]
    congr 1
    refine List.filter_congr fun s hs => ?_
    have := mem_doomed (P := log.persisted ++ ids) hs
    by_cases hf : isFullyPersisted (log.persisted ++ ids) (key s) = true
    · simp [hf, this.mpr hf]
    · have h2 : key s ∉ doomed segs (log.persisted ++ ids) := fun h => hf (this.mp h)
      simp [hf, h2]
  · intro i hi
    have := (List.mem_filter.mp hi).1
    rcases List.mem_append.mp this with h | h
    · exact hr.persisted i h
    · exact hids i h

/-- Segments that are deleted are saved. -/
theorem doomed_saved {d : Disk β} {segs : List (Seg β)} {act : Option (Seg β)} {P commits : List Nat} (hv : View d segs act)
    (hP : ∀ i ∈ P, i ∈ commits) {s : Seg β} (hs : s ∈ segs) (h : key s ∈ doomed segs P) :
    ∀ i, s.1 ≤ i → i < s.1 + s.2.length → i ∈ commits := fun i h1 h2 =>
  hP i ((isFullyPersisted_iff (hv.nonempty s hs)).mp ((mem_doomed hs).mp h) i h1 h2)

/-- Truncation. -/
theorem truncate_spec {log : Log} {d : Disk β} {segs : List (Seg β)} {a : Seg β} {commits : List Nat}
    (hv : View d segs (some a)) (hr : Running log segs a commits) :
    (∃ log' d', (truncate log d).result = some (log', d') ∧ View d' [] (some (a.1 + a.2.length, [])) ∧
      Running log' [] (a.1 + a.2.length, ([] : List β)) commits) ∧
    ∀ d' ∈ (truncate log d).crashes,
      (∃ pre, pre <+: segs.map key ∧ View d' (segs.filter fun s => key s ∉ pre) (some a)) ∨
        View d' [] none ∨ ∃ f ∈ d', f.schema = false := by
  have h1 := hv.removeAll (segs.map key)
  have h2 : (segs.filter fun s => key s ∉ segs.map key) = [] := by
    rw [List.filter_eq_nil_iff]
    intro s hs
    simpa using ⟨s.1, s.2, hs, rfl⟩
  rw [h2] at h1
  have h3 := h1.remove_active
  unfold truncate
  simp only [hr.closed, hr.start, hr.next, createActive]
  refine ⟨⟨_, _, rfl, h3.put_active (by simp), ⟨rfl, by simp, rfl, by simp⟩⟩, ?_⟩
  intro d' hd'
  rcases List.mem_append.mp hd' with hd' | hd'
  · exact Or.inl (hv.crash hd')
  · simp only [List.mem_cons, List.not_mem_nil, or_false] at hd'
    rcases hd' with rfl | rfl
    · exact Or.inr (Or.inl h3)
    · exact Or.inr (Or.inr (torn_put _ _))

theorem View.leftover {d : Disk β} {segs : List (Seg β)} {act : Option (Seg β)} (hv : View d segs act) :
    leftoverActive d = act.map Prod.fst := by
  cases h : leftoverActive d with
  | none =>
    cases act with
    | none => rfl
    | some a =>
      unfold leftoverActive at h
      rw [List.findSome?_eq_none_iff] at h
      have := h (activeFile a) (hv.perm.mem_iff.mpr (by simp [files]))
      simp [activeFile] at this
  | some start =>
    unfold leftoverActive at h
    obtain ⟨f, hf, he⟩ := List.exists_of_findSome?_eq_some h
    have := hv.perm.mem_iff.mp hf
    simp only [files, List.mem_append, List.mem_map] at this
    rcases this with ⟨s, _, rfl⟩ | ⟨s, hs, rfl⟩
    · simp [closedFile] at he
    · rw [Option.mem_toList] at hs
      subst hs
      simp [activeFile] at he
      simp [he]

/-- The segments after the leftover active segment is closed. -/
def withLeftover (segs : List (Seg β)) (act : Option (Seg β)) : List (Seg β) :=
  segs ++ (act.toList.filter fun a => !a.2.isEmpty)

theorem content_withLeftover (segs : List (Seg β)) (act : Option (Seg β)) :
    content (withLeftover segs act) none = content segs act := by
  unfold content withLeftover
  cases act with
  | none => simp
  | some a =>
    obtain ⟨s, bs⟩ := a
    cases bs <;> simp [ids]

theorem closeLeftover_spec {d : Disk β} {segs : List (Seg β)} {act : Option (Seg β)} (hv : View d segs act) :
    ∃ d', (closeLeftover d).result = some (act.map (fun a => a.1 + a.2.length), d') ∧ (closeLeftover d).crashes = [] ∧
      View d' (withLeftover segs act) none := by
  unfold closeLeftover
  rw [hv.leftover]
  cases act with
  | none => exact ⟨d, rfl, rfl, by simpa [withLeftover] using hv⟩
  | some a =>
    obtain ⟨s, bs⟩ := a
    have ho := hv.open_active
    have hread : readBatches d (.active s) = some bs := by
      unfold readBatches
      simp only at ho
      rw [ho]
      rfl
    simp only [Option.map_some]
    rw [hread]
    cases bs with
    | nil =>
      refine ⟨_, rfl, rfl, ?_⟩
      simpa [withLeftover] using hv.remove_active
    | cons b bs =>
      dsimp only
      have := hv.rename
      simp only [key] at this
      rw [this]
      refine ⟨(d.remove (.active s)).put (closedFile (s, b :: bs)), ?_, rfl, ?_⟩
      · simp only [List.length_cons]
        congr 3
      · simpa [withLeftover] using hv.close (by simp)

theorem findClosed_spec {d : Disk β} {segs : List (Seg β)} (hv : View d segs none) :
    ∃ l, findClosedSegments d = some l ∧ l.Perm (segs.map key) := by
  have hall : ∀ f ∈ d, ∃ s ∈ segs, f = closedFile s := by
    intro f hf
    have := hv.perm.mem_iff.mp hf
    simp only [files, Option.toList_none, List.map_nil, List.append_nil, List.mem_map] at this
    obtain ⟨s, hs, rfl⟩ := this
    exact ⟨s, hs, rfl⟩
  let g : File β → Nat × Nat := fun f => match f.name with
    | .closed start last => (start, last)
    | .active _ => (0, 0)
  refine ⟨d.map g, ?_, ?_⟩
  · unfold findClosedSegments
    clear hv
    induction d with
    | nil => rfl
    | cons f d ih =>
      rw [List.mapM_cons, ih fun f hf => hall f (by simp [hf])]
      obtain ⟨s, _, rfl⟩ := hall f (by simp)
      rfl
  · refine (hv.perm.map g).trans (List.Perm.of_eq ?_)
    simp only [files, Option.toList_none, List.map_nil, List.append_nil, List.map_map]
    rfl

theorem insertByStart_perm (s : Nat × Nat) (l : List (Nat × Nat)) : (insertByStart s l).Perm (s :: l) := by
  induction l with
  | nil => exact List.Perm.refl _
  | cons x l ih =>
    unfold insertByStart
    split
    · exact List.Perm.refl _
    · exact (ih.cons x).trans (List.Perm.swap _ _ _)

theorem insertByStart_sorted (s : Nat × Nat) {l : List (Nat × Nat)} (h : l.Pairwise fun a b => a.1 ≤ b.1) :
    (insertByStart s l).Pairwise fun a b => a.1 ≤ b.1 := by
  induction l with
  | nil => simp [insertByStart]
  | cons x l ih =>
    rw [List.pairwise_cons] at h
    unfold insertByStart
    split
    · rename_i hs
      rw [List.pairwise_cons, List.pairwise_cons]
      refine ⟨?_, h⟩
      intro y hy
      rcases List.mem_cons.mp hy with rfl | hy
      · exact hs
      · exact Nat.le_trans hs (h.1 y hy)
    · rename_i hs
      rw [List.pairwise_cons]
      refine ⟨?_, ih h.2⟩
      intro y hy
      rcases List.mem_cons.mp ((insertByStart_perm s l).mem_iff.mp hy) with rfl | hy
      · omega
      · exact h.1 y hy

theorem sortByStart_perm (l : List (Nat × Nat)) : (sortByStart l).Perm l := by
  induction l with
  | nil => exact List.Perm.refl _
  | cons x l ih => exact (insertByStart_perm x _).trans (ih.cons x)

theorem sortByStart_sorted (l : List (Nat × Nat)) : (sortByStart l).Pairwise fun a b => a.1 ≤ b.1 := by
  induction l with
  | nil => exact List.Pairwise.nil
  | cons x l ih => exact insertByStart_sorted x ih

theorem sortByStart_eq {d : Disk β} {segs : List (Seg β)} {act : Option (Seg β)} (hv : View d segs act) {l : List (Nat × Nat)}
    (hl : l.Perm (segs.map key)) : sortByStart l = segs.map key := by
  have hp := (sortByStart_perm l).trans hl
  refine hp.eq_of_pairwise ?_ (sortByStart_sorted l) ((hv.starts.imp fun h => Nat.le_of_lt h).map key fun _ _ h => h)
  intro a b ha hb h1 h2
  obtain ⟨s, hs, rfl⟩ := List.mem_map.mp (hp.mem_iff.mp ha)
  obtain ⟨t, ht, rfl⟩ := List.mem_map.mp hb
  rw [key_start_inj hv.starts hs ht (Nat.le_antisymm h1 h2)]

/-- The next id after the log is opened. -/
def nextOf (segs : List (Seg β)) (act : Option (Seg β)) : Nat :=
  (((withLeftover segs act).getLast?.map fun s => s.1 + s.2.length).or (act.map fun a => a.1 + a.2.length)).getD 0

theorem View.le_last {d : Disk β} {segs : List (Seg β)} {act : Option (Seg β)} (hv : View d segs act) {l : Seg β}
    (hl : segs.getLast? = some l) : ∀ s ∈ segs, s.1 + s.2.length ≤ l.1 + l.2.length := by
  obtain ⟨init, rfl⟩ := List.getLast?_eq_some_iff.mp hl
  intro s hs
  rcases List.mem_append.mp hs with hs | hs
  · have := (List.pairwise_append.mp hv.order).2.2 s hs l (by simp)
    omega
  · rw [List.mem_singleton.mp hs]; exact Nat.le_refl _

theorem tryNew_spec (threshold : Nat) {d : Disk β} {segs : List (Seg β)} {act : Option (Seg β)} (hv : View d segs act) :
    (∃ log' d', (tryNew threshold d).result = some (log', d') ∧
      View d' (withLeftover segs act) (some (nextOf segs act, [])) ∧
      Running log' (withLeftover segs act) (nextOf segs act, ([] : List β)) [] ∧ log'.persisted = []) ∧
    ∀ d' ∈ (tryNew threshold d).crashes, View d' (withLeftover segs act) none ∨ ∃ f ∈ d', f.schema = false := by
  obtain ⟨d1, h1, h2, hv1⟩ := closeLeftover_spec hv
  obtain ⟨l, h3, h4⟩ := findClosed_spec hv1
  have h5 := sortByStart_eq hv1 h4
  have h6 : nextId ((withLeftover segs act).map key) (act.map fun a => a.1 + a.2.length) = nextOf segs act := by
    unfold nextId nextOf
    rw [List.getLast?_map]
    cases hl : (withLeftover segs act).getLast? with
    | none => rfl
    | some s =>
      have hs : s ∈ withLeftover segs act := List.mem_of_getLast? hl
      have := List.length_pos_iff.mpr (hv1.nonempty s hs)
      simp only [Option.map_some, Option.some_or, Option.getD_some, key]
      omega
  have h7 : ∀ s ∈ withLeftover segs act, s.1 + s.2.length ≤ nextOf segs act := by
    intro s hs
    unfold nextOf
    cases hl : (withLeftover segs act).getLast? with
    | none => rw [List.getLast?_eq_none_iff.mp hl] at hs; cases hs
    | some l => simpa using hv1.le_last hl s hs
  unfold tryNew
  simp only [h1, h2, h3, h5, h6, createActive]
  refine ⟨⟨_, _, rfl, hv1.put_active h7, ⟨rfl, rfl, rfl, by simp⟩, rfl⟩, ?_⟩
  intro d' hd'
  simp only [List.nil_append, List.mem_cons, List.not_mem_nil, or_false] at hd'
  rcases hd' with rfl | rfl
  · exact Or.inl hv1
  · exact Or.inr (torn_put _ _)

theorem Running.weaken {log : Log} {segs : List (Seg β)} {a : Seg β} {c c' : List Nat} (h : Running log segs a c)
    (hc : ∀ i ∈ c, i ∈ c') : Running log segs a c' := ⟨h.start, h.next, h.closed, fun i hi => hc i (h.persisted i hi)⟩

/-- Starting the log. -/
theorem restart_spec (threshold : Nat) {d : Disk β} {segs : List (Seg β)} {act : Option (Seg β)} (commits : List Nat)
    (hv : View d segs act) :
    (∃ log' d', (restart threshold d commits).result = some (log', d') ∧
      View d' ((withLeftover segs act).filter fun s => key s ∉ doomed (withLeftover segs act) commits)
        (some (nextOf segs act, [])) ∧
      Running log' ((withLeftover segs act).filter fun s => key s ∉ doomed (withLeftover segs act) commits)
        (nextOf segs act, ([] : List β)) commits ∧
      log'.persisted = commits.filter fun id =>
        !((doomed (withLeftover segs act) commits).any fun s => decide (s.1 ≤ id ∧ id ≤ s.2))) ∧
    ∀ d' ∈ (restart threshold d commits).crashes, View d' (withLeftover segs act) none ∨ (∃ f ∈ d', f.schema = false) ∨
      View d' (withLeftover segs act) (some (nextOf segs act, [])) ∨
      ∃ pre, pre <+: doomed (withLeftover segs act) commits ∧
        View d' ((withLeftover segs act).filter fun s => key s ∉ pre) (some (nextOf segs act, [])) := by
  obtain ⟨⟨log1, d1, h1, hv1, hr1, hp1⟩, hc1⟩ := tryNew_spec threshold hv
  have hm := mark_spec (ids := commits) hv1 (hr1.weaken (c' := commits) (by simp)) (fun _ h => h)
  rw [hp1, List.nil_append] at hm
  obtain ⟨⟨log2, d2, h2, hv2, hr2, hp2⟩, hc2⟩ := hm
  unfold restart
  simp only [h1]
  refine ⟨⟨log2, d2, h2, hv2, hr2, hp2⟩, ?_⟩
  intro d' hd'
  rcases List.mem_append.mp hd' with hd' | hd'
  · rcases hc1 d' hd' with h | h
    · exact Or.inl h
    · exact Or.inr (Or.inl h)
  · rcases List.mem_cons.mp hd' with rfl | hd'
    · exact Or.inr (Or.inr (Or.inl hv1))
    · exact Or.inr (Or.inr (Or.inr (hc2 d' hd')))

theorem mapM_some {α γ : Type} {f : α → Option γ} {g : α → γ} {l : List α} (h : ∀ x ∈ l, f x = some (g x)) :
    l.mapM f = some (l.map g) := by
  induction l with
  | nil => rfl
  | cons x l ih => rw [List.mapM_cons, h x (by simp), ih fun y hy => h y (by simp [hy])]; rfl

/-- The batches in a running log. -/
theorem allBatches_spec {log : Log} {d : Disk β} {segs : List (Seg β)} {a : Seg β} {commits : List Nat}
    (hv : View d segs (some a)) (hr : Running log segs a commits) : allBatches log d = some (content segs (some a)) := by
  have h1 : log.closed.mapM (fun s => (readBatches d (.closed s.1 s.2)).map (zipIds s.1 s.2)) = some (segs.map ids) := by
    rw [hr.closed, List.mapM_map]
    refine mapM_some fun s hs => ?_
    have hlen := List.length_pos_iff.mpr (hv.nonempty s hs)
    simp only [Function.comp, readBatches, hv.open_closed hs]
    simp only [closedFile, if_true, Option.map_some, zipIds, key, ids]
    rw [show s.1 + s.2.length - 1 + 1 - s.1 = s.2.length by omega]
  have h2 : readBatches d (.active log.activeStart) = some a.2 := by
    unfold readBatches
    rw [hr.start, hv.open_active]
    rfl
  unfold allBatches
  rw [h1, h2]
  dsimp only
  obtain ⟨s, bs⟩ := a
  cases bs with
  | nil => simp [content, ids, List.flatMap_def]
  | cons b bs =>
    simp only [List.isEmpty_cons, Bool.false_eq_true, if_false, content, Option.toList_some, List.flatMap_cons, List.flatMap_nil,
      List.append_nil]
    rw [hr.start, hr.next, zipIds, List.flatMap_def]
    simp only [List.length_cons, ids]
    rw [show s + (bs.length + 1) - 1 + 1 - s = bs.length + 1 by omega]

/-- What is replayed. -/
theorem replay_spec (threshold : Nat) {w : World β} {segs : List (Seg β)} {act : Option (Seg β)} (hv : View w.disk segs act) :
    replay threshold w = some ((content segs act).filter fun p => p.1 ∉ w.commits) := by
  obtain ⟨⟨log, d, h1, hv1, hr1, hp1⟩, _⟩ := restart_spec threshold w.commits hv
  unfold replay
  rw [h1]
  simp only [unpersistedBatches, allBatches_spec hv1 hr1, Option.map_some]
  have hd := (closeLeftover_spec hv)
  obtain ⟨d0, _, _, hv0⟩ := hd
  rw [← content_withLeftover segs act, ← content_remove (segs := withLeftover segs act) (q := fun s => decide (key s ∉ doomed (withLeftover segs act) w.commits))]
  · have hact : ∀ (l : List (Seg β)) (n : Nat), content l (some (n, [])) = content l none := by
      intro l n; simp [content, ids]
    rw [hact]
    congr 1
    refine List.filter_congr fun p hp => ?_
    simp only [content, Option.toList_none, List.flatMap_nil, List.append_nil] at hp
    obtain ⟨s, hs, hp⟩ := List.mem_flatMap.mp hp
    obtain ⟨hs, hk⟩ := List.mem_filter.mp hs
    have hk : key s ∉ doomed (withLeftover segs act) w.commits := by simpa using hk
    obtain ⟨hp1', hp2'⟩ := mem_ids hp
    have hiff : p.1 ∈ log.persisted ↔ p.1 ∈ w.commits := by
      rw [hp1, List.mem_filter]
      refine ⟨fun h => h.1, fun h => ⟨h, ?_⟩⟩
      simp only [Bool.not_eq_true', List.any_eq_false, decide_eq_true_eq]
      intro k hkd hle
      obtain ⟨t, ht, rfl⟩ := List.mem_map.mp (List.mem_filter.mp hkd).1
      have hne : s ≠ t := by rintro rfl; exact hk hkd
      have hlt := List.length_pos_iff.mpr (hv0.nonempty t ht)
      simp only [key] at hle
      have hpw : (withLeftover segs act).Pairwise fun a b => a.1 + a.2.length ≤ b.1 ∨ b.1 + b.2.length ≤ a.1 :=
        hv0.order.imp fun h => Or.inl h
      have : Std.Symm fun a b : Seg β => a.1 + a.2.length ≤ b.1 ∨ b.1 + b.2.length ≤ a.1 := ⟨fun _ _ h => h.symm⟩
      have := List.Pairwise.forall (R := fun a b : Seg β => a.1 + a.2.length ≤ b.1 ∨ b.1 + b.2.length ≤ a.1) hpw hs ht hne
      omega
    by_cases hc : p.1 ∈ w.commits
    · simp [hc, hiff.mpr hc]
    · have hc2 : p.1 ∉ log.persisted := fun h => hc (hiff.mp h)
      simp [hc, hc2]
  · intro s hs hq
    exact doomed_saved hv0 (fun _ h => h) hs (by simpa using hq)

end ModelarDB.Lemmas.Wal
