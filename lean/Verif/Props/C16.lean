import Verif.Lemmas.WriteAheadLogHistory
/-
C16: Log files are deleted only when everything in them is saved.
-/
namespace ModelarDB.Props
open Model.Wal Spec.Wal Lemmas.Wal

variable {β : Type}

/-- The file is still there, possibly closed and with more batches. -/
def Kept (f : File β) (d : Disk β) : Prop :=
  ∃ f' ∈ d, f'.schema = true ∧ f.batches <+: f'.batches ∧
    match f.name, f'.name with
    | .active s, .active s' => s' = s
    | .active s, .closed s' last => s' = s ∧ last + 1 = s + f'.batches.length
    | .closed s last, .closed s' last' => s' = s ∧ last' = last ∧ f'.batches = f.batches
    | .closed .., .active _ => False

/-- Every batch in the file is recorded as persisted. -/
def AllSaved (f : File β) (commits : List Nat) : Prop :=
  ∃ start, (f.name = .active start ∨ f.name = .closed start (start + f.batches.length - 1)) ∧
    ∀ k, k < f.batches.length → start + k ∈ commits

/-- What may happen to a file: only closed files, and the leftover file of a log that is not running, are deleted. -/
def Fate (f : File β) (w w' : World β) : Prop :=
  Kept f w'.disk ∨ (AllSaved f w'.commits ∧ ((∃ start, f.name = .active start) → w.log = none))

theorem kept_active {d : Disk β} {segs : List (Seg β)} {a a' : Seg β} (hv : View d segs (some a')) (h1 : a'.1 = a.1)
    (h2 : a.2 <+: a'.2) : Kept (activeFile a) d :=
  ⟨activeFile a', hv.perm.mem_iff.mpr (by simp [files]), rfl, h2, h1⟩

theorem kept_active_closed {d : Disk β} {segs : List (Seg β)} {act : Option (Seg β)} {a a' : Seg β} (hv : View d segs act)
    (hm : a' ∈ segs) (h1 : a'.1 = a.1) (h2 : a.2 <+: a'.2) : Kept (activeFile a) d := by
  refine ⟨closedFile a', hv.perm.mem_iff.mpr ?_, rfl, h2, h1, ?_⟩
  · simp only [files, List.mem_append]
    exact Or.inl (List.mem_map_of_mem hm)
  · have := List.length_pos_iff.mpr (hv.nonempty a' hm)
    simp only [closedFile]
    omega

theorem kept_closed {d : Disk β} {segs : List (Seg β)} {act : Option (Seg β)} {s : Seg β} (hv : View d segs act)
    (hm : s ∈ segs) : Kept (closedFile s) d := by
  refine ⟨closedFile s, hv.perm.mem_iff.mpr ?_, rfl, List.prefix_refl _, rfl, rfl, rfl⟩
  simp only [files, List.mem_append]
  exact Or.inl (List.mem_map_of_mem hm)

theorem allSaved_closed {s : Seg β} {commits : List Nat}
    (h : ∀ i, s.1 ≤ i → i < s.1 + s.2.length → i ∈ commits) : AllSaved (closedFile s) commits :=
  ⟨_, Or.inr rfl, fun k hk => h _ (by omega) (by simp only [closedFile] at hk; omega)⟩

theorem not_active (s : Seg β) {p : Prop} : (∃ start, (closedFile s).name = .active start) → p := by
  rintro ⟨_, h⟩
  cases h

/-- Files after segments are deleted. -/
theorem kept_or_saved {d d' : Disk β} {segs : List (Seg β)} {act act' : Option (Seg β)} {pre : List (Nat × Nat)} {P commits : List Nat}
    (hv : View d segs act) (hv' : View d' (segs.filter fun s => key s ∉ pre) act') (hpre : pre <+: doomed segs P)
    (hP : ∀ i ∈ P, i ∈ commits) {p : Prop} {s : Seg β} (hs : s ∈ segs) :
    Kept (closedFile s) d' ∨ (AllSaved (closedFile s) commits ∧ ((∃ start, (closedFile s).name = .active start) → p)) := by
  by_cases hk : key s ∈ pre
  · exact Or.inr ⟨allSaved_closed (doomed_saved hv hP hs (hpre.subset hk)), not_active s⟩
  · exact Or.inl (kept_closed hv' (List.mem_filter.mpr ⟨hs, by simpa using hk⟩))

/-- The leftover active file is closed and possibly deleted. -/
theorem leftover_kept_or_saved {d d' : Disk β} {segs : List (Seg β)} {act' : Option (Seg β)} {pre : List (Nat × Nat)}
    {commits : List Nat} (hv : View d segs none) (hv' : View d' (segs.filter fun s => key s ∉ pre) act')
    (hpre : pre <+: doomed segs commits) {p : Prop} (hp : p) {a : Seg β} (ha : a ∈ segs) :
    Kept (activeFile a) d' ∨ (AllSaved (activeFile a) commits ∧ ((∃ start, (activeFile a).name = .active start) → p)) := by
  by_cases hk : key a ∈ pre
  · refine Or.inr ⟨⟨a.1, Or.inl rfl, fun k hkl => ?_⟩, fun _ => hp⟩
    exact doomed_saved hv (fun _ h => h) ha (hpre.subset hk) _ (by omega) (by simp only [activeFile] at hkl; omega)
  · exact Or.inl (kept_active_closed hv' (List.mem_filter.mpr ⟨ha, by simpa using hk⟩) rfl (List.prefix_refl _))

/-- C16. In every step of every history, other than a truncation, each file that holds batches is still there
afterwards with all of its batches, or all of its batches are recorded as persisted in the commit history. The
file that is written to is never deleted while the log is running. Also the steps that are interrupted by a crash are covered. As in C15, crashes that leave a file
without schema and appends that fail after writing are excluded. -/
theorem C16_deleted_only_when_saved {cfg : Config} (htorn : cfg.tornCreate = false) (hsync : cfg.failedSync = false)
    {w w' : World β} {op : Op} (h : Reachable cfg w) (hstep : Step cfg op w w') (hop : op ≠ .truncate ∧ op ≠ .truncateCrash)
    (f : File β) (hf : f ∈ w.disk) (hne : f.batches ≠ []) : Fate f w w' := by
  obtain ⟨segs, act, hi⟩ := inv_reachable htorn hsync h
  have hfile := hi.view.perm.mem_iff.mp hf
  simp only [files, List.mem_append, List.mem_map] at hfile
  unfold Fate
  have hid : Kept f w.disk := by
    rcases hfile with ⟨s, hs, rfl⟩ | ⟨a, ha, rfl⟩
    · exact kept_closed hi.view hs
    · rw [Option.mem_toList] at ha
      subst ha
      exact kept_active hi.view rfl (List.prefix_refl _)
  have hwrite : ∀ {log : Log} {d' : Disk β} {segs' act'} (b : β) (a : Seg β), act = some a → View d' segs' act' →
      ((segs' = segs ∧ act' = some (a.1, a.2 ++ [b])) ∨ segs' = segs ++ [(a.1, a.2 ++ [b])]) → Kept f d' := by
    intro log d' segs' act' b a hact hv hcase
    rcases hfile with ⟨s, hs, rfl⟩ | ⟨x, hx, rfl⟩
    · rcases hcase with ⟨rfl, _⟩ | rfl
      · exact kept_closed hv hs
      · exact kept_closed hv (by simp [hs])
    · rw [Option.mem_toList, hact] at hx
      obtain rfl := Option.some.inj hx
      rcases hcase with ⟨rfl, rfl⟩ | rfl
      · exact kept_active hv rfl (List.prefix_append _ _)
      · exact kept_active_closed hv (a' := (a.1, a.2 ++ [b])) (by simp) rfl (List.prefix_append _ _)
  cases hstep with
  | @append _ log log' d' id batch size hlog hres =>
    obtain ⟨a, ha, hr⟩ := hi.running log hlog
    subst ha
    obtain ⟨⟨log1, d1, h1, h2⟩, _⟩ := appendAndSync_spec hi.view hr batch size
    rw [h1] at hres
    obtain ⟨⟨rfl, rfl⟩, rfl⟩ : ((a.1 + a.2.length = id ∧ log1 = log') ∧ d1 = d') := by simpa using hres
    rcases h2 with ⟨hv, _⟩ | ⟨hv, _⟩
    · exact Or.inl (hwrite (log := log) batch a rfl hv (Or.inl ⟨rfl, rfl⟩))
    · exact Or.inl (hwrite (log := log) batch a rfl hv (Or.inr rfl))
  | @appendCrash _ log d' batch size hlog hres hcfg hcfg' =>
    obtain ⟨a, ha, hr⟩ := hi.running log hlog
    subst ha
    obtain ⟨_, h2⟩ := appendAndSync_spec hi.view hr batch size
    rcases h2 d' hres with hv | hv | hv
    · exact Or.inl (hwrite (log := log) batch a rfl hv (Or.inl ⟨rfl, rfl⟩))
    · exact Or.inl (hwrite (log := log) batch a rfl hv (Or.inr rfl))
    · exact absurd hv (not_torn hcfg htorn)
  | @appendFails _ log d' batch hlog hres hcfg => rw [hsync] at hcfg; cases hcfg
  | commit es hes =>
    exact Or.inl hid
  | @mark _ log log' d' ids hlog hids hcfg hres =>
    obtain ⟨a, ha, hr⟩ := hi.running log hlog
    subst ha
    obtain ⟨⟨log1, d1, h1, hv, hr', _⟩, _⟩ := mark_spec hi.view hr hids
    rw [h1] at hres
    obtain ⟨rfl, rfl⟩ : log1 = log' ∧ d1 = d' := by simpa using hres
    rcases hfile with ⟨s, hs, rfl⟩ | ⟨x, hx, rfl⟩
    · refine kept_or_saved hi.view hv (List.prefix_refl _) ?_ hs
      intro i hi'
      rcases List.mem_append.mp hi' with h | h
      · exact hr.persisted i h
      · exact hids i h
    · rw [Option.mem_toList] at hx
      obtain rfl := Option.some.inj hx
      exact Or.inl (kept_active hv rfl (List.prefix_refl _))
  | @markCrash _ log d' ids hlog hids hcfg hres =>
    obtain ⟨a, ha, hr⟩ := hi.running log hlog
    subst ha
    obtain ⟨_, h2⟩ := mark_spec hi.view hr hids
    obtain ⟨pre, hpre, hv⟩ := h2 d' hres
    rcases hfile with ⟨s, hs, rfl⟩ | ⟨x, hx, rfl⟩
    · refine kept_or_saved hi.view hv hpre ?_ hs
      intro i hi'
      rcases List.mem_append.mp hi' with h | h
      · exact hr.persisted i h
      · exact hids i h
    · rw [Option.mem_toList] at hx
      obtain rfl := Option.some.inj hx
      exact Or.inl (kept_active hv rfl (List.prefix_refl _))
  | truncate => exact absurd rfl hop.1
  | truncateCrash => exact absurd rfl hop.2
  | crash => exact Or.inl hid
  | setThreshold => exact Or.inl hid
  | @restart _ log' d' threshold hlog hcfg hres =>
    obtain ⟨d0, _, _, hv0⟩ := closeLeftover_spec hi.view
    obtain ⟨⟨log1, d1, h1, hv, _, _⟩, _⟩ := restart_spec threshold w.commits hi.view
    rw [h1] at hres
    obtain ⟨rfl, rfl⟩ : log1 = log' ∧ d1 = d' := by simpa using hres
    rcases hfile with ⟨s, hs, rfl⟩ | ⟨x, hx, rfl⟩
    · exact kept_or_saved hv0 hv (List.prefix_refl _) (fun _ h => h) (List.mem_append_left _ hs)
    · rw [Option.mem_toList] at hx
      subst hx
      refine leftover_kept_or_saved hv0 hv (List.prefix_refl _) hlog (List.mem_append_right _ ?_)
      simpa [activeFile] using hne
  | @restartCrash _ d' threshold hlog hcfg hres hcfg' =>
    obtain ⟨d0, _, _, hv0⟩ := closeLeftover_spec hi.view
    obtain ⟨_, h2⟩ := restart_spec threshold w.commits hi.view
    have hboth : ∀ {act' : Option (Seg β)} {pre : List (Nat × Nat)}, pre <+: doomed (withLeftover segs act) w.commits →
        View d' ((withLeftover segs act).filter fun s => key s ∉ pre) act' →
        Kept f d' ∨ (AllSaved f w.commits ∧ ((∃ start, f.name = .active start) → w.log = none)) := by
      intro act' pre hpre hv
      rcases hfile with ⟨s, hs, rfl⟩ | ⟨x, hx, rfl⟩
      · exact kept_or_saved hv0 hv hpre (fun _ h => h) (List.mem_append_left _ hs)
      · rw [Option.mem_toList] at hx
        subst hx
        refine leftover_kept_or_saved hv0 hv hpre hlog (List.mem_append_right _ ?_)
        simpa [activeFile] using hne
    have hnil : ∀ l : List (Seg β), (l.filter fun s => key s ∉ ([] : List (Nat × Nat))) = l := by
      intro l
      rw [List.filter_eq_self]
      simp
    rcases h2 d' hres with hv | hv | hv | ⟨pre, hpre, hv⟩
    · exact hboth (pre := []) (List.nil_prefix) (by rw [hnil]; exact hv)
    · exact absurd hv (not_torn hcfg' htorn)
    · exact hboth (pre := []) (List.nil_prefix) (by rw [hnil]; exact hv)
    · exact hboth hpre hv

/-- C16, the file that is written to: whatever the state of the log and the folder and whichever ids are
recorded, persisted-notifications never remove or change an active file, also not if they are interrupted. -/
theorem C16_active_never_removed (log : Log) (d : Disk β) (ids : List Nat) (f : File β) (hf : f ∈ d) {start : Nat}
    (hname : f.name = .active start) :
    (∀ log' d', (markBatchesAsPersisted log d ids).result = some (log', d') → f ∈ d') ∧
      ∀ d' ∈ (markBatchesAsPersisted log d ids).crashes, f ∈ d' := by
  have hall : ∀ K : List (Nat × Nat), f ∈ (removeAll d (K.map fun s => .closed s.1 s.2)).2 := by
    intro K
    rw [removeAll_snd, List.mem_filter]
    exact ⟨hf, by simp [hname]⟩
  constructor
  · intro log' d' h
    simp only [markBatchesAsPersisted, Option.some.injEq, Prod.mk.injEq] at h
    rw [← h.2]
    exact hall _
  · intro d' hd'
    obtain ⟨pre, ⟨t, ht⟩, rfl⟩ := removeAll_crash hd'
    obtain ⟨p, q, _, rfl, _⟩ := List.map_eq_append_iff.mp ht.symm
    exact hall p

/-- C16, exactness of a notification: which closed files it deletes, for any log and folder. -/
theorem C16_notification_exact (log : Log) (d : Disk β) (ids : List Nat) (f : File β) (hf : f ∈ d) {start last : Nat}
    (hname : f.name = .closed start last) :
    (∃ log' d', (markBatchesAsPersisted log d ids).result = some (log', d') ∧
      (f ∈ d' ↔ ¬((start, last) ∈ log.closed ∧ ∀ i, start ≤ i → i ≤ last → i ∈ log.persisted ∨ i ∈ ids))) := by
  refine ⟨_, _, rfl, ?_⟩
  simp only [removeAll_snd, List.mem_filter, hf, true_and, hname, decide_eq_true_eq, List.mem_map, not_exists, not_and]
  have hiff : isFullyPersisted (log.persisted ++ ids) (start, last) = true ↔ ∀ i, start ≤ i → i ≤ last → i ∈ log.persisted ∨ i ∈ ids := by
    unfold isFullyPersisted
    simp only [List.all_eq_true, List.mem_range'_1, List.contains_iff_mem, List.mem_append]
    refine ⟨fun h i h1 h2 => h i ⟨h1, by omega⟩, fun h i hi => h i hi.1 (by omega)⟩
  constructor
  · intro h hc hall
    exact h (start, last) ⟨hc, hiff.mpr hall⟩ rfl
  · rintro h ⟨s, l⟩ ⟨hc, hp⟩ he
    obtain ⟨rfl, rfl⟩ : s = start ∧ l = last := by simpa using he
    exact h hc (hiff.mp hp)

/-- Ids 0, 1 and 3 are recorded: the first file is deleted and the second one kept. -/
example : ((markBatchesAsPersisted (β := String) ⟨4, 4, 0, [(0, 1), (2, 3)], [1], 9⟩
      [⟨.closed 0 1, true, ["a", "b"]⟩, ⟨.closed 2 3, true, ["c", "d"]⟩, ⟨.active 4, true, []⟩] [0, 3]).result.map Prod.snd) =
    some [⟨.closed 2 3, true, ["c", "d"]⟩, ⟨.active 4, true, []⟩] := by decide +kernel

/-- The hypotheses are met in a log with a closed file and an active file. -/
def twoFiles : World String :=
  (execAll World.initial [.restart 10, .append "a" 4, .append "b" 8, .append "c" 1]).get (by decide +kernel)

example : Reachable ⟨false, false, false, false, false⟩ twoFiles ∧
    twoFiles.disk = [⟨.closed 0 1, true, ["a", "b"]⟩, ⟨.active 2, true, ["c"]⟩] :=
  ⟨execAll_reachable (Option.some_get _).symm (by decide +kernel), by decide +kernel⟩

end ModelarDB.Props
