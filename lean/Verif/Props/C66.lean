import Verif.Lemmas.CApi
/-
C66: Errors, pointers and structures are handled as documented by the C-API.

False: closing a pointer can fail without an error, the parameter for the type of the source is also used for the type of the target, the same data folder
cannot be source and target, and who must release exported structures after a failure depends on why the function failed.
-/
namespace ModelarDB.Props
open Model.CApi Spec.CApi Lemmas.CApi

/-- Failing requests report an error. -/
theorem step_failed (s : Process) (t : Nat) (r : Request) (hr : ∀ p d, r ≠ .close p d) (hw : ∀ c, r = .call c → WellTyped c)
    (h : failed (s.step t r).2 = true) : ∃ m, Reports r m ∧ (s.step t r).1.lastError t = some m := by
  cases r with
  | openFolder e => cases e with
    | none => simp [Process.step, failed] at h
    | some e => exact ⟨e, rfl, by simp [Process.step, Process.fail]⟩
  | connect e => cases e with
    | none => simp [Process.step, failed] at h
    | some e => exact ⟨e, rfl, by simp [Process.step, Process.fail]⟩
  | close p d => exact absurd rfl (hr p d)
  | call c =>
    by_cases hu : convert s.boxes c [] (args c.fn) = .undefined
    · simp [Process.step, hu, failed] at h
    · rcases convert_ok s.boxes c (args c.fn) [] hu with ⟨-, hc⟩ | ⟨hf, taken, m, hc, -⟩
      · cases ho : c.operation with
        | none => simp [Process.step, hc, ho, failed] at h
        | some e => exact ⟨e, fun _ => ho, by simp [Process.step, hc, ho, Process.fail]⟩
      · refine ⟨m, fun hfine => absurd ((args_fine c (hw c rfl)).mpr hfine) hf, by simp [Process.step, hc, Process.fail]⟩
  | error => simp [Process.step, failed] at h
  | «export» => simp [Process.step, failed] at h
  | release => simp [Process.step, failed] at h

/-- Requests of other threads and requests that do not fail keep the error of a thread. -/
theorem step_keeps (s : Process) (t u : Nat) (r : Request) (h : u = t → failed (s.step u r).2 = false) : (s.step u r).1.lastError t = s.lastError t := by
  have hf : ∀ (s : Process) m, u ≠ t → (s.fail u m).lastError t = s.lastError t := by
    intro s m hne; simp only [Process.fail]; rw [if_neg]; exact fun h => hne h.symm
  cases r with
  | openFolder e => cases e with
    | none => rfl
    | some e => exact hf _ _ fun hu => by simpa [Process.step, failed] using h hu
  | connect e => cases e with
    | none => rfl
    | some e => exact hf _ _ fun hu => by simpa [Process.step, failed] using h hu
  | close p d => cases p <;> simp only [Process.step]; split <;> rfl
  | call c =>
    simp only [Process.step] at h ⊢
    split <;> rename_i hc
    · rfl
    · rw [hc] at h; exact hf _ _ fun hu => by simpa [failed] using h hu
    · rw [hc] at h
      cases ho : c.operation with
      | none => rfl
      | some e => rw [ho] at h; exact hf _ _ fun hu => by simpa [failed] using h hu
  | error => rfl
  | «export» => rfl
  | release => rfl

theorem run_keeps (s : Process) (t : Nat) (l : List (Nat × Request)) (h : ∀ x ∈ (s.run l).2, x.1 = t → failed x.2.2 = false) :
    (s.run l).1.lastError t = s.lastError t := by
  induction l generalizing s with
  | nil => rfl
  | cons x rest ih =>
    obtain ⟨u, r⟩ := x
    simp only [Process.run, List.mem_cons, forall_eq_or_imp] at h ⊢
    rw [ih _ h.2, step_keeps _ _ _ _ h.1]

theorem step_error (s : Process) (t : Nat) : (s.step t .error).2 = .message (s.lastError t) := rfl

/-- **C66** (partial): after a request failed in a thread, and whatever other threads do, the thread gets the error of that request until another one of its
requests fails: the error of the operation if its arguments can be used. Missing: closing a pointer. -/
theorem C66_error_partial (s : Process) (t : Nat) (r : Request) (hr : ∀ p d, r ≠ .close p d) (hw : ∀ c, r = .call c → WellTyped c)
    (h : failed (s.step t r).2 = true) (later : List (Nat × Request))
    (hl : ∀ x ∈ ((s.step t r).1.run later).2, x.1 = t → failed x.2.2 = false) :
    ∃ m, Reports r m ∧ (((s.step t r).1.run later).1.step t .error).2 = .message (some m) := by
  obtain ⟨m, hm, he⟩ := step_failed s t r hr hw h
  exact ⟨m, hm, by rw [step_error, run_keeps _ _ _ hl, he]⟩

/-- **C66**: a thread gets no error if none of its requests failed. -/
theorem C66_no_error (t : Nat) (l : List (Nat × Request)) (h : ∀ x ∈ (Process.new.run l).2, x.1 = t → failed x.2.2 = false) :
    ((Process.new.run l).1.step t .error).2 = .message none := by
  rw [step_error, run_keeps _ _ _ h]; rfl

/-- **C66** (negation): closing a pointer fails without an error, or with that of another function. -/
theorem C66_close_no_error :
    ((Process.new.run [(0, .close .null true), (0, .error)]).2.map (·.2.2) = [.failure, .message none]) ∧
    ((Process.new.run [(0, .connect (some "Connection refused.")), (0, .close .null false), (0, .error)]).2.map (·.2.2) =
      [.pointer .null, .failure, .message (some "Connection refused.")]) := by decide +kernel

/-- **C66**: a function that is defined succeeds if and only if its arguments can be used and its operation succeeds. Otherwise it fails. -/
theorem C66_succeeds_iff (s : Process) (t : Nat) (c : Call) (hw : WellTyped c) (hd : (s.step t (.call c)).2 ≠ .undefined) :
    ((s.step t (.call c)).2 = .success ↔ Fine c ∧ c.operation = none) ∧ ((s.step t (.call c)).2 = .failure ↔ ¬(Fine c ∧ c.operation = none)) := by
  have hu : convert s.boxes c [] (args c.fn) ≠ .undefined := by
    intro hu; simp [Process.step, hu] at hd
  rcases convert_ok s.boxes c (args c.fn) [] hu with ⟨hf, hc⟩ | ⟨hf, taken, m, hc, -⟩
  · have hfine := (args_fine c hw).mp hf
    cases ho : c.operation <;> simp [Process.step, hc, ho, hfine]
  · have hfine : ¬ Fine c := fun h => hf ((args_fine c hw).mpr h)
    simp [Process.step, hc, hfine]

/-! Pointers. -/

/-- What is allocated stays allocated until it is closed. -/
theorem step_boxes (s : Process) (t : Nat) (r : Request) (a : Nat) (k : Kind) (hc : closes a r = false) (h : (a, k) ∈ s.boxes) :
    (a, k) ∈ (s.step t r).1.boxes := by
  cases r with
  | openFolder e => cases e <;> simp [Process.step, Process.fail, h]
  | connect e => cases e <;> simp [Process.step, Process.fail, h]
  | close p d =>
    cases p with
    | null => simpa [Process.step] using h
    | unaligned => simpa [Process.step] using h
    | address b =>
      simp only [Process.step]
      have hne : a ≠ b := by simpa [closes] using hc
      split
      · simp [h, hne]
      · exact h
  | call c =>
    simp only [Process.step]
    split
    · exact h
    · exact h
    · split <;> exact h
  | error => exact h
  | «export» => exact h
  | release => exact h

theorem run_boxes (s : Process) (l : List (Nat × Request)) (a : Nat) (k : Kind) (hc : ∀ x ∈ (s.run l).2, closes a x.2.1 = false) (h : (a, k) ∈ s.boxes) :
    (a, k) ∈ (s.run l).1.boxes := by
  induction l generalizing s with
  | nil => exact h
  | cons x rest ih =>
    obtain ⟨u, r⟩ := x
    simp only [Process.run, List.mem_cons, forall_eq_or_imp] at hc ⊢
    exact ih _ hc.2 (step_boxes _ _ _ _ _ hc.1 h)

theorem run_append (s : Process) (l l' : List (Nat × Request)) :
    s.run (l ++ l') = (((s.run l).1.run l').1, (s.run l).2 ++ ((s.run l).1.run l').2) := by
  induction l generalizing s with
  | nil => rfl
  | cons x rest ih => obtain ⟨u, r⟩ := x; simp [Process.run, ih]

/-- The trace of a run has its requests in order. -/
theorem run_split (s : Process) (l : List (Nat × Request)) (before : Trace) (x : Nat × Request × Result) (after : Trace)
    (h : (s.run l).2 = before ++ x :: after) :
    ∃ l1 l2, l = l1 ++ (x.1, x.2.1) :: l2 ∧ (s.run l1).2 = before ∧ x.2.2 = ((s.run l1).1.step x.1 x.2.1).2 ∧
      (((s.run l1).1.step x.1 x.2.1).1.run l2).2 = after := by
  induction l generalizing s before with
  | nil => simp [Process.run] at h
  | cons y rest ih =>
    obtain ⟨u, r⟩ := y
    cases before with
    | nil =>
      simp only [Process.run, List.nil_append, List.cons.injEq] at h
      obtain ⟨rfl, h⟩ := h
      exact ⟨[], rest, rfl, rfl, rfl, h⟩
    | cons z before =>
      simp only [Process.run, List.cons_append, List.cons.injEq] at h
      obtain ⟨rfl, h⟩ := h
      obtain ⟨l1, l2, rfl, h1, h2, h3⟩ := ih _ _ h
      exact ⟨(u, r) :: l1, l2, rfl, by simp [Process.run, h1], h2, h3⟩

/-- What is open is allocated. -/
theorem open_boxes (l : List (Nat × Request)) (a : Nat) (k : Kind) (h : Open (Process.new.run l).2 a k) : (a, k) ∈ (Process.new.run l).1.boxes := by
  obtain ⟨before, t, r, after, ht, ho, hc⟩ := h
  obtain ⟨l1, l2, rfl, h1, h2, h3⟩ := run_split _ _ _ _ _ ht
  simp only at h2 h3
  have hm : (a, k) ∈ (((Process.new.run l1).1.step t r).1).boxes := by
    cases r with
    | openFolder e =>
      have hk : k = .dataFolder := by simpa [opens] using ho
      cases e with
      | none => simp only [Process.step, Result.pointer.injEq, Ptr.address.injEq] at h2 ⊢; simp [h2, hk]
      | some e => simp [Process.step] at h2
    | connect e =>
      have hk : k = .client := by simpa [opens] using ho
      cases e with
      | none => simp only [Process.step, Result.pointer.injEq, Ptr.address.injEq] at h2 ⊢; simp [h2, hk]
      | some e => simp [Process.step] at h2
    | _ => simp [opens] at ho
  rw [run_append]
  simp only [Process.run]
  exact run_boxes _ _ _ _ (by rw [h3]; exact hc) hm

theorem said_kindOf (d : Bool) : said d = kindOf d := by cases d <;> rfl

/-- **C66** (partial): no request of a caller that only uses open data folders and clients for which is_data_folder is correct has undefined behaviour.
Missing: a source and target of different types, and the same source and target. -/
theorem C66_defined_partial (l : List (Nat × Request)) (h : Always Proper (Process.new.run l).2) : ∀ x ∈ (Process.new.run l).2, x.2.2 ≠ .undefined := by
  intro x hx
  obtain ⟨before, after, ht⟩ := List.append_of_mem hx
  have hp := h before x after ht
  obtain ⟨l1, l2, rfl, rfl, h2, -⟩ := run_split _ _ _ _ _ ht
  rw [h2]
  obtain ⟨t, r, res⟩ := x
  simp only at hp ⊢
  cases r with
  | openFolder e => cases e <;> simp [Process.step]
  | connect e => cases e <;> simp [Process.step]
  | close p d =>
    cases p with
    | null => simp [Process.step]
    | unaligned => simp [Process.step]
    | address a =>
      have := open_boxes l1 a _ hp
      rw [said_kindOf] at this
      simp [Process.step, this]
  | call c =>
    obtain ⟨hw, hn, hh⟩ := hp
    have hu := convert_defined (Process.new.run l1).1.boxes c hn (fun a ha => by rw [← said_kindOf]; exact open_boxes l1 a _ (hh a ha)) (args c.fn) []
      (args_positions c.fn) (fun x hx i hi => by rw [hw.exported]; exact args_exported c.fn x hx i hi) (by simp)
    simp only [Process.step]
    split
    · rename_i hc; exact absurd hc hu
    · simp
    · split <;> simp
  | error => simp [Process.step]
  | «export» => simp [Process.step]
  | release => simp [Process.step]

/-- **C66** (negation): copying or moving between a data folder and a client has undefined behaviour whatever the caller says. -/
theorem C66_mixed_undefined (s : Process) (t a b : Nat) (k : Kind) (ha : ∀ k', (a, k') ∈ s.boxes → k' = k) (hb : ∀ k', (b, k') ∈ s.boxes → k' ≠ k)
    (c : Call) (hw : WellTyped c) (hf : Fine c) (hh : c.handles = [.address a, .address b]) : (s.step t (.call c)).2 = .undefined := by
  by_contra hd
  have hu : convert s.boxes c [] (args c.fn) ≠ .undefined := by
    intro hu; simp [Process.step, hu] at hd
  have hall := (args_fine c hw).mpr hf
  have h2 := hw.handles
  obtain ⟨fn, d, hs, ts, es, ch, op⟩ := c
  simp only at hh; subst hh
  have contra : ¬ ((a, kindOf d) ∈ s.boxes ∧ (b, kindOf d) ∈ s.boxes) := fun ⟨h1, h2⟩ => hb _ h2 (ha _ h1)
  cases fn <;> simp only [signature, List.length_cons, List.length_nil] at h2 <;> try omega
  all_goals
    simp only [args, List.mem_cons, forall_eq_or_imp, ArgFine] at hall
    obtain ⟨-, h0, -, h1, -⟩ := hall
    by_cases ha' : (a, kindOf d) ∈ s.boxes <;> by_cases hb' : (b, kindOf d) ∈ s.boxes <;>
      simp_all [args, convert]

/-- **C66** (negation): copying or moving within one data folder or client has undefined behaviour. -/
theorem C66_same_undefined (s : Process) (t a : Nat) (c : Call) (hw : WellTyped c) (hf : Fine c) (hh : c.handles = [.address a, .address a]) :
    (s.step t (.call c)).2 = .undefined := by
  by_contra hd
  have hu : convert s.boxes c [] (args c.fn) ≠ .undefined := by
    intro hu; simp [Process.step, hu] at hd
  have hall := (args_fine c hw).mpr hf
  have h2 := hw.handles
  obtain ⟨fn, d, hs, ts, es, ch, op⟩ := c
  simp only at hh; subst hh
  cases fn <;> simp only [signature, List.length_cons, List.length_nil] at h2 <;> try omega
  all_goals
    simp only [args, List.mem_cons, forall_eq_or_imp, ArgFine] at hall
    obtain ⟨-, h0, -, h1, -⟩ := hall
    by_cases ha' : (a, kindOf d) ∈ s.boxes <;> simp_all [args, convert]

/-- A data folder and a client are opened and a query is copied between them. -/
def mixedUse : List (Nat × Request) :=
  [(0, .openFolder none), (0, .connect none), (0, .call ⟨.copy, true, [.address 0, .address 1], [.valid, .valid], [], true, none⟩)]

/-- **C66** (negation): a caller that uses the functions as documented can cause undefined behaviour. -/
theorem C66_documented_undefined : Always Documented (Process.new.run mixedUse).2 ∧ ∃ x ∈ (Process.new.run mixedUse).2, x.2.2 = .undefined := by
  have ht : (Process.new.run mixedUse).2 = [(0, .openFolder none, .pointer (.address 0)), (0, .connect none, .pointer (.address 1)),
      (0, .call ⟨.copy, true, [.address 0, .address 1], [.valid, .valid], [], true, none⟩, .undefined)] := by decide +kernel
  rw [ht]
  refine ⟨?_, _, .tail _ (.tail _ (.head _)), rfl⟩
  intro before x after h
  match before with
  | [] => simp only [List.nil_append, List.cons.injEq] at h; obtain ⟨rfl, -⟩ := h; trivial
  | [_] => simp only [List.cons_append, List.nil_append, List.cons.injEq] at h; obtain ⟨-, rfl, -⟩ := h; trivial
  | [y, z] =>
    simp only [List.cons_append, List.nil_append, List.cons.injEq] at h
    obtain ⟨rfl, rfl, rfl, -⟩ := h
    have h0 : Open [(0, Request.openFolder none, Result.pointer (.address 0)), (0, .connect none, .pointer (.address 1))] 0 .dataFolder :=
      ⟨[], 0, .openFolder none, [(0, .connect none, .pointer (.address 1))], rfl, rfl, by simp [closes]⟩
    have h1 : Open [(0, Request.openFolder none, Result.pointer (.address 0)), (0, .connect none, .pointer (.address 1))] 1 .client :=
      ⟨[(0, .openFolder none, .pointer (.address 0))], 0, .connect none, [], rfl, rfl, by simp⟩
    refine ⟨⟨rfl, rfl, rfl, by simp⟩, ?_, ?_⟩
    · intro a ha; simp at ha; subst ha; exact h0
    · intro a ha; simp at ha
      rcases ha with rfl | rfl
      · exact ⟨_, h0⟩
      · exact ⟨_, h1⟩
  | _ :: _ :: _ :: rest => simp at h

/-! Exported structures. -/

/-- The identifiers of the arrays of a call. -/
def arrayIds (c : Call) : List Nat := (signature c.fn).arrays.filterMap fun i => (c.exported[i]?).map (·.id)

theorem takes_args (c : Call) : takes c (args c.fn) = arrayIds c := by
  obtain ⟨fn, d, hs, ts, es, ch, op⟩ := c
  cases fn <;> simp [takes, arrayIds, args, signature, List.filterMap_cons]

theorem arrayIds_nodup (c : Call) (hw : WellTyped c) : (arrayIds c).Nodup := by
  obtain ⟨-, -, h3, h4⟩ := hw
  obtain ⟨fn, d, hs, ts, es, ch, op⟩ := c
  cases fn <;> simp only [signature] at h3
  all_goals
    rcases es with _ | ⟨e0, _ | ⟨e1, _ | ⟨e2, _ | ⟨e3, es⟩⟩⟩⟩ <;> simp only [List.length_cons, List.length_nil] at h3 <;> try omega
  all_goals simp_all [arrayIds, signature]

/-- What a function releases. -/
theorem released_call (s : Process) (t : Nat) (c : Call) (hd : (s.step t (.call c)).2 ≠ .undefined) :
    ∃ taken : List Nat, taken.Sublist (arrayIds c) ∧ ((s.step t (.call c)).2 = .success → taken = arrayIds c) ∧
      ∀ i, (s.step t (.call c)).1.released i = s.released i + taken.count i := by
  have hu : convert s.boxes c [] (args c.fn) ≠ .undefined := by
    intro hu; simp [Process.step, hu] at hd
  rcases convert_ok s.boxes c (args c.fn) [] hu with ⟨hf, hc⟩ | ⟨hf, taken, m, hc, hs⟩
  · refine ⟨takes c (args c.fn), by rw [takes_args], fun _ => takes_args c, fun i => ?_⟩
    cases ho : c.operation <;> simp [Process.step, hc, ho, Process.take, Process.fail]
  · refine ⟨taken, by rw [← takes_args]; exact hs, ?_, fun i => ?_⟩
    · simp [Process.step, hc]
    · simp [Process.step, hc, Process.take, Process.fail]

/-- **C66**: a function releases each array it is given at most once, and nothing else, whether it succeeds or fails. -/
theorem C66_released_at_most_once (s : Process) (t : Nat) (c : Call) (hw : WellTyped c) (i : Nat) :
    s.released i ≤ (s.step t (.call c)).1.released i ∧ (s.step t (.call c)).1.released i ≤ s.released i + 1 ∧
    ((∀ j ∈ (signature c.fn).arrays, ∀ e, c.exported[j]? = some e → e.id ≠ i) → (s.step t (.call c)).1.released i = s.released i) := by
  by_cases hd : (s.step t (.call c)).2 = .undefined
  · have : (s.step t (.call c)).1 = s := by
      simp only [Process.step] at hd ⊢
      split at hd
      · rfl
      · simp at hd
      · split at hd <;> simp at hd
    simp [this]
  · obtain ⟨taken, hs, -, hr⟩ := released_call s t c hd
    have hn : taken.Nodup := (arrayIds_nodup c hw).sublist hs
    have h1 := List.nodup_iff_count_le_one.mp hn i
    refine ⟨by rw [hr]; omega, by rw [hr]; omega, fun h => ?_⟩
    rw [hr, List.count_eq_zero.mpr]; · omega
    intro hm
    have := hs.subset hm
    simp only [arrayIds, List.mem_filterMap, Option.map_eq_some_iff] at this
    obtain ⟨j, hj, e, he, rfl⟩ := this
    exact h j hj e he rfl

/-- The caller releases only the schema of the table it created. -/
def releaseSchema : Policy := fun fn _ => if fn = .create then [0] else []

theorem run_export (s : Process) (t : Nat) (ids : List Nat) :
    (s.run (ids.map fun i => (t, Request.export i))).1.boxes = s.boxes ∧
    ∀ i ∈ ids, (s.run (ids.map fun i => (t, Request.export i))).1.released i = 0 := by
  suffices h : (s.run (ids.map fun i => (t, Request.export i))).1.boxes = s.boxes ∧
      ∀ i, (i ∈ ids ∨ s.released i = 0) → (s.run (ids.map fun i => (t, Request.export i))).1.released i = 0 from ⟨h.1, fun i hi => h.2 i (.inl hi)⟩
  induction ids generalizing s with
  | nil => simp [Process.run]
  | cons x rest ih =>
    simp only [List.map_cons, Process.run]
    refine ⟨(ih _).1.trans rfl, fun i hi => (ih _).2 i ?_⟩
    by_cases hx : i = x
    · right; simp [Process.step, hx]
    · rcases hi with hi | hi
      · left; simpa [hx] using hi
      · right; simpa [Process.step, hx] using hi

/-- **C66** (partial): if the caller releases the schema of a created table, a successful function has each exported structure released exactly once.
Missing: functions that fail. -/
theorem C66_released_once_partial (s : Process) (t : Nat) (c : Call) (hw : WellTyped c)
    (h : ((s.run (c.exported.map fun e => (t, Request.export e.id))).1.step t (.call c)).2 = .success) : ReleasedOnce releaseSchema t s c := by
  have hx := (run_export s t (c.exported.map (·.id))).2
  rw [List.map_map] at hx
  change ∀ i ∈ _, (s.run (c.exported.map fun e => (t, Request.export e.id))).1.released i = 0 at hx
  unfold ReleasedOnce followed
  generalize hs' : (s.run (c.exported.map fun e => (t, Request.export e.id))).1 = s' at h hx ⊢
  obtain ⟨taken, -, hta, hr⟩ := released_call s' t c (by rw [h]; simp)
  have htaken := hta h
  subst htaken
  intro e he
  simp only [h, failed]
  have hcount : ∀ i, i ∈ c.exported.map (·.id) → (s'.step t (.call c)).1.released i = (arrayIds c).count i := by
    intro i hi; rw [hr, hx i hi]; omega
  obtain ⟨-, -, h3, h4⟩ := hw
  obtain ⟨fn, d, hs, ts, es, ch, op⟩ := c
  cases fn <;> simp only [signature] at h3
  all_goals
    rcases es with _ | ⟨e0, _ | ⟨e1, _ | ⟨e2, _ | ⟨e3, es⟩⟩⟩⟩ <;> simp only [List.length_cons, List.length_nil] at h3 <;> try omega
  all_goals
    generalize (s'.step t _).1 = s2 at hcount ⊢
    clear hs' hr hx h hta
    simp_all [arrayIds, signature, releaseSchema, Process.run]
  · have hc0 : List.count e0.id [e1.id, e2.id] = 0 := by
      rw [List.count_eq_zero]; simp [h4.1.1, h4.1.2]
    rw [hc0] at hcount
    rcases he with rfl | rfl | rfl
    · simp [Process.step, Process.take, hcount.1]
    · simp [Process.step, Process.take, hcount.2.1, h4.1.1]
    · simp [Process.step, Process.take, hcount.2.2, h4.1.2]
  · rcases he with rfl | rfl | rfl
    · exact hcount.1
    · exact hcount.2.1
    · exact hcount.2.2

/-- A batch is written with the name of a table that is null, and one with a name for which writing fails. -/
def nullName : Call := ⟨.write, true, [.address 0], [.null], [⟨0, true⟩], true, none⟩
def failingWrite : Call := ⟨.write, true, [.address 0], [.valid], [⟨0, true⟩], true, some "No such table."⟩

/-- A process with an open data folder. -/
def withFolder : Process := (Process.new.step 0 (.openFolder none)).1

theorem released_many (s : Process) (t i n : Nat) :
    (s.run (List.replicate n (t, Request.release i))).1.released i = s.released i + n := by
  induction n generalizing s with
  | zero => rfl
  | succ n ih => simp only [List.replicate_succ, Process.run]; rw [ih]; simp [Process.step, Process.take]; omega

theorem filterMap_one {α β : Type} (l : List Nat) (e : α) (f : α → β) :
    (l.filterMap fun i => ([e][i]?).map f) = List.replicate (l.count 0) (f e) := by
  induction l with
  | nil => rfl
  | cons x rest ih =>
    cases x with
    | zero => simp [List.filterMap_cons, ih, List.replicate_succ]
    | succ x => simp [List.filterMap_cons, ih]

/-- **C66** (negation): whatever a caller releases after a failed function, depending on the function and whether it failed, there are failures after which
a structure is not released exactly once: it leaks or is released twice. -/
theorem C66_no_policy (policy : Policy) :
    ∃ c, WellTyped c ∧ ((withFolder.run (c.exported.map fun e => (0, Request.export e.id))).1.step 0 (.call c)).2 = .failure ∧
      ¬ ReleasedOnce policy 0 withFolder c := by
  by_cases hn : (policy .write true).count 0 = 1
  · refine ⟨failingWrite, ⟨rfl, rfl, rfl, by decide⟩, by decide +kernel, fun h => ?_⟩
    have h := h ⟨0, true⟩ (by simp [failingWrite])
    have hf : followed policy 0 withFolder failingWrite = (((withFolder.step 0 (.export 0)).1.step 0 (.call failingWrite)).1.run
      ((policy .write true).filterMap fun i => ([(⟨0, true⟩ : Exported)][i]?).map fun e => (0, Request.release e.id))).1 := rfl
    rw [hf, filterMap_one, released_many, hn] at h
    exact absurd h (by decide +kernel)
  · refine ⟨nullName, ⟨rfl, rfl, rfl, by decide⟩, by decide +kernel, fun h => ?_⟩
    have h := h ⟨0, true⟩ (by simp [nullName])
    have hf : followed policy 0 withFolder nullName = (((withFolder.step 0 (.export 0)).1.step 0 (.call nullName)).1.run
      ((policy .write true).filterMap fun i => ([(⟨0, true⟩ : Exported)][i]?).map fun e => (0, Request.release e.id))).1 := rfl
    have h0 : ((withFolder.step 0 (.export 0)).1.step 0 (.call nullName)).1.released 0 = 0 := by decide +kernel
    rw [hf, filterMap_one, released_many, h0] at h
    omega

/-- A caller in two threads that opens a data folder, writes to it twice and reads the error. -/
def twoThreads : List (Nat × Request) :=
  [(0, .openFolder none), (1, .connect none), (0, .export 0), (0, .call failingWrite), (1, .call ⟨.tables, false, [.address 1], [], [], true, some "Timeout."⟩),
    (0, .call ⟨.tables, true, [.address 0], [], [], true, none⟩), (0, .error), (1, .error), (0, .close (.address 0) true)]

/-- The hypotheses can be met: the errors of two threads are separate, and successful functions keep them. -/
example : (Process.new.run twoThreads).2.map (·.2.2) = [.pointer (.address 0), .pointer (.address 1), .done, .failure, .failure, .success,
    .message (some "No such table."), .message (some "Timeout."), .success] := by decide +kernel

example : ∃ m, Reports (.call failingWrite) m ∧
    (((withFolder.step 0 (.call failingWrite)).1.run [(1, .connect (some "Timeout.")), (0, .openFolder none)]).1.step 0 .error).2 = .message (some m) :=
  C66_error_partial withFolder 0 (.call failingWrite) (by simp) (fun c h => by cases h; exact ⟨rfl, rfl, rfl, by decide⟩) (by decide +kernel) _
    (by decide +kernel)

/-- **C66** (partial): the batch given to the function that writes is released exactly once by the function, also if it cannot be imported or the write fails, when
the data folder and the name are valid. Missing: the other functions, and failures before the batch is imported (`C66_no_policy`). -/
theorem C66_write_released_partial (s : Process) (t : Nat) (d : Bool) (a : Nat) (e : Exported) (checks : Bool) (operation : Option String)
    (ha : (a, kindOf d) ∈ s.boxes) :
    ReleasedOnce (fun _ _ => []) t s ⟨.write, d, [.address a], [.valid], [e], checks, operation⟩ := by
  intro e' he
  rw [List.mem_singleton.1 he]
  rcases e with ⟨id, _ | _⟩ <;> cases operation <;>
    simp [followed, Process.run, Process.step, args, convert, Converted.add, ha, Process.take, Process.fail]

/-- A batch that cannot be imported. -/
example : ReleasedOnce (fun _ _ => []) 0 withFolder ⟨.write, true, [.address 0], [.valid], [⟨7, false⟩], true, none⟩ :=
  C66_write_released_partial _ _ _ _ _ _ _ (by decide)

/-- A time series table is created: the caller must release the schema. -/
example : ReleasedOnce releaseSchema 0 withFolder ⟨.create, true, [.address 0], [.valid], [⟨0, true⟩, ⟨1, true⟩, ⟨2, true⟩], true, none⟩ :=
  C66_released_once_partial _ _ _ ⟨rfl, rfl, rfl, by decide⟩ (by decide +kernel)

/-- A proper caller: it copies between two data folders. -/
def properUse : List (Nat × Request) :=
  [(0, .openFolder none), (0, .openFolder none), (0, .call ⟨.copy, true, [.address 0, .address 1], [.valid, .valid], [], true, none⟩)]

example : Always Proper (Process.new.run properUse).2 := by
  have ht : (Process.new.run properUse).2 = [(0, .openFolder none, .pointer (.address 0)), (0, .openFolder none, .pointer (.address 1)),
      (0, .call ⟨.copy, true, [.address 0, .address 1], [.valid, .valid], [], true, none⟩, .success)] := by decide +kernel
  rw [ht]
  intro before x after h
  match before with
  | [] => simp only [List.nil_append, List.cons.injEq] at h; obtain ⟨rfl, -⟩ := h; trivial
  | [_] => simp only [List.cons_append, List.nil_append, List.cons.injEq] at h; obtain ⟨-, rfl, -⟩ := h; trivial
  | [y, z] =>
    simp only [List.cons_append, List.nil_append, List.cons.injEq] at h
    obtain ⟨rfl, rfl, rfl, -⟩ := h
    refine ⟨⟨rfl, rfl, rfl, by simp⟩, by simp, ?_⟩
    intro a ha; simp at ha
    rcases ha with rfl | rfl
    · exact ⟨[], 0, .openFolder none, [(0, .openFolder none, .pointer (.address 1))], rfl, rfl, by simp [closes]⟩
    · exact ⟨[(0, .openFolder none, .pointer (.address 0))], 0, .openFolder none, [], rfl, rfl, by simp⟩
  | _ :: _ :: _ :: rest => simp at h

end ModelarDB.Props
