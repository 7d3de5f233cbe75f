import Verif.Lemmas.DataTransfer
/-
C26: Transfer moves every saved row to the remote store exactly once, and C27: Transfer bookkeeping matches what is on disk.
-/
namespace ModelarDB.Props
open Model.DataTransfer Spec.DataTransfer Lemmas.DataTransfer

variable {ρ : Type}

private theorem calm {batchSize : Option Nat} {ops : List (Op ρ)} {t : Table ρ} (hc : CalmRun (Table.new batchSize) ops)
    (h : (Table.new batchSize).run ops = some t) : CalmInv t := calm_run (calm_new batchSize) hc h

/-- C26 without the failures and concurrency that break it: if nothing interferes with transfers, the committed files are, as a multiset,
the files in the local table, those in the remote table and those deleted with the table, except that the local files are
also in the remote table while a transfer is about to delete them. What is missing: `C26_lost_by_concurrent_commit`, `C26_twice_after_crash`,
`C26_twice_after_failure` and `C26_twice_after_overlap` show that the property is false for other histories. -/
theorem C26_exactly_once_partial {batchSize : Option Nat} {ops : List (Op ρ)} {t : Table ρ} (hc : CalmRun (Table.new batchSize) ops)
    (h : (Table.new batchSize).run ops = some t) :
    ((∀ x ∈ t.running, inWindow x = false) → (copies t).Perm t.committed) ∧
      (∀ x ∈ t.running, inWindow x = true → (t.remoteFiles ++ t.discarded).Perm t.committed) := by
  classical
  have hinv := calm hc h
  constructor
  · intro hw
    have hd : doubled t = [] := by
      unfold doubled
      split
      · next c files hr =>
        have := hw _ (by rw [hr]; exact List.mem_cons_self ..)
        cases this
      · rfl
    rw [List.perm_iff_count]
    intro a
    have := hinv.count (· == a)
    rw [hd] at this
    exact this
  · intro x hx hw
    have hd : doubled t = t.localFiles.map Prod.fst := by
      rcases hinv.state with ⟨h1, _⟩ | ⟨h1, _⟩ | ⟨_, h2, _⟩ | ⟨_, h2, _⟩ | ⟨_, h2, _⟩ | ⟨_, _, c, h2, _⟩
      · rw [h1] at hx; cases hx
      · rw [h1] at hx; cases hx
      · rw [h2, List.mem_singleton] at hx; subst hx; cases hw
      · rw [h2, List.mem_singleton] at hx; subst hx; cases hw
      · unfold doubled; rw [h2]
      · rw [h2, List.mem_singleton] at hx; subst hx; cases hw
    rw [List.perm_iff_count]
    intro a
    have := hinv.count (· == a)
    rw [hd] at this
    simp only [copies, List.countP_append] at this
    simp only [List.count, List.countP_append]
    omega

/-- C26, in every history, with any concurrency and failures: the tables only contain what was committed. -/
theorem C26_nothing_invented {batchSize : Option Nat} {ops : List (Op ρ)} {t : Table ρ} (h : (Table.new batchSize).run ops = some t) :
    ∀ f ∈ copies t, f ∈ t.committed := (inv_run (inv_new batchSize) h).known

/-- C26, in every history: a step after which a file is no longer anywhere is the deletion of the local files by a transfer that had read
the table before the file was committed to it. So crashes and failed steps lose nothing. -/
theorem C26_lost_only_when {batchSize : Option Nat} {ops : List (Op ρ)} {t t' : Table ρ} {op : Op ρ}
    (h : (Table.new batchSize).run ops = some t) (hstep : t.step op = some t') {f : ρ} (hf : f ∈ copies t) (hlost : f ∉ copies t') :
    ∃ i captured files, op = .advance i true ∧ t.running[i]? = some ⟨captured, .written files⟩ ∧
      f ∈ t.localFiles.map Prod.fst ∧ f ∉ files := by
  have hinv := inv_run (inv_new batchSize) h
  have hbegin : ∀ {a b : Table ρ}, a.begin = some b → copies b = copies a := by
    intro a b hb
    unfold Table.begin at hb
    split at hb
    · cases hb; rfl
    · split at hb <;> cases hb
      rfl
  cases op with
  | commit file size =>
    cases hstep
    refine absurd ?_ hlost
    simp only [copies, List.map_append, List.mem_append] at hf ⊢
    rcases hf with (hf | hf) | hf
    · exact Or.inl (Or.inl (Or.inl hf))
    · exact Or.inl (Or.inr hf)
    · exact Or.inr hf
  | report i =>
    simp only [Table.step] at hstep
    split at hstep
    · cases hstep
    · split at hstep
      · split at hstep
        · rw [hbegin hstep] at hlost; exact absurd hf hlost
        · cases hstep; exact absurd hf hlost
      · cases hstep; exact absurd hf hlost
  | request threshold =>
    simp only [Table.step] at hstep
    split at hstep
    · cases hstep; exact absurd hf hlost
    · split at hstep
      · rw [hbegin hstep] at hlost; exact absurd hf hlost
      · cases hstep; exact absurd hf hlost
  | advance i ok =>
    simp only [Table.step] at hstep
    split at hstep
    · cases hstep
    · next x hx =>
      obtain ⟨captured, stage⟩ := x
      dsimp only at hstep
      split at hstep
      · split at hstep <;> cases hstep <;> exact absurd hf hlost
      · split at hstep <;> cases hstep
        · refine absurd ?_ hlost
          simp only [copies, List.mem_append] at hf ⊢
          rcases hf with (hf | hf) | hf
          · exact Or.inl (Or.inl hf)
          · exact Or.inl (Or.inr (Or.inl hf))
          · exact Or.inr hf
        · exact absurd hf hlost
      · next files =>
        split at hstep
        · next hok =>
          cases hstep
          refine ⟨i, captured, files, by rw [hok], hx, ?_, fun hm => hlost ?_⟩
          · simp only [copies, List.map_nil, List.nil_append, List.mem_append] at hf hlost
            rcases hf with (hf | hf) | hf
            · exact hf
            · exact absurd (Or.inl hf) hlost
            · exact absurd (Or.inr hf) hlost
          · exact List.mem_append_left _ (List.mem_append_right _ (hinv.written _ _ (List.mem_of_getElem? hx) f hm))
        · cases hstep; exact absurd hf hlost
      · split at hstep <;> cases hstep
        exact absurd hf hlost
  | mark =>
    simp only [Table.step] at hstep
    split at hstep <;> cases hstep
    exact absurd hf hlost
  | discard =>
    simp only [Table.step] at hstep
    split at hstep <;> cases hstep
    refine absurd ?_ hlost
    simp only [copies, List.map_nil, List.nil_append, List.mem_append] at hf ⊢
    rcases hf with (hf | hf) | hf
    · exact Or.inr (Or.inr hf)
    · exact Or.inl hf
    · exact Or.inr (Or.inl hf)
  | setBatchSize value =>
    simp only [Table.step] at hstep
    split at hstep
    · split at hstep <;> cases hstep
      exact absurd hf hlost
    · split at hstep <;> cases hstep
      exact absurd hf hlost
  | restart disk =>
    simp only [Table.step] at hstep
    have hm : (t.localFiles.map fun f => (f.1, disk f.1)).map Prod.fst = t.localFiles.map Prod.fst := by rw [List.map_map]; rfl
    split at hstep
    · split at hstep
      · rw [hbegin hstep] at hlost; exact absurd (by simpa only [copies, hm] using hf) hlost
      · cases hstep; exact absurd (by simpa only [copies, hm] using hf) hlost
    · cases hstep; exact absurd (by simpa only [copies, hm] using hf) hlost

/-- A file of 10 bytes is committed to a table with a batch size of 5 bytes and a transfer starts. -/
def startTransfer : List (Op String) := [.commit "f" 10, .report 0]

/-- Two transfers, a restart while the second has not yet written, a table that is marked as dropped and one that is truncated. -/
def calmHistory : List (Op String) :=
  startTransfer ++ [.advance 0 true, .advance 0 true, .advance 0 true, .advance 0 true, .commit "g" 3, .report 0, .request 3, .request 2,
    .advance 0 true, .restart (fun _ => 4), .setBatchSize (some 8), .commit "h" 4, .report 0, .advance 0 true, .advance 0 true]

example : ∃ t, (Table.new (some 5)).run calmHistory = some t ∧ t.remoteFiles = ["f", "g", "h"] ∧
    t.localFiles = [("g", 4), ("h", 4)] ∧ t.committed = ["f", "g", "h"] ∧ t.size = some 8 :=
  ⟨((Table.new (some 5)).run calmHistory).get (by decide +kernel), (Option.some_get _).symm, by decide +kernel⟩

example : CalmRun (Table.new (some 5)) calmHistory := by decide +kernel

/-- C26 is false: a file that is committed between the read and the deletion of a transfer is lost. -/
theorem C26_lost_by_concurrent_commit : ∃ t, (Table.new (some 5)).run
    (startTransfer ++ [.advance 0 true, .commit "g" 3, .advance 0 true, .advance 0 true, .advance 0 true, .report 0]) = some t ∧
    t.committed = ["f", "g"] ∧ copies t = ["f"] ∧ t.running = [] :=
  ⟨((Table.new (some 5)).run
    (startTransfer ++ [.advance 0 true, .commit "g" 3, .advance 0 true, .advance 0 true, .advance 0 true, .report 0])).get
      (by decide +kernel), (Option.some_get _).symm, by decide +kernel⟩

/-- C26 is false: after a crash between the remote write and the local deletion, the rows are transferred again. -/
theorem C26_twice_after_crash : ∃ t, (Table.new (some 5)).run (startTransfer ++ [.advance 0 true, .advance 0 true, .restart (fun _ => 10),
    .advance 0 true, .advance 0 true, .advance 0 true, .advance 0 true]) = some t ∧
    t.committed = ["f"] ∧ t.remoteFiles = ["f", "f"] ∧ t.running = [] :=
  ⟨((Table.new (some 5)).run (startTransfer ++ [.advance 0 true, .advance 0 true, .restart (fun _ => 10),
    .advance 0 true, .advance 0 true, .advance 0 true, .advance 0 true])).get
      (by decide +kernel), (Option.some_get _).symm, by decide +kernel⟩

/-- C26 is false: if the local deletion fails, the rows are transferred again with the next transfer. -/
theorem C26_twice_after_failure : ∃ t, (Table.new (some 5)).run (startTransfer ++ [.advance 0 true, .advance 0 true, .advance 0 false,
    .request 0, .advance 0 true, .advance 0 true, .advance 0 true, .advance 0 true]) = some t ∧
    t.committed = ["f"] ∧ t.remoteFiles = ["f", "f"] ∧ t.running = [] :=
  ⟨((Table.new (some 5)).run (startTransfer ++ [.advance 0 true, .advance 0 true, .advance 0 false,
    .request 0, .advance 0 true, .advance 0 true, .advance 0 true, .advance 0 true])).get
      (by decide +kernel), (Option.some_get _).symm, by decide +kernel⟩

/-- Two transfers of the same table at the same time. -/
def overlap : List (Op String) := startTransfer ++ [.request 0, .advance 0 true, .advance 1 true, .advance 0 true, .advance 1 true,
  .advance 0 true, .advance 1 true, .advance 0 true, .advance 0 true]

/-- C26 is false: two transfers at the same time, of which one is requested by a client, copy the rows twice. -/
theorem C26_twice_after_overlap : ∃ t, (Table.new (some 5)).run overlap = some t ∧
    t.committed = ["f"] ∧ t.remoteFiles = ["f", "f"] ∧ t.running = [] :=
  ⟨((Table.new (some 5)).run overlap).get (by decide +kernel), (Option.some_get _).symm, by decide +kernel⟩

/-- C27 without the concurrency that breaks it: if nothing interferes with transfers, the size is the number of bytes of the local files
whose size has been reported whenever no transfer runs, and while one runs it is what the transfer will subtract, so the subtraction does
not go below zero. What is missing: `C27_below_zero` and `C27_counts_lost_file`. -/
theorem C27_size_partial {batchSize : Option Nat} {ops : List (Op ρ)} {t : Table ρ} (hc : CalmRun (Table.new batchSize) ops)
    (h : (Table.new batchSize).run ops = some t) :
    (t.running = [] → t.size.getD 0 + (t.unreported.map Prod.snd).sum = localBytes t) ∧
      (∀ x ∈ t.running, t.size = some x.captured ∧ t.unreported = []) := by
  have hinv := calm hc h
  rcases hinv.state with ⟨h1, h2, h3⟩ | ⟨h1, f, h2, h3⟩ | ⟨h1, h2, h3⟩ | ⟨h1, h2, h3⟩ | ⟨h1, h2, h3⟩ | ⟨h1, _, c, h2, h3⟩
  · exact ⟨fun _ => by simp [h2, h3], fun x hx => by rw [h1] at hx; cases hx⟩
  · exact ⟨fun _ => by simp [h2, h3], fun x hx => by rw [h1] at hx; cases hx⟩
  all_goals
    refine ⟨fun h => (by rw [h2] at h; cases h), fun x hx => ?_⟩
    rw [h2, List.mem_singleton] at hx
    subst hx
    exact ⟨h3, h1⟩

/-- C27, a table is transferred when it reaches the batch size: when the size of a file is reported, a transfer starts exactly if the
bytes in the local table have reached the batch size, and if its steps succeed it moves all files and leaves a size of zero. -/
theorem C27_transferred_at_batch_size_partial {initial : Option Nat} {ops : List (Op ρ)} {t t' : Table ρ} {batchSize : Nat} {i : Nat}
    (hc : CalmRun (Table.new initial) ops) (h : (Table.new initial).run ops = some t) (hcalm : t.running = [])
    (hbatch : t.batchSize = some batchSize) (hdropped : t.dropped = false) (hstep : t.step (.report i) = some t') :
    (t'.running ≠ [] ↔ batchSize ≤ localBytes t) ∧
      (t'.running ≠ [] → ∃ t'', t'.run [.advance 0 true, .advance 0 true, .advance 0 true, .advance 0 true] = some t'' ∧
        t''.localFiles = [] ∧ t''.remoteFiles = t.remoteFiles ++ t.localFiles.map Prod.fst ∧ t''.size = some 0 ∧ t''.running = []) := by
  have hinv := calm hc h
  simp only [Table.step] at hstep
  split at hstep
  · cases hstep
  · next f hf =>
    have h2 : t.size.getD 0 + f.2 = localBytes t := by
      rcases hinv.state with ⟨_, h, _⟩ | ⟨_, g, hg, h1⟩ | ⟨_, h, _⟩ | ⟨_, h, _⟩ | ⟨_, h, _⟩ | ⟨_, _, c, h, _⟩
      · rw [h] at hf; simp at hf
      · rw [hg] at hf
        cases i with
        | zero => simp at hf; subst hf; exact h1
        | succ i => simp at hf
      all_goals rw [hcalm] at h; cases h
    have h3 : u64 ((t.size.getD 0 : Int) + (f.2 : Int)) = localBytes t := by
      rw [← Int.natCast_add, h2]
      exact u64_of_lt hinv.bytes
    simp only [hbatch, h3] at hstep
    split at hstep
    · next hle =>
      simp only [Table.begin, hdropped, Bool.false_eq_true, if_false, hcalm, List.nil_append] at hstep
      cases hstep
      refine ⟨⟨fun _ => hle, fun _ => by simp⟩, fun _ => ?_⟩
      refine ⟨_, rfl, rfl, rfl, ?_, rfl⟩
      simp [u64]
    · next hle =>
      cases hstep
      exact ⟨⟨fun h => absurd hcalm h, fun h => absurd h hle⟩, fun h => absurd hcalm h⟩

example : ∃ t, (Table.new (some 5)).run [.commit "f" 2, .report 0, .commit "g" 3] = some t ∧ localBytes t = 5 ∧ t.running = [] ∧
    t.dropped = false :=
  ⟨((Table.new (some 5)).run [.commit "f" 2, .report 0, .commit "g" 3]).get (by decide +kernel), (Option.some_get _).symm,
    by decide +kernel⟩

/-- C27 is false: two transfers at the same time subtract the size twice, so it wraps around below zero. -/
theorem C27_below_zero : ∃ t, (Table.new (some 5)).run overlap = some t ∧ localBytes t = 0 ∧ t.size = some (2 ^ 64 - 10) :=
  ⟨((Table.new (some 5)).run overlap).get (by decide +kernel), (Option.some_get _).symm, by decide +kernel⟩

/-- C27 is false: the size of a file that was deleted by a transfer that had not read it stays in the size. -/
theorem C27_counts_lost_file : ∃ t, (Table.new (some 5)).run
    (startTransfer ++ [.advance 0 true, .commit "g" 3, .advance 0 true, .advance 0 true, .advance 0 true, .report 0]) = some t ∧
    localBytes t = 0 ∧ t.size = some 3 :=
  ⟨((Table.new (some 5)).run
    (startTransfer ++ [.advance 0 true, .commit "g" 3, .advance 0 true, .advance 0 true, .advance 0 true, .report 0])).get
      (by decide +kernel), (Option.some_get _).symm, by decide +kernel⟩

/-- C27 is false: a new batch size that the table has already reached starts no transfer, as `>` is used and not `>=`. -/
theorem C27_new_batch_size_reached : ∃ t, (Table.new none).run [.commit "f" 10, .report 0, .request 10, .setBatchSize (some 10)] = some t ∧
    localBytes t = 10 ∧ t.batchSize = some 10 ∧ t.running = [] :=
  ⟨((Table.new none).run [.commit "f" 10, .report 0, .request 10, .setBatchSize (some 10)]).get (by decide +kernel),
    (Option.some_get _).symm, by decide +kernel⟩

end ModelarDB.Props
