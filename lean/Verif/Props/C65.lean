import Verif.Spec.Shutdown
import Mathlib.Tactic.Tauto
/-
C65: Stopping a node loses no data.
-/
namespace ModelarDB.Props
open Model Model.Shutdown Spec
variable {ρ : Type}

theorem shutdown_mem_flush (n : Node ρ) (failing : ρ → Bool) (r : ρ) :
    (r ∈ (n.flush failing).memory ∨ r ∈ (n.flush failing).disk) ↔ (r ∈ n.memory ∨ r ∈ n.disk) := by
  simp only [Node.flush, List.mem_filter, List.mem_append]
  cases failing r <;> simp
  tauto

theorem shutdown_mem_transfer (n : Node ρ) (moved : ρ → Bool) (ok : Bool) (r : ρ) :
    (r ∈ (n.transfer moved ok).1.disk ∨ r ∈ (n.transfer moved ok).1.remote) ↔ (r ∈ n.disk ∨ r ∈ n.remote) := by
  unfold Node.transfer
  split
  · split
    · simp
      tauto
    · simp only [List.mem_filter, List.mem_append]
      cases moved r <;> simp
      tauto
  · rfl

/-- Everything but the rows is unchanged by a flush. -/
theorem shutdown_flush_rest (n : Node ρ) (failing : ρ → Bool) :
    n.flush failing = { n with memory := (n.flush failing).memory, disk := (n.flush failing).disk } := rfl

/-- Everything but the rows is unchanged by a transfer. -/
theorem shutdown_transfer_rest (n : Node ρ) (moved : ρ → Bool) (ok : Bool) :
    (n.transfer moved ok).1 = { n with disk := (n.transfer moved ok).1.disk, remote := (n.transfer moved ok).1.remote } := by
  unfold Node.transfer
  split
  · split <;> rfl
  · rfl

theorem shutdown_transfer_ok (n : Node ρ) {moved : ρ → Bool} {ok : Bool} (h : (n.transfer moved ok).2 = true) :
    n.mode.remote = true ∧ (n.transfer moved ok).1.disk = [] := by
  unfold Node.transfer at h ⊢
  split
  · rename_i hr
    rw [if_pos hr] at h
    split
    · exact ⟨hr, rfl⟩
    · rename_i ho
      rw [if_neg ho] at h
      exact absurd h (by simp)
  · rename_i hr
    rw [if_neg hr] at h
    exact absurd h (by simp)

/-- What holds in every execution. -/
structure ShutdownInv (n : Node ρ) : Prop where
  somewhere : ∀ r ∈ n.confirmed, r ∈ n.memory ∨ r ∈ n.disk ∨ r ∈ n.remote
  logged : n.wal = true → ∀ r ∈ n.confirmed, r ∈ n.log ∨ r ∈ n.disk ∨ r ∈ n.remote
  remoteOnly : n.kill = some .transferred ∨ n.kill = some .removed ∨ n.ended = some .killed → n.mode.remote = true
  onlyOne : n.kill ≠ none → n.ctrlC = none
  killed : n.ended = some .killed → n.kill = some .removed
  interrupted : n.ended = some .interrupted → n.ctrlC = some .removed
  alone : n.mode.remote = false → n.member = false
  left : n.kill = some .removed ∨ n.ctrlC = some .removed → n.member = false

theorem ShutdownInv.flush {n : Node ρ} (h : ShutdownInv n) (failing : ρ → Bool) : ShutdownInv (n.flush failing) := by
  refine ⟨?_, ?_, h.remoteOnly, h.onlyOne, h.killed, h.interrupted, h.alone, h.left⟩
  · intro r hr
    have := (shutdown_mem_flush n failing r)
    have h1 : r ∈ n.memory ∨ r ∈ n.disk ∨ r ∈ n.remote := h.somewhere r hr
    have h2 : (n.flush failing).remote = n.remote := rfl
    rw [h2]
    tauto
  · intro hw r hr
    have h1 : r ∈ n.log ∨ r ∈ n.disk ∨ r ∈ n.remote := h.logged hw r hr
    have h2 : (n.flush failing).log = n.log ∧ (n.flush failing).remote = n.remote := ⟨rfl, rfl⟩
    have h3 : r ∈ n.disk → r ∈ (n.flush failing).disk := fun h => List.mem_append_left _ h
    rw [h2.1, h2.2]
    tauto

theorem ShutdownInv.transfer {n : Node ρ} (h : ShutdownInv n) (moved : ρ → Bool) (ok : Bool) : ShutdownInv (n.transfer moved ok).1 := by
  have hr := shutdown_transfer_rest n moved ok
  have hm := shutdown_mem_transfer n moved ok
  generalize (n.transfer moved ok).1 = n' at hr hm ⊢
  rw [hr] at hm ⊢
  refine ⟨?_, ?_, h.remoteOnly, h.onlyOne, h.killed, h.interrupted, h.alone, h.left⟩
  · intro r hr
    have h1 : r ∈ n.memory ∨ r ∈ n.disk ∨ r ∈ n.remote := h.somewhere r hr
    have := hm r
    dsimp only at this ⊢
    tauto
  · intro hw r hr
    have h1 : r ∈ n.log ∨ r ∈ n.disk ∨ r ∈ n.remote := h.logged hw r hr
    have := hm r
    dsimp only at this ⊢
    tauto

theorem unlocked_iff (n : Node ρ) : n.unlocked = true ↔ n.kill = none ∧ n.ended = none := by
  unfold Node.unlocked
  cases n.kill <;> cases n.ended <;> simp

theorem threads_iff (n : Node ρ) : n.threads = true ↔ n.ctrlC = none := by
  unfold Node.threads
  cases n.ctrlC <;> simp

theorem ShutdownInv.step {n n' : Node ρ} (h : ShutdownInv n) (op : Op ρ) (hs : n.step op = some n') : ShutdownInv n' := by
  cases op with
  | ingest rows =>
    simp only [Node.step, Option.ite_none_right_eq_some, Option.some.injEq] at hs
    obtain ⟨_, rfl⟩ := hs
    refine ⟨?_, ?_, h.remoteOnly, h.onlyOne, h.killed, h.interrupted, h.alone, h.left⟩
    · intro r hr
      have := h.somewhere r
      simp only [List.mem_append] at hr ⊢
      tauto
    · intro hw r hr
      have := h.logged hw r
      replace hw : n.wal = true := hw
      simp only [List.mem_append, hw, if_true] at hr ⊢
      tauto
  | ingestNormal rows =>
    simp only [Node.step, Option.ite_none_right_eq_some, Option.some.injEq] at hs
    obtain ⟨_, rfl⟩ := hs
    refine ⟨?_, ?_, h.remoteOnly, h.onlyOne, h.killed, h.interrupted, h.alone, h.left⟩
    · intro r hr
      have := h.somewhere r
      simp only [List.mem_append] at hr ⊢
      tauto
    · intro hw r hr
      have := h.logged hw r
      simp only [List.mem_append] at hr ⊢
      tauto
  | save failing =>
    simp only [Node.step, Option.ite_none_right_eq_some, Option.some.injEq] at hs
    obtain ⟨_, rfl⟩ := hs
    exact h.flush failing
  | flushMemory failing =>
    simp only [Node.step, Option.ite_none_right_eq_some, Option.some.injEq] at hs
    obtain ⟨_, rfl⟩ := hs
    have := h.flush failing
    exact ⟨this.somewhere, this.logged, this.remoteOnly, this.onlyOne, this.killed, this.interrupted, this.alone, this.left⟩
  | flushNode failing moved ok =>
    simp only [Node.step, Option.ite_none_right_eq_some, Option.some.injEq] at hs
    obtain ⟨_, rfl⟩ := hs
    have := (h.flush failing).transfer moved ok
    exact ⟨this.somewhere, this.logged, this.remoteOnly, this.onlyOne, this.killed, this.interrupted, this.alone, this.left⟩
  | killFlush failing =>
    simp only [Node.step, Option.ite_none_right_eq_some, Option.some.injEq, Bool.and_eq_true, unlocked_iff, threads_iff] at hs
    obtain ⟨⟨⟨hk, he⟩, hc⟩, rfl⟩ := hs
    have := h.flush failing
    have he' : (n.flush failing).ended = none := he
    have hc' : (n.flush failing).ctrlC = none := hc
    refine ⟨this.somewhere, this.logged, ?_, fun _ => hc, ?_, this.interrupted, this.alone, ?_⟩
    · simp [he']
    · simp [he']
    · simp [hc']
  | killTransfer moved ok =>
    simp only [Node.step, Option.ite_none_right_eq_some, Option.some.injEq, Bool.and_eq_true, beq_iff_eq, Option.isNone_iff_eq_none] at hs
    obtain ⟨⟨he, hk⟩, rfl⟩ := hs
    have := h.transfer moved ok
    have hr := shutdown_transfer_rest n moved ok
    have he' : (n.transfer moved ok).1.ended = none := by rw [hr]; exact he
    have hc' : (n.transfer moved ok).1.ctrlC = none := by rw [hr]; exact h.onlyOne (by rw [hk]; simp)
    have hm' : (n.transfer moved ok).1.mode = n.mode := by rw [hr]
    split
    · rename_i hok
      refine ⟨this.somewhere, this.logged, fun _ => ?_, fun _ => hc', ?_, this.interrupted, this.alone, ?_⟩
      · dsimp only
        rw [hm']
        exact (shutdown_transfer_ok n hok).1
      · simp [he']
      · simp [hc']
    · refine ⟨this.somewhere, this.logged, ?_, ?_, ?_, this.interrupted, this.alone, ?_⟩
      · simp [he']
      · simp
      · simp [he']
      · simp [hc']
  | killRemove ok =>
    simp only [Node.step, Option.ite_none_right_eq_some, Option.some.injEq, Bool.and_eq_true, beq_iff_eq, Option.isNone_iff_eq_none] at hs
    obtain ⟨⟨he, hk⟩, rfl⟩ := hs
    have hc : n.ctrlC = none := h.onlyOne (by rw [hk]; simp)
    split
    · exact ⟨h.somewhere, h.logged, fun _ => h.remoteOnly (.inl hk), fun _ => hc, fun h => by simp [he] at h, h.interrupted, fun _ => rfl, fun _ => rfl⟩
    · exact ⟨h.somewhere, h.logged, by simp [he], by simp, by simp [he], h.interrupted, h.alone, by simp [hc]⟩
  | killExit =>
    simp only [Node.step, Option.ite_none_right_eq_some, Option.some.injEq, Bool.and_eq_true, beq_iff_eq, Option.isNone_iff_eq_none] at hs
    obtain ⟨⟨he, hk⟩, rfl⟩ := hs
    exact ⟨h.somewhere, h.logged, fun _ => h.remoteOnly (.inr (.inl hk)), h.onlyOne, fun _ => hk, by simp, h.alone, h.left⟩
  | interrupt failing =>
    simp only [Node.step, Option.ite_none_right_eq_some, Option.some.injEq, Bool.and_eq_true, unlocked_iff, threads_iff] at hs
    obtain ⟨⟨⟨hk, he⟩, hc⟩, rfl⟩ := hs
    have := h.flush failing
    have hk' : (n.flush failing).kill = none := hk
    have he' : (n.flush failing).ended = none := he
    exact ⟨this.somewhere, this.logged, this.remoteOnly, by simp [hk'], this.killed, by simp [he'], this.alone, by simp [hk']⟩
  | interruptRemove ok =>
    simp only [Node.step, Option.ite_none_right_eq_some, Option.some.injEq, Bool.and_eq_true, beq_iff_eq, Option.isNone_iff_eq_none] at hs
    obtain ⟨⟨he, hc⟩, rfl⟩ := hs
    have hk : n.kill = none := by
      by_contra hk
      rw [h.onlyOne hk] at hc
      exact absurd hc (by simp)
    split
    · rename_i hm
      exact ⟨h.somewhere, h.logged, h.remoteOnly, by simp [hk], h.killed, by simp, h.alone, fun _ => h.alone (by simpa using hm)⟩
    · split
      · exact ⟨h.somewhere, h.logged, h.remoteOnly, by simp [hk], h.killed, by simp, fun _ => rfl, fun _ => rfl⟩
      · exact ⟨h.somewhere, h.logged, by simp [hk], h.onlyOne, by simp, by simp, h.alone, h.left⟩
  | interruptExit =>
    simp only [Node.step, Option.ite_none_right_eq_some, Option.some.injEq, Bool.and_eq_true, beq_iff_eq, Option.isNone_iff_eq_none] at hs
    obtain ⟨⟨he, hc⟩, rfl⟩ := hs
    refine ⟨h.somewhere, h.logged, ?_, h.onlyOne, by simp, fun _ => hc, h.alone, h.left⟩
    intro hh
    rcases hh with hh | hh | hh
    · exact h.remoteOnly (.inl hh)
    · exact h.remoteOnly (.inr (.inl hh))
    · exact absurd hh (by simp)
  | periodic moved ok =>
    simp only [Node.step, Option.ite_none_right_eq_some, Option.some.injEq, Bool.and_eq_true, Option.isNone_iff_eq_none] at hs
    obtain ⟨⟨he, hm⟩, rfl⟩ := hs
    have := h.transfer moved ok
    split
    · exact this
    · refine ⟨this.somewhere, this.logged, ?_, this.onlyOne, by simp, by simp, this.alone, this.left⟩
      intro _
      dsimp only
      rw [shutdown_transfer_rest n moved ok]
      exact hm
  | reached moved =>
    simp only [Node.step, Option.ite_none_right_eq_some, Option.some.injEq, Bool.and_eq_true, Option.isNone_iff_eq_none] at hs
    obtain ⟨_, rfl⟩ := hs
    exact h.transfer moved false

theorem ShutdownInv.new (mode : Mode) (wal : Bool) : ShutdownInv (Node.new mode wal : Node ρ) :=
  ⟨by simp [Node.new], by simp [Node.new], by simp [Node.new], by simp [Node.new], by simp [Node.new], by simp [Node.new], fun h => h, by simp [Node.new]⟩

/-- Induction over an execution with a condition on its steps. -/
theorem shutdown_run {I : Node ρ → Prop} {p : Node ρ → Op ρ → Prop} (hI : ∀ n n' op, I n → p n op → n.step op = some n' → I n') :
    ∀ (ops : List (Op ρ)) (n n' : Node ρ), I n → Always p n ops → n.run ops = some n' → I n'
  | [], n, n', h, _, hr => by
    injection hr with hr
    exact hr ▸ h
  | op :: ops, n, n', h, hp, hr => by
    rw [Node.run, Option.bind_eq_some_iff] at hr
    obtain ⟨m, hm, hr⟩ := hr
    exact shutdown_run hI ops m n' (hI n m op h hp.1 hm) (hp.2 m hm) hr

theorem shutdown_always : ∀ (ops : List (Op ρ)) (n : Node ρ), Always (fun _ _ => True) n ops
  | [], _ => trivial
  | _ :: ops, _ => ⟨trivial, fun n' _ => shutdown_always ops n'⟩

theorem shutdown_always_mono {p q : Node ρ → Op ρ → Prop} (h : ∀ n op, p n op → q n op) : ∀ (ops : List (Op ρ)) (n : Node ρ), Always p n ops → Always q n ops
  | [], _, _ => trivial
  | op :: ops, n, hp => ⟨h n op hp.1, fun n' hn => shutdown_always_mono h ops n' (hp.2 n' hn)⟩

theorem shutdown_inv {mode : Mode} {wal : Bool} {ops : List (Op ρ)} {n : Node ρ} (h : (Node.new mode wal).run ops = some n) : ShutdownInv n :=
  shutdown_run (p := fun _ _ => True) (fun _ _ op hi _ hs => hi.step op hs) ops _ n (.new mode wal) (shutdown_always ops _) h

/-- Rows can only be in memory in front of `KillNode` and of CTRL+C. -/
structure ShutdownKill (n : Node ρ) : Prop where
  inv : ShutdownInv n
  memory : n.kill ≠ none → n.memory = []
  disk : n.kill = some .transferred ∨ n.kill = some .removed → n.disk = []

/-- Saving does not fail. -/
def Saves : Op ρ → Prop
  | .save failing | .flushMemory failing | .killFlush failing | .interrupt failing | .flushNode failing _ _ => ∀ r, failing r = false
  | _ => True

theorem shutdown_flush_memory (n : Node ρ) {failing : ρ → Bool} (h : ∀ r, failing r = false) : (n.flush failing).memory = [] := by
  simp [Node.flush, h]

theorem shutdown_transfer_empty (n : Node ρ) (moved : ρ → Bool) (ok : Bool) (h : n.disk = []) : (n.transfer moved ok).1.disk = [] := by
  unfold Node.transfer
  split
  · split
    · rfl
    · simp [h]
  · exact h

theorem ShutdownKill.step {n n' : Node ρ} (h : ShutdownKill n) (op : Op ρ) (hp : Saves op) (hs : n.step op = some n') : ShutdownKill n' := by
  refine ⟨h.inv.step op hs, ?_, ?_⟩
  all_goals
    have h1 := h.memory
    have h2 := h.disk
    cases op with
    | ingest rows | ingestNormal rows =>
      simp only [Node.step, Option.ite_none_right_eq_some, Option.some.injEq, unlocked_iff] at hs
      obtain ⟨⟨hk, _⟩, rfl⟩ := hs
      simp [hk]
    | save failing =>
      simp only [Node.step, Option.ite_none_right_eq_some, Option.some.injEq] at hs
      obtain ⟨_, rfl⟩ := hs
      intro hk
      first
      | exact shutdown_flush_memory n hp
      | have hk' : n.kill = some .transferred ∨ n.kill = some .removed := hk
        simp [Node.flush, h2 hk', h1 (by rcases hk' with hk' | hk' <;> simp [hk'])]
    | flushMemory failing =>
      simp only [Node.step, Option.ite_none_right_eq_some, Option.some.injEq, Bool.and_eq_true, unlocked_iff] at hs
      obtain ⟨⟨⟨hk, _⟩, _⟩, rfl⟩ := hs
      have hk' : (n.flush failing).kill = none := hk
      simp [hk']
    | interrupt failing =>
      simp only [Node.step, Option.ite_none_right_eq_some, Option.some.injEq, Bool.and_eq_true, unlocked_iff] at hs
      obtain ⟨⟨⟨hk, _⟩, _⟩, rfl⟩ := hs
      have hk' : (n.flush failing).kill = none := hk
      simp [hk']
    | flushNode failing moved ok =>
      simp only [Node.step, Option.ite_none_right_eq_some, Option.some.injEq, Bool.and_eq_true, unlocked_iff] at hs
      obtain ⟨⟨⟨hk, _⟩, _⟩, rfl⟩ := hs
      have hk' : ((n.flush failing).transfer moved ok).1.kill = none := by rw [shutdown_transfer_rest]; exact hk
      simp [hk']
    | killFlush failing =>
      simp only [Node.step, Option.ite_none_right_eq_some, Option.some.injEq] at hs
      obtain ⟨_, rfl⟩ := hs
      first
      | exact fun _ => shutdown_flush_memory n hp
      | simp
    | killTransfer moved ok =>
      simp only [Node.step, Option.ite_none_right_eq_some, Option.some.injEq, Bool.and_eq_true, beq_iff_eq] at hs
      obtain ⟨⟨_, hk⟩, rfl⟩ := hs
      split
      · rename_i hok
        intro _
        first
        | exact (shutdown_transfer_ok n hok).2
        | dsimp only
          rw [shutdown_transfer_rest]
          exact h1 (by simp [hk])
      · simp
    | killRemove ok =>
      simp only [Node.step, Option.ite_none_right_eq_some, Option.some.injEq, Bool.and_eq_true, beq_iff_eq] at hs
      obtain ⟨⟨_, hk⟩, rfl⟩ := hs
      split
      · intro _
        first
        | exact h1 (by simp [hk])
        | exact h2 (by simp [hk])
      · simp
    | killExit | interruptExit =>
      simp only [Node.step, Option.ite_none_right_eq_some, Option.some.injEq] at hs
      obtain ⟨_, rfl⟩ := hs
      assumption
    | interruptRemove ok =>
      simp only [Node.step, Option.ite_none_right_eq_some, Option.some.injEq] at hs
      obtain ⟨_, rfl⟩ := hs
      split
      · assumption
      · split <;> assumption
    | periodic moved ok =>
      simp only [Node.step, Option.ite_none_right_eq_some, Option.some.injEq] at hs
      obtain ⟨_, rfl⟩ := hs
      have hr := shutdown_transfer_rest n moved ok
      have hd := shutdown_transfer_empty n moved ok
      have hk : (n.transfer moved ok).1.kill = n.kill := by rw [hr]
      have hm : (n.transfer moved ok).1.memory = n.memory := by rw [hr]
      split <;>
      · try dsimp only
        rw [hk]
        try rw [hm]
        tauto
    | reached moved =>
      simp only [Node.step, Option.ite_none_right_eq_some, Option.some.injEq] at hs
      obtain ⟨_, rfl⟩ := hs
      have hr := shutdown_transfer_rest n moved false
      have hd := shutdown_transfer_empty n moved false
      have hk : (n.transfer moved false).1.kill = n.kill := by rw [hr]
      have hm : (n.transfer moved false).1.memory = n.memory := by rw [hr]
      rw [hk]
      try rw [hm]
      tauto

/-- **C65**, partial: if `KillNode` ends the process, then every row that was confirmed is in the remote data folder and the node has left its cluster,
whatever was transferred before and whatever failed, if the rows in memory can be saved. -/
theorem C65_kill_partial {mode : Mode} {wal : Bool} {ops : List (Op ρ)} {n : Node ρ} (h : (Node.new mode wal).run ops = some n)
    (hs : ∀ op ∈ ops, Saves op) (hk : n.ended = some .killed) : (∀ r ∈ n.confirmed, r ∈ n.remote) ∧ n.member = false := by
  have hall : ∀ (ops : List (Op ρ)) (n : Node ρ), (∀ op ∈ ops, Saves op) → Always (fun _ op => Saves op) n ops := by
    intro ops
    induction ops with
    | nil => exact fun _ _ => trivial
    | cons op ops ih => exact fun n h => ⟨h op (by simp), fun n' _ => ih n' fun o ho => h o (List.mem_cons_of_mem _ ho)⟩
  have key : ShutdownKill n :=
    shutdown_run (p := fun _ op => Saves op) (fun _ _ op hi hp hs => hi.step op hp hs) ops _ n
      ⟨.new mode wal, by simp [Node.new], by simp [Node.new]⟩ (hall ops _ hs) h
  have hr := key.inv.killed hk
  have h1 := key.memory (by simp [hr])
  have h2 := key.disk (.inr hr)
  refine ⟨fun r hc => ?_, key.inv.left (.inl hr)⟩
  have := key.inv.somewhere r hc
  simpa [h1, h2] using this

/-- Without a remote data folder `KillNode` never ends the process and is answered with an error, as is `FlushNode`. -/
theorem C65_single_never_killed {wal : Bool} {ops : List (Op ρ)} {n : Node ρ} (h : (Node.new .single wal).run ops = some n) :
    n.ended ≠ some .killed ∧ (∀ reply ∈ n.replies, reply.1 = .flushNode ∨ reply.1 = .killNode → reply.2 = false) := by
  have hmode : ∀ n n' : Node ρ, ∀ op, (n.mode = .single ∧ ∀ reply ∈ n.replies, reply.1 = .flushNode ∨ reply.1 = .killNode → reply.2 = false) → True →
      n.step op = some n' → (n'.mode = .single ∧ ∀ reply ∈ n'.replies, reply.1 = .flushNode ∨ reply.1 = .killNode → reply.2 = false) := by
    intro n n' op ⟨hm, hr⟩ _ hs
    have ht : ∀ (m : Node ρ) moved ok, m.mode = .single → m.transfer moved ok = (m, false) := by
      intro m moved ok hm
      unfold Node.transfer
      rw [hm]
      rfl
    have ha : ∀ (a : Action) (b : Bool), (a = .flushNode ∨ a = .killNode → b = false) →
        ∀ reply ∈ n.replies ++ [(a, b)], reply.1 = .flushNode ∨ reply.1 = .killNode → reply.2 = false := by
      intro a b hab reply hrep
      rw [List.mem_append, List.mem_singleton] at hrep
      rcases hrep with hrep | rfl
      · exact hr reply hrep
      · exact hab
    have hf : ∀ failing, (n.flush failing).mode = .single := fun _ => hm
    cases op <;> simp only [Node.step, Option.ite_none_right_eq_some, Option.some.injEq] at hs <;> obtain ⟨hc, rfl⟩ := hs
    case flushMemory => exact ⟨hm, ha _ _ (by simp)⟩
    case flushNode =>
      rw [ht _ _ _ (hf _)]
      exact ⟨hm, ha _ _ (by simp)⟩
    case killTransfer =>
      rw [ht _ _ _ hm]
      exact ⟨hm, ha _ _ (by simp)⟩
    case killRemove =>
      split
      · exact ⟨hm, hr⟩
      · exact ⟨hm, ha _ _ (by simp)⟩
    case interruptRemove =>
      split
      · exact ⟨hm, hr⟩
      · split <;> exact ⟨hm, hr⟩
    case periodic =>
      rw [ht _ _ _ hm]
      exact ⟨hm, hr⟩
    case reached =>
      rw [ht _ _ _ hm]
      exact ⟨hm, hr⟩
    all_goals exact ⟨hm, hr⟩
  have h1 := shutdown_run (p := fun _ _ => True) hmode ops _ n ⟨rfl, by simp [Node.new]⟩ (shutdown_always ops _) h
  refine ⟨fun hk => ?_, h1.2⟩
  have := (shutdown_inv h).remoteOnly (.inr (.inr hk))
  rw [h1.1] at this
  exact absurd this (by decide)

/-- With the write-ahead log, every row that was confirmed is kept at every moment, also if the process ends by a panic or was stopped while data was
ingested, and whatever fails. -/
theorem C65_wal_kept {mode : Mode} {ops : List (Op ρ)} {n : Node ρ} (h : (Node.new mode true).run ops = some n) : ∀ r ∈ n.confirmed, Kept n r := by
  have hw : n.wal = true := by
    refine shutdown_run (I := fun n : Node ρ => n.wal = true) (p := fun _ _ => True) ?_ ops _ n rfl (shutdown_always ops _) h
    intro n n' op hw _ hs
    cases op <;> simp only [Node.step, Option.ite_none_right_eq_some, Option.some.injEq] at hs <;> obtain ⟨hc, rfl⟩ := hs
    case flushNode => rw [shutdown_transfer_rest]; exact hw
    case killTransfer => split <;> (rw [shutdown_transfer_rest]; exact hw)
    case killRemove => split <;> exact hw
    case interruptRemove =>
      split
      · exact hw
      · split <;> exact hw
    case periodic => split <;> (rw [shutdown_transfer_rest]; exact hw)
    case reached => rw [shutdown_transfer_rest]; exact hw
    all_goals exact hw
  intro r hr
  rcases (shutdown_inv h).logged hw r hr with hl | hd | hd
  · exact .inr (.inr ⟨hw, hl⟩)
  · exact .inl hd
  · exact .inr (.inl hd)

/-- What holds if nothing fails and no data points are ingested after the storage engine was closed. -/
structure ShutdownCalm (n : Node ρ) : Prop where
  kill : ShutdownKill n
  closed : n.ctrlC ≠ none → n.memory = []
  noPanic : n.ended ≠ some .panic

theorem succeeds_saves {op : Op ρ} (h : Succeeds op) : Saves op := by
  cases op
  case flushNode => exact h.1
  all_goals first | exact h | trivial

theorem ShutdownCalm.step {n n' : Node ρ} (h : ShutdownCalm n) (op : Op ρ) (hp : Succeeds op ∧ NotAfterClose n op) (hs : n.step op = some n') :
    ShutdownCalm n' := by
  obtain ⟨hp, hc⟩ := hp
  have h1 := h.closed
  have h2 := h.noPanic
  refine ⟨h.kill.step op (succeeds_saves hp) hs, ?_, ?_⟩
  · cases op <;> simp only [Node.step, Option.ite_none_right_eq_some, Option.some.injEq, Bool.and_eq_true, threads_iff] at hs <;> obtain ⟨hg, rfl⟩ := hs
    case ingest rows => exact fun hh => absurd hc hh
    case save failing => exact fun _ => shutdown_flush_memory n hp
    case flushMemory failing => exact fun _ => shutdown_flush_memory n hp
    case flushNode failing moved ok =>
      intro _
      dsimp only
      rw [shutdown_transfer_rest]
      exact shutdown_flush_memory n hp.1
    case killFlush failing => exact fun _ => shutdown_flush_memory n hp
    case killTransfer moved ok =>
      split <;>
      · dsimp only
        rw [shutdown_transfer_rest]
        exact h1
    case killRemove ok => split <;> exact h1
    case interrupt failing => exact fun _ => shutdown_flush_memory n hp
    case interruptRemove ok =>
      have hm : n.ctrlC = some .closed → n.memory = [] := fun hh => h1 (by simp [hh])
      have hm : n.memory = [] := hm (by simpa using hg.2)
      split
      · exact fun _ => hm
      · split <;> exact fun _ => hm
    case periodic moved ok =>
      split
      · rw [shutdown_transfer_rest]
        exact h1
      · dsimp only
        rw [shutdown_transfer_rest]
        exact h1
    case reached moved =>
      rw [shutdown_transfer_rest]
      exact h1
    all_goals exact h1
  · cases op <;> simp only [Node.step, Option.ite_none_right_eq_some, Option.some.injEq, Bool.and_eq_true] at hs <;> obtain ⟨hg, rfl⟩ := hs
    case flushNode failing moved ok =>
      dsimp only
      rw [shutdown_transfer_rest]
      exact h2
    case killTransfer moved ok =>
      split <;>
      · dsimp only
        rw [shutdown_transfer_rest]
        exact h2
    case killRemove ok => split <;> exact h2
    case killExit => simp
    case interruptExit => simp
    case interruptRemove ok =>
      have hp : ok = true := hp
      subst hp
      split
      · exact h2
      · exact h2
    case periodic moved ok =>
      have hp : ok = true := hp
      subst hp
      have : (n.transfer moved true).2 = true := by
        unfold Node.transfer
        rw [if_pos hg.2]
        rfl
      rw [if_pos this, shutdown_transfer_rest]
      exact h2
    case reached moved =>
      rw [shutdown_transfer_rest]
      exact h2
    all_goals exact h2

/-- **C65**, partial: if nothing fails and no data points are ingested between the close of the storage engine by CTRL+C and the end of the process, then
a node that is stopped keeps all rows it confirmed and leaves its cluster, for all executions. -/
theorem C65_stops_cleanly_partial {mode : Mode} {wal : Bool} {ops : List (Op ρ)} {n : Node ρ} (h : (Node.new mode wal).run ops = some n)
    (hs : Always (fun n op => Succeeds op ∧ NotAfterClose n op) (Node.new mode wal) ops) : StopsCleanly n := by
  have key : ShutdownCalm n :=
    shutdown_run (fun _ _ op hi hp hs => hi.step op hp hs) ops _ n
      ⟨⟨.new mode wal, by simp [Node.new], by simp [Node.new]⟩, by simp [Node.new], by simp [Node.new]⟩ hs h
  have inv := key.kill.inv
  have hkill : n.ended = some .killed → (∀ r ∈ n.confirmed, r ∈ n.remote) ∧ n.member = false := by
    intro hk
    have hr := inv.killed hk
    refine ⟨fun r hc => ?_, inv.left (.inl hr)⟩
    have := inv.somewhere r hc
    simpa [key.kill.memory (by simp [hr]), key.kill.disk (.inr hr)] using this
  refine ⟨key.noPanic, fun he => ?_, fun hk _ => (hkill hk).1⟩
  cases hend : n.ended with
  | none => exact absurd hend he
  | some e =>
    cases e with
    | panic => exact absurd hend key.noPanic
    | killed =>
      obtain ⟨h1, h2⟩ := hkill hend
      exact ⟨fun r hr => .inr (.inl (h1 r hr)), h2⟩
    | interrupted =>
      have hc := inv.interrupted hend
      refine ⟨fun r hr => ?_, inv.left (.inr hc)⟩
      have := inv.somewhere r hr
      rw [key.closed (by simp [hc])] at this
      rcases this with h | h | h
      · exact absurd h (by simp)
      · exact .inl h
      · exact .inr (.inl h)

/-- After `FlushNode` succeeded, all rows that were confirmed before are in the remote data folder if the rows in memory could be saved. -/
theorem C65_flush_node_partial {mode : Mode} {wal : Bool} {ops : List (Op ρ)} {n n' : Node ρ} {failing moved : ρ → Bool} {ok : Bool}
    (h : (Node.new mode wal).run ops = some n) (hf : ∀ r, failing r = false) (hs : n.step (.flushNode failing moved ok) = some n')
    (hr : n'.replies = n.replies ++ [(.flushNode, true)]) : (∀ r ∈ n.confirmed, r ∈ n'.remote) ∧ n'.memory = [] ∧ n'.disk = [] := by
  have inv := (shutdown_inv h).step _ hs
  simp only [Node.step, Option.ite_none_right_eq_some, Option.some.injEq] at hs
  obtain ⟨_, rfl⟩ := hs
  have hok : ((n.flush failing).transfer moved ok).2 = true := by
    have := List.append_cancel_left hr
    simpa using this
  have hd := (shutdown_transfer_ok _ hok).2
  have hm : ((n.flush failing).transfer moved ok).1.memory = [] := by
    rw [shutdown_transfer_rest]
    exact shutdown_flush_memory n hf
  have hc : ((n.flush failing).transfer moved ok).1.confirmed = n.confirmed := by
    rw [shutdown_transfer_rest]
    rfl
  refine ⟨fun r hrc => ?_, hm, hd⟩
  have := inv.somewhere r (by dsimp only; rw [hc]; exact hrc)
  dsimp only at this
  rw [hm, hd] at this
  simpa using this

/-! ### Examples and witnesses -/

def none' : Nat → Bool := fun _ => false

/-- An execution that meets the hypotheses: rows are ingested, flushed and ingested again before the node in a cluster is killed. -/
example : ∃ n, (Node.new .edge false : Node Nat).run [.ingest [1, 2], .ingestNormal [3], .flushNode none' none' true, .ingest [4], .save none', .ingest [5],
      .killFlush none', .killTransfer none' true, .killRemove true, .killExit] = some n ∧ n.ended = some .killed ∧ n.remote.length = 5 ∧
    Always (fun n op => Succeeds op ∧ NotAfterClose n op) (Node.new .edge false : Node Nat) [.ingest [1, 2], .interrupt none', .ingestNormal [3]] := by
  refine ⟨_, rfl, by decide, by decide, ?_⟩
  refine ⟨⟨trivial, rfl⟩, fun _ _ => ⟨⟨fun _ => rfl, trivial⟩, fun _ _ => ⟨⟨trivial, trivial⟩, fun _ _ => trivial⟩⟩⟩

/-- C65 is false: CTRL+C releases the lock of the storage engine before the process ends, so data points can be ingested and confirmed that no thread
saves anymore. Nothing fails in this execution. -/
theorem C65_interrupt_loses : ∃ n, (Node.new .edge false : Node Nat).run
      [.ingest [1], .interrupt none', .ingest [2], .interruptRemove true, .interruptExit] = some n ∧
    n.ended = some .interrupted ∧ 2 ∈ n.confirmed ∧ ¬ Kept n 2 ∧ ¬ StopsCleanly n := by
  refine ⟨_, rfl, by decide, by decide, ?_, ?_⟩
  · rintro (h | h | ⟨h, _⟩)
    · exact absurd h (by decide)
    · exact absurd h (by decide)
    · exact absurd h (by decide)
  · rintro ⟨_, h, _⟩
    obtain ⟨h, _⟩ := h (by decide)
    rcases h 2 (by decide) with h | h | ⟨h, _⟩
    · exact absurd h (by decide)
    · exact absurd h (by decide)
    · exact absurd h (by decide)

/-- C65 is false: `KillNode` ends the process although data could not be saved, as the errors are only logged. -/
theorem C65_kill_loses : ∃ n, (Node.new .edge false : Node Nat).run
      [.ingest [1, 2], .killFlush (· == 2), .killTransfer none' true, .killRemove true, .killExit] = some n ∧
    n.ended = some .killed ∧ 2 ∈ n.confirmed ∧ ¬ Kept n 2 := by
  refine ⟨_, rfl, by decide, by decide, ?_⟩
  rintro (h | h | ⟨h, _⟩)
  · exact absurd h (by decide)
  · exact absurd h (by decide)
  · exact absurd h (by decide)

/-- C65 is false: if the remote data folder cannot be reached when data is transferred periodically, the process ends and the rows in memory are lost. -/
theorem C65_periodic_ends : ∃ n, (Node.new .edge false : Node Nat).run [.ingest [1], .periodic none' false] = some n ∧
    n.ended = some .panic ∧ 1 ∈ n.confirmed ∧ ¬ Kept n 1 ∧ ¬ StopsCleanly n := by
  refine ⟨_, rfl, by decide, by decide, ?_, fun h => h.1 (by decide)⟩
  rintro (h | h | ⟨h, _⟩)
  · exact absurd h (by decide)
  · exact absurd h (by decide)
  · exact absurd h (by decide)

/-- C65 is false: a node without a remote data folder answers `KillNode` with an error and continues. -/
theorem C65_kill_single : ∃ n, (Node.new .single false : Node Nat).run [.ingest [1], .killFlush none', .killTransfer none' true] = some n ∧
    n.ended = none ∧ n.replies = [(.killNode, false)] ∧ n.disk = [1] :=
  ⟨_, rfl, by decide, by decide, by decide⟩

end ModelarDB.Props
