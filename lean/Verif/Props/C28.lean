import Verif.Model.Configuration
import Verif.Lemmas.Timestamps
import Verif.Props.C24
/-
C28: Changing a memory setting changes the budget by exactly the difference.
-/
namespace ModelarDB.Props
open Spec Lemmas Model.Storage Spec.Storage Lemmas.Storage Model.Configuration

variable {α : Type}

/-- A step that sets a value below 2^63 and, for uncompressed and compressed memory, with which what remains does not
leave the range of `i64`. -/
def Sensible (s : Server α) : Model.Configuration.Op α → Prop
  | .engine _ => True
  | .setIngested value _ => value < 2 ^ 63
  | .setUncompressed value _ _ => value < 2 ^ 63 ∧ IsI64 (s.engine.u.remaining + (value - s.configuration.uncompressed))
  | .setCompressed value _ => value < 2 ^ 63 ∧ IsI64 (s.engine.c.remaining + (value - s.configuration.compressed))

/-- Every step of a history is sensible. -/
def SensibleRun (env : Env α) (s : Server α) : List (Model.Configuration.Op α) → Prop
  | [] => True
  | op :: ops => Sensible s op ∧ ∀ s' ∈ s.step env op, SensibleRun env s' ops

/-- The files can be written. -/
def ioSucceeds : Model.Configuration.Op α → Prop
  | .engine op => Op.ioOk op
  | .setIngested _ saved => saved = true
  | .setUncompressed _ io saved => io = true ∧ saved = true
  | .setCompressed _ saved => saved = true

private theorem valueChange_eq {new old : Nat} (hn : new < 2 ^ 63) (ho : old < 2 ^ 63) : valueChange new old = new - old := by
  unfold valueChange asI64
  rw [wrapI64_of_range (x := (new : Int)) (by unfold IsI64; omega), wrapI64_of_range (x := (old : Int)) (by unfold IsI64; omega),
    wrapI64_of_range (by unfold IsI64; omega)]

private theorem added_eq {remaining change : Int} (h : IsI64 (remaining + change)) : added remaining change = change := by
  unfold added
  rw [wrapI64_of_range h]
  omega

/-- The operations that change budgets. -/
private def isAdjust : Model.Storage.Op α → Bool
  | .adjustIngested _ => true
  | .adjustUncompressed _ _ => true
  | .adjustCompressed _ => true
  | _ => false

private theorem budgets_step {env : Env α} {e e' : Engine α} {op : Model.Storage.Op α} (hop : isAdjust op = false)
    (h : e.step env op = some e') : e'.ingestedBudget = e.ingestedBudget ∧ e'.uncompressedBudget = e.uncompressedBudget ∧
      e'.compressedBudget = e.compressedBudget ∧ (e.ingestedRemaining ≤ e'.ingestedRemaining ∨ 0 ≤ e'.ingestedRemaining) := by
  cases op <;> try cases hop
  all_goals
    simp only [Engine.step] at h
    repeat' split at h
  all_goals first
    | cases h
    | (simp only [Option.map_eq_some_iff] at h; obtain ⟨_, _, rfl⟩ := h)
  all_goals
    refine ⟨rfl, rfl, rfl, ?_⟩
    dsimp only
    omega

/-- What is used of the ingested memory fits in `i64`, the budgets are the configured values, and the engine is one that the storage
engine can reach by its own operations. -/
private structure Configured (env : Env α) (i u c : Nat) (io : Prop) (s : Server α) : Prop where
  reached : ∃ ops, (Engine.new i u c).run env ops = some s.engine ∧ (io → ∀ op ∈ ops, Op.ioOk op)
  ingested : s.engine.ingestedBudget = s.configuration.ingested
  uncompressed : s.engine.uncompressedBudget = s.configuration.uncompressed
  compressed : s.engine.compressedBudget = s.configuration.compressed
  ingestedLt : s.configuration.ingested < 2 ^ 63
  uncompressedLt : s.configuration.uncompressed < 2 ^ 63
  compressedLt : s.configuration.compressed < 2 ^ 63
  used : s.engine.ingestedBudget - s.engine.ingestedRemaining < 2 ^ 63

private theorem run_snoc {env : Env α} {e e₁ e₂ : Engine α} {ops : List (Model.Storage.Op α)} {op : Model.Storage.Op α}
    (h1 : e.run env ops = some e₁) (h2 : e₁.step env op = some e₂) : e.run env (ops ++ [op]) = some e₂ := by
  induction ops generalizing e with
  | nil => cases h1; simp [Engine.run, h2]
  | cons o ops ih =>
    simp only [Engine.run, List.cons_append] at h1 ⊢
    obtain ⟨e', h3, h4⟩ := Option.bind_eq_some_iff.mp h1
    rw [h3]
    exact ih h4

private theorem reached_snoc {env : Env α} {i u c : Nat} {io : Prop} {e e' : Engine α} {op : Model.Storage.Op α}
    (h : ∃ ops, (Engine.new i u c).run env ops = some e ∧ (io → ∀ op ∈ ops, Op.ioOk op)) (hstep : e.step env op = some e')
    (hio : io → Op.ioOk op) : ∃ ops, (Engine.new i u c).run env ops = some e' ∧ (io → ∀ op ∈ ops, Op.ioOk op) := by
  obtain ⟨ops, h1, h2⟩ := h
  refine ⟨ops ++ [op], run_snoc h1 hstep, fun h o ho => ?_⟩
  rw [List.mem_append, List.mem_singleton] at ho
  rcases ho with ho | rfl
  · exact h2 h o ho
  · exact hio h

private theorem save_engine (s : Server α) (saved : Bool) : (s.save saved).engine = s.engine := by unfold Server.save; split <;> rfl

private theorem save_configuration (s : Server α) (saved : Bool) : (s.save saved).configuration = s.configuration := by
  unfold Server.save; split <;> rfl

private theorem configured_step {env : Env α} {i u c : Nat} {io : Prop} {s s' : Server α} {op : Model.Configuration.Op α}
    (h : Configured env i u c io s) (hop : Sensible s op) (hio : io → ioSucceeds op) (hstep : s.step env op = some s') :
    Configured env i u c io s' := by
  cases op with
  | engine op =>
    have hadj : isAdjust op = false ∧ ∃ e, s.engine.step env op = some e ∧ s' = { s with engine := e } := by
      cases op <;> simp only [Server.step, Option.map_eq_some_iff, reduceCtorEq] at hstep <;>
        first | (obtain ⟨e, h1, h2⟩ := hstep; exact ⟨rfl, e, h1, h2.symm⟩)
    obtain ⟨hadj, e, he, rfl⟩ := hadj
    obtain ⟨h1, h2, h3, h4⟩ := budgets_step hadj he
    refine ⟨reached_snoc h.reached he hio, ?_, ?_, ?_, h.ingestedLt, h.uncompressedLt, h.compressedLt, ?_⟩
    · exact h1.trans h.ingested
    · exact h2.trans h.uncompressed
    · exact h3.trans h.compressed
    · have h5 := h.used
      have h6 := h.ingested
      have h7 := h.ingestedLt
      dsimp only
      omega
  | setIngested value saved =>
    have hv : value < 2 ^ 63 := hop
    simp only [Server.step, Option.map_eq_some_iff] at hstep
    obtain ⟨e, he, rfl⟩ := hstep
    obtain ⟨ops, hr, _⟩ := h.reached
    have hacc := C24_ingested_exact hr
    have h1 := h.ingested
    have h2 := h.used
    have hch : added s.engine.ingestedRemaining (valueChange value s.configuration.ingested) = value - s.configuration.ingested := by
      rw [valueChange_eq hv h.ingestedLt, added_eq]
      unfold IsI64
      omega
    rw [hch] at he
    have hreach := reached_snoc h.reached he (fun _ => trivial)
    simp only [Engine.step, Option.some.injEq] at he
    subst he
    refine ⟨?_, ?_, ?_, ?_, ?_, ?_, ?_, ?_⟩ <;> simp only [save_engine, save_configuration]
    · exact hreach
    · omega
    · exact h.uncompressed
    · exact h.compressed
    · exact hv
    · exact h.uncompressedLt
    · exact h.compressedLt
    · omega
  | setUncompressed value io' saved =>
    obtain ⟨hv, hrange⟩ := hop
    simp only [Server.step, Option.map_eq_some_iff] at hstep
    obtain ⟨e, he, rfl⟩ := hstep
    have h1 := h.uncompressed
    have hch : added s.engine.u.remaining (valueChange value s.configuration.uncompressed) = value - s.configuration.uncompressed := by
      rw [valueChange_eq hv h.uncompressedLt, added_eq hrange]
    rw [hch] at he ⊢
    have hreach := reached_snoc h.reached he (fun hi => (hio hi).1)
    simp only [Engine.step] at he
    split at he <;> cases he
    · next hadj =>
      rw [hadj]
      refine ⟨?_, ?_, ?_, ?_, ?_, ?_, ?_, ?_⟩ <;> simp only [save_engine, save_configuration]
      · exact hreach
      · exact h.ingested
      · omega
      · exact h.compressed
      · exact h.ingestedLt
      · exact hv
      · exact h.compressedLt
      · exact h.used
    · next hadj =>
      rw [hadj]
      exact ⟨hreach, h.ingested, h.uncompressed, h.compressed, h.ingestedLt, h.uncompressedLt, h.compressedLt, h.used⟩
  | setCompressed value saved =>
    obtain ⟨hv, hrange⟩ := hop
    simp only [Server.step, Option.map_eq_some_iff] at hstep
    obtain ⟨e, he, rfl⟩ := hstep
    have h1 := h.compressed
    have hch : added s.engine.c.remaining (valueChange value s.configuration.compressed) = value - s.configuration.compressed := by
      rw [valueChange_eq hv h.compressedLt, added_eq hrange]
    rw [hch] at he
    have hreach := reached_snoc h.reached he (fun _ => trivial)
    simp only [Engine.step, Option.map_eq_some_iff] at he
    obtain ⟨k, _, rfl⟩ := he
    refine ⟨?_, ?_, ?_, ?_, ?_, ?_, ?_, ?_⟩ <;> simp only [save_engine, save_configuration]
    · exact hreach
    · exact h.ingested
    · exact h.uncompressed
    · omega
    · exact h.ingestedLt
    · exact h.uncompressedLt
    · exact hv
    · exact h.used

private theorem configured_run {env : Env α} {i u c : Nat} {io : Prop} {ops : List (Model.Configuration.Op α)} {s s' : Server α}
    (h : Configured env i u c io s) (hops : SensibleRun env s ops) (hio : io → ∀ op ∈ ops, ioSucceeds op) (hrun : s.run env ops = some s') :
    Configured env i u c io s' := by
  induction ops generalizing s with
  | nil => cases hrun; exact h
  | cons op ops ih =>
    simp only [Server.run] at hrun
    obtain ⟨s₁, h1, h2⟩ := Option.bind_eq_some_iff.mp hrun
    exact ih (configured_step h hops.1 (fun hi => hio hi op (List.mem_cons_self ..)) h1) (hops.2 s₁ h1)
      (fun hi o ho => hio hi o (List.mem_cons_of_mem _ ho)) h2

private theorem configured_start {env : Env α} {conf : Configuration} {io : Prop} {s : Server α} (h : Server.start conf = some s) :
    Configured env conf.ingested conf.uncompressed conf.compressed io s := by
  unfold Server.start toMemory at h
  by_cases hi : conf.ingested < 2 ^ 63 <;> by_cases hu : conf.uncompressed < 2 ^ 63 <;> by_cases hk : conf.compressed < 2 ^ 63 <;>
    simp only [hi, hu, hk, if_true, if_false, Option.bind_eq_bind, Option.bind_some, Option.bind_none, Option.some.injEq, reduceCtorEq] at h
  subst h
  exact ⟨⟨[], rfl, fun _ _ h => nomatch h⟩, rfl, rfl, rfl, hi, hu, hk, by simp [Engine.new]⟩

/-- C28 for ingested memory: after any history in which the settings are given values below 2^63, what is available and what is used is the
currently configured value, even if files cannot be written. -/
theorem C28_ingested_partial {env : Env α} {conf : Configuration} {s₀ s : Server α} {ops : List (Model.Configuration.Op α)}
    (hstart : Server.start conf = some s₀) (hops : SensibleRun env s₀ ops) (hrun : s₀.run env ops = some s) :
    s.engine.ingestedRemaining + ingestedMemory s.engine = s.configuration.ingested := by
  have h := configured_run (io := False) (configured_start hstart) hops (fun h => h.elim) hrun
  obtain ⟨eops, hr, _⟩ := h.reached
  rw [C24_ingested_exact hr, h.ingested]

/-- C28 for uncompressed memory, up to the memory that was given to buffers without reserving it, see C24. -/
theorem C28_uncompressed_partial {env : Env α} (hsort : Sorts env) (hcap : 2 ≤ env.capacity) {conf : Configuration} {s₀ s : Server α}
    {ops : List (Model.Configuration.Op α)} (hstart : Server.start conf = some s₀) (hops : SensibleRun env s₀ ops)
    (hio : ∀ op ∈ ops, ioSucceeds op) (hrun : s₀.run env ops = some s) (hg : Good env s.engine.received) :
    s.engine.u.remaining + uncompressedMemory env s.engine = s.configuration.uncompressed + s.engine.u.unreserved := by
  have h := configured_run (io := True) (configured_start hstart) hops (fun _ => hio) hrun
  obtain ⟨eops, hr, hi⟩ := h.reached
  rw [C24_uncompressed_partial hsort hcap (hi trivial) hr hg, h.uncompressed]

/-- C28 for compressed memory, up to the sizes that are counted twice, see C24. -/
theorem C28_compressed_partial {env : Env α} {conf : Configuration} {s₀ s : Server α} {ops : List (Model.Configuration.Op α)}
    (hstart : Server.start conf = some s₀) (hops : SensibleRun env s₀ ops) (hrun : s₀.run env ops = some s) :
    s.configuration.compressed ≤ s.engine.c.remaining + compressedMemory s.engine ∧
      ((∀ t points, (env.segmentSizes t points).length ≤ 1) →
        s.engine.c.remaining + compressedMemory s.engine = s.configuration.compressed) := by
  have h := configured_run (io := False) (configured_start hstart) hops (fun h => h.elim) hrun
  obtain ⟨eops, hr, _⟩ := h.reached
  have := C24_compressed_partial hr
  rw [h.compressed] at this
  exact this

/-- C28, the settings are those last set, and the file has the current settings if it could always be written. -/
theorem C28_file {env : Env α} {conf : Configuration} {s₀ s : Server α} {ops : List (Model.Configuration.Op α)}
    (hstart : Server.start conf = some s₀) (hio : ∀ op ∈ ops, ioSucceeds op) (hrun : s₀.run env ops = some s) :
    s.file = s.configuration.print ∧
      (∀ value s', s.step env (.setIngested value true) = some s' →
        s'.file = { s.file with ingested := some value } ∧ s'.configuration = { s.configuration with ingested := value }) ∧
      (∀ value s', s.step env (.setCompressed value true) = some s' →
        s'.file = { s.file with compressed := some value } ∧ s'.configuration = { s.configuration with compressed := value }) ∧
      (∀ value io s', s.step env (.setUncompressed value io true) = some s' →
        s' = { s with engine := s'.engine } ∨
        s'.file = { s.file with uncompressed := some value } ∧ s'.configuration = { s.configuration with uncompressed := value }) := by
  have hfile : s.file = s.configuration.print := by
    have h0 : s₀.file = s₀.configuration.print := by
      unfold Server.start toMemory at hstart
      by_cases hi : conf.ingested < 2 ^ 63 <;> by_cases hu : conf.uncompressed < 2 ^ 63 <;> by_cases hk : conf.compressed < 2 ^ 63 <;>
        simp only [hi, hu, hk, if_true, if_false, Option.bind_eq_bind, Option.bind_some, Option.bind_none, Option.some.injEq,
          reduceCtorEq] at hstart
      subst hstart
      rfl
    clear hstart
    induction ops generalizing s₀ with
    | nil => cases hrun; exact h0
    | cons op ops ih =>
      simp only [Server.run] at hrun
      obtain ⟨s₁, h1, h2⟩ := Option.bind_eq_some_iff.mp hrun
      refine ih (fun o ho => hio o (List.mem_cons_of_mem _ ho)) h2 ?_
      have hop := hio op (List.mem_cons_self ..)
      cases op with
      | engine op =>
        cases op <;> simp only [Server.step, Option.map_eq_some_iff, reduceCtorEq] at h1 <;>
          (obtain ⟨e, _, rfl⟩ := h1; exact h0)
      | setIngested value saved =>
        simp only [Server.step, Option.map_eq_some_iff] at h1
        obtain ⟨e, _, rfl⟩ := h1
        have : saved = true := hop
        subst this
        rfl
      | setUncompressed value io saved =>
        simp only [Server.step, Option.map_eq_some_iff] at h1
        obtain ⟨e, _, rfl⟩ := h1
        have : saved = true := hop.2
        subst this
        split
        · rfl
        · exact h0
      | setCompressed value saved =>
        simp only [Server.step, Option.map_eq_some_iff] at h1
        obtain ⟨e, _, rfl⟩ := h1
        have : saved = true := hop
        subst this
        rfl
  refine ⟨hfile, fun value s' h => ?_, fun value s' h => ?_, fun value io s' h => ?_⟩
  all_goals
    simp only [Server.step, Option.map_eq_some_iff] at h
    obtain ⟨e, _, rfl⟩ := h
    rw [hfile]
  · exact ⟨rfl, rfl⟩
  · exact ⟨rfl, rfl⟩
  · split
    · exact Or.inr ⟨rfl, rfl⟩
    · exact Or.inl rfl

/-- The settings are changed while a batch is used. -/
def changes : List (Model.Configuration.Op Nat) :=
  [.engine (.insert "t" [⟨"t", [], 0, 1⟩] none 4), .setIngested 3 true, .setUncompressed 50 true true, .engine .ingestionTake,
    .engine (.ingestionRow true), .setCompressed 0 true, .setIngested 9 true, .setUncompressed 10 true true]

def smallConfiguration : Configuration := { Configuration.default with ingested := 6, uncompressed := 64, compressed := 20 }

example : ∃ s₀ s : Server Nat, Server.start smallConfiguration = some s₀ ∧ s₀.run (smallEnv 2) changes = some s ∧
    s.engine.ingestedRemaining = 5 ∧ ingestedMemory s.engine = 4 ∧ s.configuration.ingested = 9 ∧
    s.engine.u.remaining = 10 ∧ s.configuration.uncompressed = 10 ∧ s.engine.c.remaining = 0 :=
  ⟨(Server.start smallConfiguration).get (by decide +kernel),
    (((Server.start smallConfiguration).get (by decide +kernel)).run (smallEnv 2) changes).get (by decide +kernel),
    (Option.some_get _).symm, (Option.some_get _).symm, by decide +kernel⟩

/-- C28 is false for large values: after the ingested memory is set to 2^63 bytes nothing can be ingested, and the server
panics when it is started again with that value. -/
theorem C28_large_value : ∃ s₀ s : Server Nat, Server.start smallConfiguration = some s₀ ∧
    s₀.step (smallEnv 2) (.setIngested (2 ^ 63) true) = some s ∧ s.configuration.ingested = 2 ^ 63 ∧
    s.engine.ingestedRemaining = -2 ^ 63 ∧ ingestedMemory s.engine = 0 ∧ (Server.start s.configuration : Option (Server Nat)) = none :=
  ⟨(Server.start smallConfiguration).get (by decide +kernel),
    (((Server.start smallConfiguration).get (by decide +kernel)).step (smallEnv 2) (.setIngested (2 ^ 63) true)).get (by decide +kernel),
    (Option.some_get _).symm, (Option.some_get _).symm, by decide +kernel⟩

/-- C28, exactly the configurations whose three amounts of memory are below 2^63 can be started. -/
theorem C28_starts_iff (conf : Configuration) : (Server.start conf : Option (Server α)).isSome ↔
    conf.ingested < 2 ^ 63 ∧ conf.uncompressed < 2 ^ 63 ∧ conf.compressed < 2 ^ 63 := by
  unfold Server.start toMemory
  by_cases hi : conf.ingested < 2 ^ 63 <;> by_cases hu : conf.uncompressed < 2 ^ 63 <;> by_cases hk : conf.compressed < 2 ^ 63 <;>
    simp [hi, hu, hk]

/-- C28 is false for every large value: in every state, after the ingested memory is set to at least 2^63 bytes, the server panics
when it is started again from the file with any arguments that do not replace the value. -/
theorem C28_large_all {env : Env α} {s s' : Server α} {n : Nat} (hn : 2 ^ 63 ≤ n) (h : s.step env (.setIngested n true) = some s')
    {args : Args} (ha : args.ingested = none) {c : Configuration} {f : File} (hl : load (some s'.file) args = some (c, f)) :
    c.ingested = n ∧ (Server.start c : Option (Server α)) = none := by
  have hc : c.ingested = n := by
    simp only [Server.step, Option.map_eq_some_iff] at h
    obtain ⟨e, _, rfl⟩ := h
    obtain ⟨a1, a2, a3, a4, a5, a6, a7⟩ := args
    cases ha
    simp only [Server.save, if_true, load, Option.bind_eq_bind] at hl
    rw [show ∀ c : Configuration, Configuration.parse c.print = some c from fun _ => rfl, Option.bind_some] at hl
    split at hl
    · cases hl
      rfl
    · cases hl
  refine ⟨hc, ?_⟩
  cases hs : (Server.start c : Option (Server α)) with
  | none => rfl
  | some s₁ =>
    have := (C28_starts_iff (α := α) c).mp (by rw [hs]; rfl)
    omega

example : ∃ s₀ s : Server Nat, Server.start smallConfiguration = some s₀ ∧ s₀.step (smallEnv 2) (.setIngested (2 ^ 63 + 5) true) = some s ∧
    (load (some s.file) ⟨none, some 8, none, none, none, none, none⟩).isSome :=
  ⟨(Server.start smallConfiguration).get (by decide +kernel),
    (((Server.start smallConfiguration).get (by decide +kernel)).step (smallEnv 2) (.setIngested (2 ^ 63 + 5) true)).get (by decide +kernel),
    (Option.some_get _).symm, (Option.some_get _).symm, by decide +kernel⟩

/-- C28 is false for every large value: if it is the first change, less than nothing remains for ingested data, so nothing can be ingested. -/
theorem C28_large_blocks {env : Env α} {conf : Configuration} {s₀ s : Server α} {n : Nat} {saved : Bool} (hs : Server.start conf = some s₀)
    (hn : 2 ^ 63 ≤ n) (hm : n < 2 ^ 64) (h : s₀.step env (.setIngested n saved) = some s) :
    s.engine.ingestedRemaining = (n : Int) - 2 ^ 64 ∧ s.engine.ingestedRemaining < 0 := by
  have hi := ((C28_starts_iff (α := α) conf).mp (by rw [hs]; rfl)).1
  have h0 : s₀.engine.ingestedRemaining = conf.ingested ∧ s₀.configuration = conf := by
    obtain ⟨h1, h2, h3⟩ := (C28_starts_iff (α := α) conf).mp (by rw [hs]; rfl)
    simp only [Server.start, toMemory, h1, h2, h3, if_true, Option.bind_eq_bind, Option.bind_some, Option.some.injEq] at hs
    subst hs
    exact ⟨rfl, rfl⟩
  simp only [Server.step, Engine.step, Option.map_eq_some_iff, Option.some.injEq] at h
  obtain ⟨e, rfl, rfl⟩ := h
  rw [save_engine]
  simp only [h0.1, h0.2, added, valueChange, asI64, Model.wrapI64]
  simp only [Int.sub_bmod_bmod, Int.bmod_sub_bmod, Int.add_bmod_bmod]
  rw [show (conf.ingested : Int) + (n - conf.ingested) = n by omega]
  simp only [Int.bmod]
  omega

end ModelarDB.Props
