import Verif.Lemmas.StorageFlush
import Verif.Props.C22
/-
C23: Flush saves everything that was acknowledged before it.
-/
namespace ModelarDB.Props
open Model.Storage Spec.Storage Lemmas.Storage

variable {α : Type}

/-- C23. Anything happens (`before`), a flush or stop is requested when the engine is in the state `e₁`, anything happens
(`after`), and at the end this request has been answered: there are more results than requests before it, and results are
sent in the order of the requests. Then every row received before the request is saved, as many times as it was received. Missing:
engines in which two series have the same hash, repeated timestamps and I/O that fails (see C22). -/
theorem C23_flush_saves_everything_partial {env : Env α} (hs : Sorts env) (hcap : 2 ≤ env.capacity) {i u c : Nat}
    {before after : List (Op α)} {request : Op α} (hreq : Op.isRequest request) (hio : ∀ op ∈ before ++ after, Op.ioOk op)
    {e₁ e₂ e : Engine α} (h1 : (Engine.new i u c).run env before = some e₁) (h2 : e₁.step env request = some e₂)
    (h3 : e₂.run env after = some e) (hanswered : before.countP Op.isRequest < e.results.length) (hg : Good env e.received) :
    e₁.received.Subperm (savedRows e) := by
  classical
  have hlen : (requests e₁).length = before.countP Op.isRequest := by
    rw [(requests_run h1).2]
    simp [requests, Engine.new]
  have hreqs2 := requests_step h2
  obtain ⟨⟨l, hreqs3⟩, _⟩ := requests_run h3
  have hresult : e.results[before.countP Op.isRequest]? = some e₁.received.length := by
    have h4 : (requests e)[before.countP Op.isRequest]? = some e₁.received.length := by
      rw [hreqs3, hreqs2, if_pos hreq, List.append_assoc, List.getElem?_append_right (Nat.le_of_eq hlen), hlen,
        Nat.sub_self]
      rfl
    unfold requests at h4
    rwa [List.append_assoc, List.append_assoc, List.getElem?_append_left hanswered] at h4
  have hrun : (Engine.new i u c).run env (before ++ request :: after) = some e := by
    have : ∀ (l l' : List (Op α)) (e : Engine α), e.run env (l ++ l') = (e.run env l).bind fun e => e.run env l' := by
      intro l
      induction l with
      | nil => intro l' e; rfl
      | cons op l ih =>
        intro l' e
        simp only [List.cons_append, Engine.run, Option.bind_assoc]
        exact Option.bind_congr fun e' _ => ih l' e'
    rw [this, h1]
    simp [Engine.run, h2, h3]
  have hio' : ∀ op ∈ before ++ request :: after, Op.ioOk op := by
    intro op hop
    rw [List.mem_append, List.mem_cons] at hop
    rcases hop with hop | rfl | hop
    · exact hio op (List.mem_append_left _ hop)
    · cases op <;> trivial
    · exact hio op (List.mem_append_right _ hop)
  have ht := tokens_run hs hcap _ hio' (inv_new i u c) (tokens_new i u c) hrun hg
  obtain ⟨_, hcount⟩ := ht.results _ (List.mem_of_getElem? hresult)
  have htake : e.received.take e₁.received.length = e₁.received := by
    obtain ⟨l1, hl1⟩ := received_mono h2
    obtain ⟨l2, hl2⟩ := run_received h3
    rw [hl2, hl1, List.append_assoc, List.take_append_of_le_length (Nat.le_refl _), List.take_length]
  rw [htake] at hcount
  rw [List.subperm_ext_iff]
  intro r _
  exact hcount fun x => x == r

/-- Three rows are received, two of them are in an open buffer and one is queued when a flush is requested. A fourth row is
received before the request is processed. -/
def flushing : List (Op Nat) × List (Op Nat) :=
  ([.insert "t" [rowA 2 0, rowB 1 0] (some 0) 3, .ingestionTake, .ingestionRow true, .insert "t" [rowA 3 0] (some 1) 1],
    [.insert "u" [rowC 1 0] (some 0) 1, .ingestionRow true, .ingestionDone, .ingestionTake, .ingestionRow true, .ingestionDone,
      .ingestionTake, .ingestionTake, .compressionTake, .compressionDone, .compressionTake, .ingestionRow true, .compressionDone,
      .compressionTake, .write, .write, .write])

example : ∃ e₁ e₂ e : Engine Nat, (Engine.new 6 48 20).run (smallEnv 4) flushing.1 = some e₁ ∧
    e₁.step (smallEnv 4) .flush = some e₂ ∧ e₂.run (smallEnv 4) flushing.2 = some e ∧
    flushing.1.countP Op.isRequest < e.results.length ∧ Good (smallEnv 4) e.received ∧
    savedRows e = [rowB 1 0, rowA 2 0, rowA 3 0] ∧ openRows e = [rowC 1 0] := by
  refine ⟨((Engine.new 6 48 20).run (smallEnv 4) flushing.1).get (by decide +kernel),
    ((Engine.new 6 48 20).run (smallEnv 4) (flushing.1 ++ [.flush])).get (by decide +kernel),
    ((Engine.new 6 48 20).run (smallEnv 4) (flushing.1 ++ [.flush] ++ flushing.2)).get (by decide +kernel), ?_⟩
  decide +kernel

end ModelarDB.Props
