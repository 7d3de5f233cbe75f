import Verif.Lemmas.StorageMemory
import Verif.Props.C22
/-
C52: Ingestion survives memory pressure.
-/
namespace ModelarDB.Props
open Model.Storage Spec.Storage Lemmas.Storage

variable {α : Type}

/-- Operations that are not requests to stop and do not change the amount of uncompressed memory. -/
def Op.keepsRunning : Op α → Prop
  | .stop => False
  | .adjustUncompressed _ _ => False
  | _ => True

/-- C52. If the memory for uncompressed data is enough for two buffers of the largest table (`largest`), then the ingestion thread
is running after every history without a request to stop, however many series there are and however slow the other
threads are. Missing: memory for one buffer only (`C22_ingestion_thread_ends`), and the conditions of C22. -/
theorem C52_ingestion_survives_partial {env : Env α} (hs : Sorts env) (hcap : 2 ≤ env.capacity) {i u c : Nat} {ops : List (Op α)}
    (hio : ∀ op ∈ ops, Op.ioOk op) (hops : ∀ op ∈ ops, Op.keepsRunning op) {largest : Nat} (hl : ∀ t, tableMemory env t ≤ largest)
    (hu : 2 * largest ≤ u) {e : Engine α} (hrun : (Engine.new i u c).run env ops = some e) (hg : Good env e.received) :
    e.ingestionAlive = true := by
  suffices h : ∀ (ops : List (Op α)) (e₀ e : Engine α), (∀ op ∈ ops, Op.ioOk op) → (∀ op ∈ ops, Op.keepsRunning op) →
      Inv env e₀ → UAcc env e₀ → e₀.uncompressedBudget = u → (∀ m ∈ e₀.ingested, ∀ n, m ≠ .stop n) → e₀.ingestionAlive = true →
      e₀.run env ops = some e → Good env e.received → e.ingestionAlive = true from
    h ops _ e hio hops (inv_new i u c) (uacc_new env i u c) rfl (by intro m hm; cases hm) rfl hrun hg
  clear hrun hg hio hops e ops
  intro ops
  induction ops with
  | nil => intro e₀ e _ _ _ _ _ _ h hrun _; cases hrun; exact h
  | cons op ops ih =>
    intro e₀ e hio hops hi ha hb hstop halive hrun hg
    simp only [Engine.run] at hrun
    obtain ⟨e₁, h1, h2⟩ := Option.bind_eq_some_iff.mp hrun
    have hg1 := run_good h2 hg
    have hio1 := hio op (List.mem_cons_self ..)
    have hop := hops op (List.mem_cons_self ..)
    have hg0 : Good env e₀.received := by
      obtain ⟨l, hl⟩ := received_mono h1
      rw [hl] at hg1
      exact hg1.mono
    have key : e₁.uncompressedBudget = u ∧ (∀ m ∈ e₁.ingested, ∀ n, m ≠ .stop n) ∧ e₁.ingestionAlive = true := by
      cases op with
      | insert table rows batchId size =>
        simp only [Engine.step] at h1
        split at h1
        · cases h1
          refine ⟨hb, fun m hm n => ?_, halive⟩
          rw [List.mem_append, List.mem_singleton] at hm
          rcases hm with hm | rfl
          · exact hstop m hm n
          · simp
        · cases h1
      | flush =>
        cases h1
        refine ⟨hb, fun m hm n => ?_, halive⟩
        rw [List.mem_append, List.mem_singleton] at hm
        rcases hm with hm | rfl
        · exact hstop m hm n
        · simp
      | stop => exact hop.elim
      | touchMemory i => cases h1; exact ⟨hb, hstop, halive⟩
      | touchDisk i => cases h1; exact ⟨hb, hstop, halive⟩
      | adjustIngested change => cases h1; exact ⟨hb, hstop, halive⟩
      | ingestionTake =>
        simp only [Engine.step] at h1
        split at h1
        · split at h1
          · cases h1
          · next hq => cases h1; exact ⟨hb, fun m hm => hstop m (by rw [hq]; exact List.mem_cons_of_mem _ hm), halive⟩
          · next hq => cases h1; exact ⟨hb, fun m hm => hstop m (by rw [hq]; exact List.mem_cons_of_mem _ hm), halive⟩
          · next n rest hq => exact absurd rfl (hstop (.stop n) (by rw [hq]; exact List.mem_cons_self ..) n)
        · cases h1
      | ingestionRow io =>
        obtain rfl : io = true := hio1
        simp only [Engine.step] at h1
        split at h1
        · split at h1
          · next r rows batchId size hcur =>
            rcases insertDataPoint_cases hs hi.u (fresh_of_known hg0 hi.known hi.u) r batchId with ⟨u', h3, h4⟩ | ⟨h3, _⟩ | ⟨h3, hm, hc, hr⟩
            · rw [h3] at h1; cases h1; exact ⟨hb, hstop, halive⟩
            · rw [h3] at h1; cases h1; exact ⟨hb, hstop, halive⟩
            · have hsize := hl r.table
              have hcomp : sizes env (memoryOf e₀.compressing) ≤ largest := by
                rcases e₀.compressing with _ | b | d
                · exact Nat.zero_le _
                · simpa [memoryOf, sizes, computeMemorySize_eq] using hl b.table
                · exact Nat.zero_le _
              rw [computeMemorySize_eq] at hr
              unfold UAcc balance umem at ha
              rw [hm, hc, hb] at ha
              simp only [List.flatMap_nil, sizes_nil] at ha
              push_cast at ha
              omega
          · cases h1
        · cases h1
      | ingestionDone =>
        simp only [Engine.step, halive, if_true] at h1
        split at h1
        · cases h1; exact ⟨hb, hstop, rfl⟩
        · cases h1
      | compressionTake =>
        simp only [Engine.step] at h1
        split at h1
        · split at h1 <;> cases h1 <;> exact ⟨hb, hstop, halive⟩
        · cases h1
      | compressionDone =>
        simp only [Engine.step] at h1
        split at h1
        · split at h1
          · cases h1
          · split at h1 <;> cases h1 <;> exact ⟨hb, hstop, halive⟩
        · cases h1
      | write =>
        simp only [Engine.step] at h1
        split at h1
        · split at h1
          · cases h1
          all_goals
            obtain ⟨c, hc, rfl⟩ := Option.map_eq_some_iff.mp h1
            exact ⟨hb, hstop, halive⟩
        · cases h1
      | adjustUncompressed io change => exact hop.elim
      | adjustCompressed change =>
        obtain ⟨c, hc, rfl⟩ := Option.map_eq_some_iff.mp h1
        exact ⟨hb, hstop, halive⟩
    obtain ⟨k1, k2, k3⟩ := key
    exact ih e₁ e (fun o ho => hio o (List.mem_cons_of_mem _ ho)) (fun o ho => hops o (List.mem_cons_of_mem _ ho))
      (inv_step hs hcap hio1 hi h1 hg1) (uacc_step hs hio1 hi h1 hg1 ha) k1 k2 k3 h2 hg

/-- The history in which an ingestion thread with memory for one buffer ends: with memory for two it does not, and the next buffer is
created. -/
example : ∃ e : Engine Nat, (Engine.new 6 48 20).run (smallEnv 2) lastBuffer = some e ∧ Good (smallEnv 2) e.received ∧
    (∀ op ∈ lastBuffer, Op.ioOk op ∧ Op.keepsRunning op) ∧ (∀ t, tableMemory (smallEnv 2) t ≤ 24) ∧ openRows e = [rowB 1 8] := by
  refine ⟨((Engine.new 6 48 20).run (smallEnv 2) lastBuffer).get (by decide +kernel), (Option.some_get _).symm, by decide +kernel,
    by simp [lastBuffer, Op.ioOk, Op.keepsRunning], fun t => Nat.le_refl _, ?_⟩
  decide +kernel

end ModelarDB.Props
