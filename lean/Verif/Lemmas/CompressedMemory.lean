import Verif.Spec.CompressedMemory
import Mathlib.Data.List.Induction
import Mathlib.Data.List.Perm.Basic
import Mathlib.Tactic.Tauto
import Mathlib.Algebra.BigOperators.Group.List.Basic
/-
Invariants of the memory for compressed data.
-/
namespace ModelarDB.CompressedMemory
open Model.CompressedMemory Spec.CompressedMemory

/-! ### Sequences of steps -/

theorem run_snoc {s : State} {steps : List Step} {x : Step} : s.run (steps ++ [x]) = (s.run steps).bind fun s => s.step x := by
  induction steps generalizing s with
  | nil => simp [State.run]
  | cons y ys ih =>
    simp only [State.run, List.cons_append]
    cases s.step y with
    | none => rfl
    | some s' => simpa using ih

theorem reached_induction {memory : Nat} {P : List Step → State → Prop} (h0 : P [] (State.start memory))
    (hstep : ∀ steps x s s', Reached memory steps s → P steps s → s.step x = some s' → P (steps ++ [x]) s') {steps : List Step} {s : State}
    (h : Reached memory steps s) : P steps s := by
  induction steps using List.reverseRecOn generalizing s with
  | nil =>
    cases h
    exact h0
  | append_singleton steps x ih =>
    unfold Reached at h
    rw [run_snoc] at h
    obtain ⟨s₁, h1, h2⟩ := Option.bind_eq_some_iff.mp h
    exact hstep _ _ _ _ h1 (ih h1) h2

/-! ### The map -/

def names (s : State) : List String := s.buffers.map Prod.fst

theorem lookup_perm {buffers : List (String × Buffer)} {t : String} {b : Buffer} (hn : (buffers.map Prod.fst).Nodup) (h : buffers.lookup t = some b) :
    buffers.Perm ((t, b) :: without buffers t) := by
  induction buffers with
  | nil => cases h
  | cons e es ih =>
    obtain ⟨t', b'⟩ := e
    simp only [List.map_cons, List.nodup_cons] at hn
    rw [List.lookup_cons] at h
    by_cases hte : t = t'
    · subst hte
      simp only [beq_self_eq_true] at h
      cases h
      have hw : without ((t, b) :: es) t = es := by
        unfold without
        rw [List.filter_cons_of_neg (by simp)]
        refine List.filter_eq_self.mpr fun e he => ?_
        simp only [bne_iff_ne, ne_eq]
        rintro rfl
        exact hn.1 (List.mem_map_of_mem he)
      rw [hw]
    · rw [show (t == t') = false by simpa using hte] at h
      have hw : without ((t', b') :: es) t = (t', b') :: without es t := by
        unfold without
        rw [List.filter_cons_of_pos (by simpa using fun h : t' = t => hte h.symm)]
      rw [hw]
      exact ((ih hn.2 h).cons _).trans (List.Perm.swap _ _ _)

theorem lookup_isSome {buffers : List (String × Buffer)} {t : String} (h : t ∈ buffers.map Prod.fst) : ∃ b, buffers.lookup t = some b := by
  induction buffers with
  | nil => simp at h
  | cons e es ih =>
    obtain ⟨t', b'⟩ := e
    rw [List.lookup_cons]
    by_cases hte : t = t'
    · subst hte; exact ⟨b', by simp⟩
    · rw [show (t == t') = false by simpa using hte]
      simp only [List.map_cons, List.mem_cons] at h
      exact ih (h.resolve_left hte)

theorem mem_of_lookup {buffers : List (String × Buffer)} {t : String} {b : Buffer} (h : buffers.lookup t = some b) : (t, b) ∈ buffers := by
  induction buffers with
  | nil => cases h
  | cons e es ih =>
    obtain ⟨t', b'⟩ := e
    rw [List.lookup_cons] at h
    by_cases hte : t = t'
    · subst hte
      simp only [beq_self_eq_true] at h
      cases h
      exact List.mem_cons_self
    · rw [show (t == t') = false by simpa using hte] at h
      exact List.mem_cons_of_mem _ (ih h)

theorem not_mem_of_lookup {buffers : List (String × Buffer)} {t : String} (h : buffers.lookup t = none) : t ∉ buffers.map Prod.fst := by
  intro hm
  obtain ⟨b, hb⟩ := lookup_isSome hm
  rw [hb] at h
  cases h

theorem without_append {buffers : List (String × Buffer)} {b : Batch} :
    without (buffers.map fun e => if e.1 = b.table then (e.1, e.2.append b) else e) b.table = without buffers b.table := by
  induction buffers with
  | nil => rfl
  | cons e es ih =>
    unfold without at ih ⊢
    rw [List.map_cons]
    by_cases he : e.1 = b.table
    · rw [if_pos he, List.filter_cons_of_neg (by simp [he]), List.filter_cons_of_neg (by simp [he]), ih]
    · rw [if_neg he, List.filter_cons_of_pos (by simpa using he), List.filter_cons_of_pos (by simpa using he), ih]

theorem lookup_append {buffers : List (String × Buffer)} {b : Batch} {buffer : Buffer} (h : buffers.lookup b.table = some buffer) :
    (buffers.map fun e => if e.1 = b.table then (e.1, e.2.append b) else e).lookup b.table = some (buffer.append b) := by
  induction buffers with
  | nil => cases h
  | cons e es ih =>
    rw [List.map_cons]
    by_cases he : e.1 = b.table
    · rw [if_pos he, List.lookup_cons, he]
      rw [List.lookup_cons, he] at h
      simp only [beq_self_eq_true] at h ⊢
      cases h
      rfl
    · rw [if_neg he, List.lookup_cons, show (b.table == e.1) = false by simpa using fun h : b.table = e.1 => he h.symm]
      rw [List.lookup_cons, show (b.table == e.1) = false by simpa using fun h : b.table = e.1 => he h.symm] at h
      exact ih h

theorem names_append {buffers : List (String × Buffer)} {b : Batch} :
    (buffers.map fun e => if e.1 = b.table then (e.1, e.2.append b) else e).map Prod.fst = buffers.map Prod.fst := by
  rw [List.map_map]
  refine List.map_congr_left fun e _ => ?_
  simp only [Function.comp]
  split <;> rfl

/-! ### Names -/

/-- A name a thread has taken from the queue while the buffer is still in the map. -/
def taken : Option Saver → List String
  | some (.removing t) => [t]
  | _ => []

def writerTaken : Writer → List String
  | .pushing b => [b.table]
  | .saving _ v => taken (some v)
  | .flushing v => taken (some v)
  | _ => []

/-- The tables with a buffer are those in the queue and those that have been taken from it, each once. -/
def Named (s : State) (others : List String) : Prop := (names s).Perm (s.queue ++ others) ∧ (names s).Nodup

def NextIs (n : Next) (saver : Saver → State → Prop) (finished failed : State → Prop) (aborted : Prop) : Prop :=
  match n with
  | .saver v s => saver v s
  | .finished s => finished s
  | .failed s => failed s
  | .aborted => aborted

theorem save_named {s : State} {more : Bool} {saved : Saved} {v : Saver} {others : List String} (h : Named s (taken (some v) ++ others)) :
    NextIs (s.save more saved v) (fun v' s' => Named s' (taken (some v') ++ others)) (fun s' => s' = s) (fun s' => Named s' others) (v = .taking ∧ s.queue = []) := by
  cases v with
  | checking =>
    unfold State.save
    dsimp only
    split
    · exact h
    · rfl
  | taking =>
    unfold State.save
    dsimp only
    split
    · next hq => exact ⟨rfl, hq⟩
    · next t q hq =>
      refine ⟨h.1.trans ?_, h.2⟩
      show (s.queue ++ ([] ++ others)).Perm (q ++ ([t] ++ others))
      rw [hq]
      exact List.perm_middle.symm
  | removing t =>
    have ht : t ∈ names s := h.1.mem_iff.mpr (by simp [taken])
    obtain ⟨b, hb⟩ := lookup_isSome ht
    unfold State.save
    dsimp only
    split
    · next hq => rw [show s.buffer t = s.buffers.lookup t from rfl, hb] at hq; cases hq
    · next b' hb' =>
      have hp := (lookup_perm h.2 hb').map Prod.fst
      have h2 := hp.symm.trans h.1
      refine ⟨?_, ?_⟩
      · have : (t :: (without s.buffers t).map Prod.fst).Perm (t :: (s.queue ++ others)) := h2.trans List.perm_middle
        exact (List.perm_cons _).mp this
      · exact (List.nodup_cons.mp (hp.nodup_iff.mp h.2)).2
  | writing t b =>
    unfold State.save
    cases saved <;> exact h

theorem save_frame {s : State} {more : Bool} {saved : Saved} {v : Saver} :
    NextIs (s.save more saved v) (fun _ s' => s'.writer = s.writer ∧ s'.updater = s.updater ∧ s'.aborted = s.aborted)
      (fun s' => s'.writer = s.writer ∧ s'.updater = s.updater ∧ s'.aborted = s.aborted)
      (fun s' => s'.writer = s.writer ∧ s'.updater = s.updater ∧ s'.aborted = s.aborted) True := by
  cases v <;> unfold State.save <;> dsimp only <;> split <;> first | exact ⟨rfl, rfl, rfl⟩ | trivial

/-! ### Batches -/

theorem save_conserved {s : State} {more : Bool} {saved : Saved} {v : Saver} {others l : List Batch} (hn : (names s).Nodup)
    (h : l.Perm (s.written ++ s.lost ++ inBuffers s ++ (inSaver (some v) ++ others))) :
    NextIs (s.save more saved v) (fun v' s' => l.Perm (s'.written ++ s'.lost ++ inBuffers s' ++ (inSaver (some v') ++ others))) (fun s' => s' = s)
      (fun s' => l.Perm (s'.written ++ s'.lost ++ inBuffers s' ++ others)) True := by
  cases v with
  | checking =>
    unfold State.save
    dsimp only
    split
    · exact h
    · rfl
  | taking =>
    unfold State.save
    dsimp only
    split
    · trivial
    · exact h
  | removing t =>
    unfold State.save
    dsimp only
    split
    · trivial
    · next b hb =>
      refine h.trans ?_
      have hp : (inBuffers s).Perm (b.batches ++ (without s.buffers t).flatMap fun e : String × Buffer => e.2.batches) := (lookup_perm hn hb).flatMap_right _
      show (s.written ++ s.lost ++ inBuffers s ++ ([] ++ others)).Perm
        (s.written ++ s.lost ++ ((without s.buffers t).flatMap fun e : String × Buffer => e.2.batches) ++ (b.batches ++ others))
      rw [List.append_assoc (s.written ++ s.lost), List.append_assoc (s.written ++ s.lost)]
      refine List.Perm.append_left _ ?_
      refine (hp.append_right _).trans ?_
      rw [List.append_assoc]
      refine (List.perm_append_comm_assoc _ _ _).trans ?_
      simp
  | writing t b =>
    have hm : ∀ x y z w v : List Batch, (x ++ y ++ z ++ (w ++ v)).Perm (x ++ w ++ y ++ z ++ v) := by
      intro x y z w v
      simp only [List.append_assoc]
      refine List.Perm.append_left _ ?_
      rw [← List.append_assoc y z]
      exact (List.perm_append_comm_assoc _ _ _).trans (by simp [List.append_assoc])
    have hm' : ∀ x y z w v : List Batch, (x ++ y ++ z ++ (w ++ v)).Perm (x ++ (y ++ w) ++ z ++ v) := by
      intro x y z w v
      simp only [List.append_assoc]
      exact List.Perm.append_left _ (List.Perm.append_left _ (List.perm_append_comm_assoc _ _ _))
    unfold State.save
    cases saved
    · exact h.trans (hm _ _ _ _ _)
    · exact h.trans (hm' _ _ _ _ _)
    · exact h.trans (hm _ _ _ _ _)

/-! ### Bytes -/

/-- The size of all buffers. -/
def bytes (s : State) : Int := (s.buffers.map fun e => (e.2.size : Int)).sum

/-- The size of the buffer a thread is writing. -/
def writingBytes : Option Saver → Int
  | some (.writing _ buffer) => buffer.size
  | _ => 0

theorem save_balanced {s : State} {more : Bool} {v : Saver} {others c : Int} (hn : (names s).Nodup)
    (h : s.remaining + bytes s + (writingBytes (some v) + others) = c) :
    NextIs (s.save more .done v) (fun v' s' => s'.remaining + bytes s' + (writingBytes (some v') + others) = c) (fun s' => s' = s) (fun _ => False) True := by
  cases v with
  | checking =>
    unfold State.save
    dsimp only
    split
    · exact h
    · rfl
  | taking =>
    unfold State.save
    dsimp only
    split
    · trivial
    · exact h
  | removing t =>
    unfold State.save
    dsimp only
    split
    · trivial
    · next b hb =>
      have hp : bytes s = b.size + ((without s.buffers t).map fun e : String × Buffer => (e.2.size : Int)).sum := by
        unfold bytes
        rw [((lookup_perm hn hb).map _).sum_eq]
        simp
      show s.remaining + ((without s.buffers t).map fun e : String × Buffer => (e.2.size : Int)).sum + ((b.size : Int) + others) = c
      rw [hp] at h
      simp only [writingBytes] at h
      omega
  | writing t b =>
    show (s.remaining + b.size) + bytes s + (0 + others) = c
    simp only [writingBytes] at h
    omega

/-- The buffers of a thread that saves one are those of the map. -/
theorem save_buffers {s : State} {more : Bool} {saved : Saved} {v : Saver} :
    NextIs (s.save more saved v) (fun _ s' => ∀ e ∈ s'.buffers, e ∈ s.buffers) (fun s' => s' = s) (fun s' => s'.buffers = s.buffers) True := by
  cases v with
  | checking =>
    unfold State.save
    dsimp only
    split
    · exact fun _ h => h
    · rfl
  | taking =>
    unfold State.save
    dsimp only
    split
    · trivial
    · exact fun _ h => h
  | removing t =>
    unfold State.save
    dsimp only
    split
    · trivial
    · exact fun e he => List.mem_of_mem_filter he
  | writing t b => cases saved <;> first | exact fun _ h => h | rfl

theorem save_lost {s : State} {more : Bool} {v : Saver} :
    NextIs (s.save more .done v) (fun _ s' => s'.lost = s.lost ∧ s.remaining ≤ s'.remaining) (fun s' => s' = s) (fun _ => False) True := by
  cases v with
  | writing t b =>
    refine ⟨rfl, ?_⟩
    show s.remaining ≤ s.remaining + b.size
    omega
  | _ =>
    unfold State.save
    dsimp only
    split <;> first | exact ⟨rfl, Int.le_refl _⟩ | trivial

theorem sum_le_added (l : List Nat) (n : Nat) : l.sum ≤ added n l := by
  induction l generalizing n with
  | nil => exact Nat.le_refl _
  | cons x xs ih =>
    have := ih (n + x)
    simp only [List.sum_cons, added]
    omega

/-- What is added to a buffer for a batch beyond its size. -/
def excess (b : Batch) : Int := added 0 b.sizes - b.size

theorem excess_nonneg (b : Batch) : 0 ≤ excess b := by
  have := sum_le_added b.sizes 0
  unfold excess Batch.size
  omega

theorem excess_zero {b : Batch} (h : b.sizes.length ≤ 1) : excess b = 0 := by
  unfold excess Batch.size
  match hs : b.sizes with
  | [] => rfl
  | [x] => simp [added]
  | x :: y :: l => rw [hs] at h; simp at h

/-- What the writer thread has put into a buffer without having reserved it. -/
def unreserved : Writer → Int
  | .pushing b => b.size
  | .reserving b => b.size
  | .saving b _ => b.size
  | _ => 0

/-! ### The invariant -/

structure Inv (memory : Nat) (steps : List Step) (s : State) : Prop where
  named : Named s (writerTaken s.writer ++ taken s.updater)
  conserved : (received steps).Perm (s.written ++ s.lost ++ inBuffers s ++ (inSaver (writerSaver s.writer) ++ inSaver s.updater))
  sized : ∀ e ∈ s.buffers, (e.2.size : Int) = (e.2.batches.map fun b => (b.size : Int) + excess b).sum
  kept : NoFailures steps → s.lost = []
  balanced : NoFailures steps → s.remaining + bytes s + (writingBytes (writerSaver s.writer) + writingBytes s.updater) =
    configured memory steps + unreserved s.writer + ((received steps).map excess).sum
  nonneg : NoFailures steps → s.updater = none → 0 ≤ s.remaining

theorem received_snoc (steps : List Step) (x : Step) : received (steps ++ [x]) = received steps ++ received [x] := by
  unfold received
  rw [List.filterMap_append]

theorem configured_snoc (memory : Nat) (steps : List Step) (x : Step) :
    configured memory (steps ++ [x]) = configured memory steps + (configured memory [x] - memory) := by
  unfold configured
  rw [List.filterMap_append, List.sum_append]
  omega

theorem noFailures_left {steps : List Step} {x : Step} (h : NoFailures (steps ++ [x])) : NoFailures steps :=
  fun r hr => h r (by simp only [List.mem_append]; tauto)

theorem inv_start (memory : Nat) : Inv memory [] (State.start memory) := by
  refine ⟨⟨List.Perm.refl _, List.nodup_nil⟩, List.Perm.refl _, fun e he => by simp [State.start] at he, fun _ => rfl, fun _ => ?_, fun _ _ => ?_⟩
  · simp [State.start, bytes, writingBytes, writerSaver, configured, received, unreserved]
  · show (0 : Int) ≤ (memory : Int)
    omega

theorem inv_put {memory : Nat} {steps : List Step} {s : State} {b : Batch} (h : Inv memory steps s) (hw : s.writer = .waiting) :
    Inv memory (steps ++ [.insert b]) (s.put b) := by
  have hr : received (steps ++ [.insert b]) = received steps ++ [b] := received_snoc steps (.insert b)
  have hc : configured memory (steps ++ [.insert b]) = configured memory steps := by
    rw [configured_snoc]; simp [configured, changeOf, List.filterMap_cons]
  have hnew : ∀ buffer : Buffer, (buffer.size : Int) = (buffer.batches.map fun b => (b.size : Int) + excess b).sum →
      ((buffer.append b).size : Int) = ((buffer.append b).batches.map fun b => (b.size : Int) + excess b).sum := by
    intro buffer hb
    have he : excess b = added 0 b.sizes - b.size := rfl
    simp only [Buffer.append, List.map_append, List.map_cons, List.map_nil, List.sum_append, List.sum_cons, List.sum_nil, ← hb]
    push_cast
    omega
  obtain ⟨h1, h2, h3, h4, h5, h6⟩ := h
  rw [hw] at h1 h2 h5
  cases hb : s.buffer b.table with
  | some buffer =>
    have hput : s.put b = { s with buffers := s.buffers.map (fun e => if e.1 = b.table then (e.1, e.2.append b) else e), writer := .reserving b } := by
      unfold State.put; rw [hb]
    rw [hput]
    have hnd : ((s.buffers.map fun e => if e.1 = b.table then (e.1, e.2.append b) else e).map Prod.fst).Nodup := by rw [names_append]; exact h1.2
    have hp := lookup_perm hnd (lookup_append hb)
    rw [without_append] at hp
    have hp₀ := lookup_perm h1.2 hb
    refine ⟨⟨?_, hnd⟩, ?_, ?_, fun hf => h4 (noFailures_left hf), fun hf => ?_, fun hf => h6 (noFailures_left hf)⟩
    · show ((s.buffers.map fun e => if e.1 = b.table then (e.1, e.2.append b) else e).map Prod.fst).Perm _
      rw [names_append]
      exact h1.1
    · rw [hr]
      refine (h2.append_right _).trans ?_
      have e1 : (inBuffers s).Perm (buffer.batches ++ (without s.buffers b.table).flatMap fun e : String × Buffer => e.2.batches) := hp₀.flatMap_right _
      have e2 := hp.flatMap_right (fun e : String × Buffer => e.2.batches)
      refine List.Perm.trans ?_ ((e2.symm.append_left (s.written ++ s.lost)).append_right _)
      refine (((e1.append_left (s.written ++ s.lost)).append_right _).append_right _).trans ?_
      simp only [List.flatMap_cons, Buffer.append, List.append_assoc]
      refine List.Perm.append_left _ (List.Perm.append_left _ (List.Perm.append_left _ ?_))
      simp only [writerSaver, inSaver, List.nil_append]
      rw [← List.append_assoc]
      exact List.perm_append_comm
    · intro e he
      obtain ⟨e₀, he₀, rfl⟩ := List.mem_map.mp he
      split
      · exact hnew _ (h3 _ he₀)
      · exact h3 _ he₀
    · have := h5 (noFailures_left hf)
      have e1 : bytes s = buffer.size + ((without s.buffers b.table).map fun e : String × Buffer => (e.2.size : Int)).sum := by
        unfold bytes
        rw [(hp₀.map _).sum_eq]
        simp
      have e2 : (((s.buffers.map fun e => if e.1 = b.table then (e.1, e.2.append b) else e)).map fun e : String × Buffer => (e.2.size : Int)).sum =
          ((buffer.append b).size : Int) + ((without s.buffers b.table).map fun e : String × Buffer => (e.2.size : Int)).sum := by
        rw [(hp.map _).sum_eq]
        simp
      rw [hr, hc]
      unfold bytes
      dsimp only
      rw [e2]
      simp only [List.map_append, List.sum_append, List.map_cons, List.map_nil, List.sum_cons, List.sum_nil, writerSaver, writingBytes, unreserved, excess, Buffer.append] at this ⊢
      push_cast
      omega
  | none =>
    have hput : s.put b = { s with buffers := s.buffers ++ [(b.table, (Buffer.mk 0 []).append b)], writer := .pushing b } := by
      unfold State.put; rw [hb]
    rw [hput]
    have hnot := not_mem_of_lookup hb
    refine ⟨⟨?_, ?_⟩, ?_, ?_, fun hf => h4 (noFailures_left hf), fun hf => ?_, fun hf => h6 (noFailures_left hf)⟩
    · show ((s.buffers ++ [(b.table, (Buffer.mk 0 []).append b)]).map Prod.fst).Perm (s.queue ++ ([b.table] ++ taken s.updater))
      rw [List.map_append]
      refine (List.perm_append_comm (l₁ := s.buffers.map Prod.fst)).trans ?_
      exact List.Perm.trans (h1.1.cons b.table) List.perm_middle.symm
    · show ((s.buffers ++ [(b.table, (Buffer.mk 0 []).append b)]).map Prod.fst).Nodup
      rw [List.map_append, List.nodup_append]
      refine ⟨h1.2, by simp, ?_⟩
      intro x hx y hy
      simp only [List.map_cons, List.map_nil, List.mem_singleton] at hy
      subst hy
      rintro rfl
      exact hnot hx
    · rw [hr]
      refine (h2.append_right _).trans ?_
      unfold inBuffers
      dsimp only
      simp only [List.flatMap_append, List.flatMap_cons, List.flatMap_nil, Buffer.append, List.nil_append, List.append_nil, List.append_assoc]
      refine List.Perm.append_left _ (List.Perm.append_left _ (List.Perm.append_left _ ?_))
      rw [← List.append_assoc]
      exact List.perm_append_comm
    · intro e he
      rcases List.mem_append.mp he with he | he
      · exact h3 _ he
      · simp only [List.mem_singleton] at he
        subst he
        exact hnew ⟨0, []⟩ (by simp)
    · have := h5 (noFailures_left hf)
      rw [hr, hc]
      unfold bytes at this ⊢
      dsimp only
      simp only [List.map_append, List.sum_append, List.map_cons, List.map_nil, List.sum_cons, List.sum_nil, writerSaver, writingBytes, unreserved, excess, Buffer.append] at this ⊢
      push_cast
      omega

/-- A step that starts nothing. -/
structure Continues (x : Step) (saved : Saved) : Prop where
  step : x = .write saved ∨ x = .update saved

theorem Continues.received {x : Step} {saved : Saved} (h : Continues x saved) (steps : List Step) : received (steps ++ [x]) = received steps := by
  rw [received_snoc]
  rcases h.step with rfl | rfl <;> simp [Spec.CompressedMemory.received]

theorem Continues.configured {x : Step} {saved : Saved} (h : Continues x saved) (memory : Nat) (steps : List Step) :
    configured memory (steps ++ [x]) = configured memory steps := by
  rw [configured_snoc]
  rcases h.step with rfl | rfl <;> simp [Spec.CompressedMemory.configured, changeOf, List.filterMap_cons]

theorem Continues.done {x : Step} {saved : Saved} (h : Continues x saved) {steps : List Step} (hf : NoFailures (steps ++ [x])) : saved = .done := by
  refine hf saved ?_
  rcases h.step with rfl | rfl <;> simp

theorem save_finished {s : State} {more : Bool} {saved : Saved} {v : Saver} :
    NextIs (s.save more saved v) (fun _ _ => True) (fun s' => s' = s ∧ more = false ∧ v = .checking) (fun _ => True) True := by
  cases v with
  | checking =>
    unfold State.save
    dsimp only
    split
    · trivial
    · next h => exact ⟨rfl, by simpa using h, rfl⟩
  | writing t b => cases saved <;> trivial
  | _ =>
    unfold State.save
    dsimp only
    split <;> trivial

theorem inv_aborted {memory : Nat} {steps : List Step} {s : State} {x : Step} {saved : Saved} (h : Inv memory steps s) (hx : Continues x saved) :
    Inv memory (steps ++ [x]) { s with aborted := true } := by
  obtain ⟨h1, h2, h3, h4, h5, h6⟩ := h
  refine ⟨h1, ?_, h3, fun hf => h4 (noFailures_left hf), fun hf => ?_, fun hf => h6 (noFailures_left hf)⟩
  · rw [hx.received]; exact h2
  · rw [hx.received, hx.configured]; exact h5 (noFailures_left hf)

/-- A step of the writer thread in one of its loops. -/
theorem inv_writer {memory : Nat} {steps : List Step} {s : State} {x : Step} {saved : Saved} {more : Bool} {v : Saver} {u : Int} {mk : Saver → Writer}
    {fin fail : Writer} (h : Inv memory steps s) (hx : Continues x saved) (hw : s.writer = mk v)
    (hmk : ∀ v, writerTaken (mk v) = taken (some v) ∧ writerSaver (mk v) = some v ∧ unreserved (mk v) = u)
    (hfin : writerTaken fin = [] ∧ writerSaver fin = none ∧ unreserved fin = u) (hfail : writerTaken fail = [] ∧ writerSaver fail = none) :
    NextIs (s.save more saved v) (fun v' s' => Inv memory (steps ++ [x]) { s' with writer := mk v' }) (fun s' => Inv memory (steps ++ [x]) { s' with writer := fin })
      (fun s' => Inv memory (steps ++ [x]) { s' with writer := fail }) True := by
  obtain ⟨h1, h2, h3, h4, h5, h6⟩ := h
  rw [hw, (hmk v).1] at h1
  rw [hw, (hmk v).2.1] at h2
  rw [hw, (hmk v).2.1, (hmk v).2.2] at h5
  have k1 := save_named (more := more) (saved := saved) h1
  have k2 := save_conserved (more := more) (saved := saved) h1.2 h2
  have k3 := save_buffers (s := s) (more := more) (saved := saved) (v := v)
  have k4 := save_frame (s := s) (more := more) (saved := saved) (v := v)
  have k5 := save_finished (s := s) (more := more) (saved := saved) (v := v)
  have k6 : NoFailures (steps ++ [x]) → _ := fun hf => save_balanced (more := more) h1.2 (h5 (noFailures_left hf))
  have k7 := save_lost (s := s) (more := more) (v := v)
  cases hs : s.save more saved v with
  | saver v' s' =>
    rw [hs] at k1 k2 k3 k4
    simp only [NextIs] at k1 k2 k3 k4 ⊢
    refine ⟨?_, ?_, fun e he => h3 e (k3 e he), fun hf => ?_, fun hf => ?_, fun hf => ?_⟩
    · show Named s' (writerTaken (mk v') ++ taken s'.updater)
      rw [(hmk v').1, k4.2.1]
      exact k1
    · show List.Perm _ (s'.written ++ s'.lost ++ inBuffers s' ++ (inSaver (writerSaver (mk v')) ++ inSaver s'.updater))
      rw [hx.received, (hmk v').2.1, k4.2.1]
      exact k2
    · obtain rfl := hx.done hf
      rw [hs] at k7
      exact k7.1.trans (h4 (noFailures_left hf))
    · obtain rfl := hx.done hf
      have := k6 hf
      rw [hs] at this
      simp only [NextIs] at this
      rw [hx.received, hx.configured]
      show s'.remaining + bytes s' + (writingBytes (writerSaver (mk v')) + writingBytes s'.updater) = _ + unreserved (mk v') + _
      rw [(hmk v').2.1, (hmk v').2.2, k4.2.1]
      exact this
    · obtain rfl := hx.done hf
      rw [hs] at k7
      intro hu
      exact Int.le_trans (h6 (noFailures_left hf) (k4.2.1.symm.trans hu)) k7.2
  | finished s' =>
    rw [hs] at k5
    obtain ⟨rfl, _, rfl⟩ := k5
    refine ⟨?_, ?_, h3, fun hf => h4 (noFailures_left hf), fun hf => ?_, fun hf => h6 (noFailures_left hf)⟩
    · show Named s' (writerTaken fin ++ taken s'.updater)
      rw [hfin.1]
      exact h1
    · show List.Perm _ (s'.written ++ s'.lost ++ inBuffers s' ++ (inSaver (writerSaver fin) ++ inSaver s'.updater))
      rw [hx.received, hfin.2.1]
      exact h2
    · rw [hx.received, hx.configured]
      show s'.remaining + bytes s' + (writingBytes (writerSaver fin) + writingBytes s'.updater) = _ + unreserved fin + _
      rw [hfin.2.1, hfin.2.2]
      exact h5 (noFailures_left hf)
  | failed s' =>
    rw [hs] at k1 k2 k3 k4
    simp only [NextIs] at k1 k2 k3 k4 ⊢
    have no : ∀ {p : Prop}, NoFailures (steps ++ [x]) → p := by
      intro p hf
      obtain rfl := hx.done hf
      rw [hs] at k7
      exact k7.elim
    refine ⟨?_, ?_, fun e he => h3 e (k3 ▸ he), fun hf => no hf, fun hf => no hf, fun hf => no hf⟩
    · show Named s' (writerTaken fail ++ taken s'.updater)
      rw [hfail.1, k4.2.1]
      exact k1
    · show List.Perm _ (s'.written ++ s'.lost ++ inBuffers s' ++ (inSaver (writerSaver fail) ++ inSaver s'.updater))
      rw [hx.received, hfail.2, k4.2.1]
      exact k2
  | aborted => trivial

/-- A step of a request. -/
theorem inv_updater {memory : Nat} {steps : List Step} {s : State} {x : Step} {saved : Saved} {v : Saver} (h : Inv memory steps s) (hx : Continues x saved)
    (hu : s.updater = some v) :
    NextIs (s.save (s.remaining < 0) saved v) (fun v' s' => Inv memory (steps ++ [x]) { s' with updater := some v' })
      (fun s' => Inv memory (steps ++ [x]) { s' with updater := none }) (fun s' => Inv memory (steps ++ [x]) { s' with updater := none }) True := by
  obtain ⟨h1, h2, h3, h4, h5, h6⟩ := h
  rw [hu] at h1 h2 h5
  have h1' : Named s (taken (some v) ++ writerTaken s.writer) := ⟨h1.1.trans (List.perm_append_comm.append_left _), h1.2⟩
  have h2' := h2.trans ((List.perm_append_comm (l₁ := inSaver (writerSaver s.writer)) (l₂ := inSaver (some v))).append_left (s.written ++ s.lost ++ inBuffers s))
  have h5' : NoFailures (steps ++ [x]) → s.remaining + bytes s + (writingBytes (some v) + writingBytes (writerSaver s.writer)) =
      configured memory steps + unreserved s.writer + ((received steps).map excess).sum := fun hf => by
    rw [Int.add_comm (writingBytes (some v))]; exact h5 (noFailures_left hf)
  have k1 := save_named (more := s.remaining < 0) (saved := saved) h1'
  have k2 := save_conserved (more := s.remaining < 0) (saved := saved) h1.2 h2'
  have k3 := save_buffers (s := s) (more := s.remaining < 0) (saved := saved) (v := v)
  have k4 := save_frame (s := s) (more := s.remaining < 0) (saved := saved) (v := v)
  have k5 := save_finished (s := s) (more := s.remaining < 0) (saved := saved) (v := v)
  have k6 : NoFailures (steps ++ [x]) → _ := fun hf => save_balanced (more := s.remaining < 0) h1.2 (h5' hf)
  have k7 := save_lost (s := s) (more := s.remaining < 0) (v := v)
  cases hs : s.save (s.remaining < 0) saved v with
  | saver v' s' =>
    rw [hs] at k1 k2 k3 k4
    simp only [NextIs] at k1 k2 k3 k4 ⊢
    refine ⟨?_, ?_, fun e he => h3 e (k3 e he), fun hf => ?_, fun hf => ?_, fun _ hn => by cases hn⟩
    · show Named s' (writerTaken s'.writer ++ taken (some v'))
      rw [k4.1]
      exact ⟨k1.1.trans (List.perm_append_comm.append_left _), k1.2⟩
    · show List.Perm _ (s'.written ++ s'.lost ++ inBuffers s' ++ (inSaver (writerSaver s'.writer) ++ inSaver (some v')))
      rw [hx.received, k4.1]
      exact k2.trans (List.perm_append_comm.append_left _)
    · obtain rfl := hx.done hf
      rw [hs] at k7
      exact k7.1.trans (h4 (noFailures_left hf))
    · obtain rfl := hx.done hf
      have := k6 hf
      rw [hs] at this
      simp only [NextIs] at this
      rw [hx.received, hx.configured]
      show s'.remaining + bytes s' + (writingBytes (writerSaver s'.writer) + writingBytes (some v')) = _ + unreserved s'.writer + _
      rw [k4.1, Int.add_comm (writingBytes (writerSaver _))]
      exact this
  | finished s' =>
    rw [hs] at k5
    obtain ⟨rfl, hr, rfl⟩ := k5
    refine ⟨h1, ?_, h3, fun hf => h4 (noFailures_left hf), fun hf => ?_, fun hf _ => ?_⟩
    · rw [hx.received]
      exact h2
    · rw [hx.received, hx.configured]
      exact h5 (noFailures_left hf)
    · show 0 ≤ s'.remaining
      have := of_decide_eq_false hr
      omega
  | failed s' =>
    rw [hs] at k1 k2 k3 k4
    simp only [NextIs] at k1 k2 k3 k4 ⊢
    have no : ∀ {p : Prop}, NoFailures (steps ++ [x]) → p := by
      intro p hf
      obtain rfl := hx.done hf
      rw [hs] at k7
      exact k7.elim
    refine ⟨?_, ?_, fun e he => h3 e (k3 ▸ he), fun hf => no hf, fun hf => no hf, fun hf => no hf⟩
    · show Named s' (writerTaken s'.writer ++ taken none)
      rw [k4.1]
      exact ⟨k1.1.trans (by simp [taken]), k1.2⟩
    · show List.Perm _ (s'.written ++ s'.lost ++ inBuffers s' ++ (inSaver (writerSaver s'.writer) ++ inSaver none))
      rw [hx.received, k4.1]
      exact k2.trans (by simp [inSaver])
  | aborted => trivial

theorem inv_step {memory : Nat} {steps : List Step} {s s' : State} {x : Step} (h : Inv memory steps s) (hs : s.step x = some s') :
    Inv memory (steps ++ [x]) s' := by
  unfold State.step at hs
  split at hs
  · cases hs
  · cases x with
    | insert b =>
      dsimp only at hs
      split at hs
      · next hw => cases hs; exact inv_put h hw
      · cases hs
    | flush =>
      dsimp only at hs
      split at hs
      · next hw =>
        cases hs
        obtain ⟨h1, h2, h3, h4, h5, h6⟩ := h
        rw [hw.1] at h1 h2 h5
        have hr : received (steps ++ [.flush]) = received steps := by rw [received_snoc]; simp [received]
        have hc : configured memory (steps ++ [.flush]) = configured memory steps := by rw [configured_snoc]; simp [configured, changeOf, List.filterMap_cons]
        exact ⟨h1, by rw [hr]; exact h2, h3, fun hf => h4 (noFailures_left hf), fun hf => by rw [hr, hc]; exact h5 (noFailures_left hf),
          fun hf => h6 (noFailures_left hf)⟩
      · cases hs
    | write saved =>
      have hx : Continues (.write saved) saved := ⟨Or.inl rfl⟩
      dsimp only at hs
      unfold State.write at hs
      split at hs
      · cases hs
      · next b hw =>
        cases hs
        obtain ⟨h1, h2, h3, h4, h5, h6⟩ := h
        rw [hw] at h1 h2 h5
        refine ⟨⟨?_, h1.2⟩, by rw [hx.received]; exact h2, h3, fun hf => h4 (noFailures_left hf),
          fun hf => by rw [hx.received, hx.configured]; exact h5 (noFailures_left hf), fun hf => h6 (noFailures_left hf)⟩
        refine h1.1.trans ?_
        show (s.queue ++ ([b.table] ++ taken s.updater)).Perm ((s.queue ++ [b.table]) ++ ([] ++ taken s.updater))
        simp
      · next b hw =>
        obtain ⟨h1, h2, h3, h4, h5, h6⟩ := h
        rw [hw] at h1 h2 h5
        split at hs
        · next hb =>
          cases hs
          refine ⟨h1, by rw [hx.received]; exact h2, h3, fun hf => h4 (noFailures_left hf), fun hf => ?_, fun hf hu => ?_⟩
          · rw [hx.received, hx.configured]
            have := h5 (noFailures_left hf)
            show s.remaining - b.size + bytes s + (0 + writingBytes s.updater) = _ + 0 + _
            rw [show writingBytes (writerSaver (.reserving b)) = 0 from rfl, show unreserved (.reserving b) = b.size from rfl] at this
            omega
          · show 0 ≤ s.remaining - b.size
            omega
        · cases hs
          exact ⟨h1, by rw [hx.received]; exact h2, h3, fun hf => h4 (noFailures_left hf),
            fun hf => by rw [hx.received, hx.configured]; exact h5 (noFailures_left hf), fun hf => h6 (noFailures_left hf)⟩
      · next b v hw =>
        have k := inv_writer (more := s.remaining < b.size) (mk := .saving b) (fin := .reserving b) (fail := .ended) h hx hw (fun v => ⟨rfl, rfl, rfl⟩)
          ⟨rfl, rfl, rfl⟩ ⟨rfl, rfl⟩
        cases hr : s.save (s.remaining < b.size) saved v <;> rw [hr] at hs k <;> cases hs
        · exact k
        · exact k
        · exact k
        · exact inv_aborted h hx
      · next v hw =>
        have k := inv_writer (more := !s.queue.isEmpty) (mk := .flushing) (fin := .waiting) (fail := .waiting) h hx hw (fun v => ⟨rfl, rfl, rfl⟩)
          ⟨rfl, rfl, rfl⟩ ⟨rfl, rfl⟩
        cases hr : s.save (!s.queue.isEmpty) saved v <;> rw [hr] at hs k <;> cases hs
        · exact k
        · exact k
        · exact k
        · exact inv_aborted h hx
      · cases hs
    | change c =>
      dsimp only at hs
      split at hs
      · next hw =>
        cases hs
        obtain ⟨h1, h2, h3, h4, h5, h6⟩ := h
        rw [hw.1] at h1 h2 h5
        have hr : received (steps ++ [.change c]) = received steps := by rw [received_snoc]; simp [received]
        have hc : configured memory (steps ++ [.change c]) = configured memory steps + c := by rw [configured_snoc]; simp [configured, changeOf]
        refine ⟨h1, by rw [hr]; exact h2, h3, fun hf => h4 (noFailures_left hf), fun hf => ?_, fun _ hu => by cases hu⟩
        rw [hr, hc]
        have := h5 (noFailures_left hf)
        show s.remaining + c + bytes s + (writingBytes (writerSaver s.writer) + 0) = _ + unreserved s.writer + _
        rw [show writingBytes none = 0 from rfl] at this
        omega
      · cases hs
    | update saved =>
      have hx : Continues (.update saved) saved := ⟨Or.inr rfl⟩
      dsimp only at hs
      unfold State.update at hs
      split at hs
      · cases hs
      · next v hu =>
        have k := inv_updater h hx hu
        cases hr : s.save (s.remaining < 0) saved v <;> rw [hr] at hs k <;> cases hs
        · exact k
        · exact k
        · exact k
        · exact inv_aborted h hx

theorem inv_reached {memory : Nat} {steps : List Step} {s : State} (h : Reached memory steps s) : Inv memory steps s :=
  reached_induction (P := Inv memory) (inv_start memory) (fun _ _ _ _ _ => inv_step) h

end ModelarDB.CompressedMemory
