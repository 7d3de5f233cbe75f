import Verif.Spec.UncompressedMemory
import Mathlib.Data.List.Induction
import Mathlib.Data.List.Perm.Basic
import Mathlib.Tactic.Tauto
/-
Invariants of the memory for uncompressed data.
-/
namespace ModelarDB.UncompressedMemory
open Model.UncompressedMemory Spec.UncompressedMemory

/-! ### Sequences of steps -/

theorem run_snoc {env : Env} {s : State} {steps : List Step} {x : Step} :
    s.run env (steps ++ [x]) = (s.run env steps).bind fun s => s.step env x := by
  induction steps generalizing s with
  | nil => simp [State.run]
  | cons y ys ih =>
    simp only [State.run, List.cons_append]
    cases s.step env y with
    | none => rfl
    | some s' => simpa using ih

theorem reached_induction {env : Env} {memory : Nat} {P : List Step → State → Prop} (h0 : P [] (State.start memory))
    (hstep : ∀ steps x s s', Reached env memory steps s → P steps s → s.step env x = some s' → P (steps ++ [x]) s') {steps : List Step} {s : State}
    (h : Reached env memory steps s) : P steps s := by
  induction steps using List.reverseRecOn generalizing s with
  | nil =>
    cases h
    exact h0
  | append_singleton steps x ih =>
    unfold Reached at h
    rw [run_snoc] at h
    obtain ⟨s₁, h1, h2⟩ := Option.bind_eq_some_iff.mp h
    exact hstep _ _ _ _ h1 (ih h1) h2

theorem reached_append {env : Env} {memory : Nat} {before after : List Step} {s : State} (h : Reached env memory (before ++ after) s) :
    ∃ s₀, Reached env memory before s₀ ∧ s₀.run env after = some s := by
  induction after using List.reverseRecOn generalizing s with
  | nil => exact ⟨s, by simpa using h, rfl⟩
  | append_singleton after x ih =>
    rw [← List.append_assoc] at h
    unfold Reached at h
    rw [run_snoc] at h
    obtain ⟨s₁, h1, h2⟩ := Option.bind_eq_some_iff.mp h
    obtain ⟨s₀, h3, h4⟩ := ih h1
    exact ⟨s₀, h3, by rw [run_snoc, h4]; exact h2⟩

/-! ### Maps -/

def keys (m : Buffers) : List Nat := m.map Prod.fst

theorem keys_without (m : Buffers) (k : Nat) : keys (without m k) = (keys m).filter (· != k) := by
  simp [keys, without, List.filter_map, Function.comp_def]

theorem nodup_without {m : Buffers} {k : Nat} (h : (keys m).Nodup) : (keys (without m k)).Nodup := by
  rw [keys_without]
  exact h.filter _

theorem nodup_put {m : Buffers} {k : Nat} {b : Buffer} (h : (keys m).Nodup) : (keys (put m k b)).Nodup := by
  have hk : keys (put m k b) = keys (without m k) ++ [k] := by simp [keys, put]
  rw [hk]
  refine List.nodup_append.mpr ⟨nodup_without h, by simp, fun x hx y hy => ?_⟩
  rw [keys_without] at hx
  simp at hx hy
  rw [hy]
  exact hx.2

theorem mem_keys_without {m : Buffers} {k x : Nat} : x ∈ keys (without m k) ↔ x ∈ keys m ∧ x ≠ k := by
  rw [keys_without]
  simp

theorem mem_keys_put {m : Buffers} {k x : Nat} {b : Buffer} : x ∈ keys (put m k b) ↔ x ∈ keys m ∨ x = k := by
  have hk : keys (put m k b) = keys (without m k) ++ [k] := by simp [keys, put]
  rw [hk, List.mem_append, mem_keys_without]
  simp only [List.mem_singleton]
  tauto

theorem lookup_none {m : Buffers} {k : Nat} : m.lookup k = none ↔ k ∉ keys m := by
  induction m with
  | nil => simp [keys]
  | cons e es ih =>
    rw [List.lookup_cons]
    by_cases hk : k = e.1
    · simp [hk, keys]
    · rw [show (k == e.1) = false by simpa using hk]
      simp only [keys, List.map_cons, List.mem_cons, not_or] at ih ⊢
      rw [ih]
      tauto

theorem lookup_some_mem {m : Buffers} {k : Nat} {b : Buffer} (h : m.lookup k = some b) : (k, b) ∈ m := by
  induction m with
  | nil => cases h
  | cons e es ih =>
    rw [List.lookup_cons] at h
    by_cases hk : k = e.1
    · simp only [hk, beq_self_eq_true, Option.some.injEq] at h
      rw [hk, ← h]
      exact List.mem_cons_self
    · rw [show (k == e.1) = false by simpa using hk] at h
      exact List.mem_cons_of_mem _ (ih h)

theorem without_of_not_mem {m : Buffers} {k : Nat} (h : k ∉ keys m) : without m k = m := by
  refine List.filter_eq_self.mpr fun e he => ?_
  simp only [bne_iff_ne, ne_eq]
  rintro rfl
  exact h (List.mem_map_of_mem he)

/-- The rows of a map are those of one time series and those of the others. -/
theorem count_rowsIn (a : Row) {m : Buffers} (k : Nat) (hn : (keys m).Nodup) :
    (rowsIn m).count a = (found m k).count a + (rowsIn (without m k)).count a := by
  induction m with
  | nil => simp [rowsIn, found, without]
  | cons e es ih =>
    simp only [keys, List.map_cons, List.nodup_cons] at hn
    by_cases hk : k = e.1
    · have hw : without (e :: es) k = es := by
        unfold without
        rw [List.filter_cons_of_neg (by simp [hk])]
        exact without_of_not_mem (by rw [hk]; exact hn.1)
      have hf : found (e :: es) k = e.2.rows := by
        unfold found
        rw [List.lookup_cons, show (k == e.1) = true by simpa using hk]
      rw [hw, hf]
      simp [rowsIn]
    · have hw : without (e :: es) k = e :: without es k := by
        unfold without
        rw [List.filter_cons_of_pos (by simpa using fun h => hk h.symm)]
      have hf : found (e :: es) k = found es k := by
        unfold found
        rw [List.lookup_cons, show (k == e.1) = false by simpa using hk]
      have := ih hn.2
      rw [hw, hf]
      simp only [rowsIn, List.flatMap_cons, List.count_append] at this ⊢
      omega

theorem count_put (a : Row) (m : Buffers) (k : Nat) (b : Buffer) :
    (rowsIn (put m k b)).count a = (rowsIn (without m k)).count a + b.rows.count a := by
  simp [rowsIn, put]

theorem found_of_lookup {m : Buffers} {k : Nat} {b : Buffer} (h : m.lookup k = some b) : found m k = b.rows := by simp [found, h]

theorem found_of_none {m : Buffers} {k : Nat} (h : m.lookup k = none) : found m k = [] := by simp [found, h]

theorem count_rowsSent (a : Row) (l : List Sent) (x : Sent) : (rowsSent (l ++ [x])).count a = (rowsSent l).count a + x.rows.count a := by
  simp [rowsSent]

theorem rowsSent_map (m : Buffers) (inMemory : Bool) : rowsSent (m.map fun e => ⟨e.1, e.2.rows, inMemory⟩) = rowsIn m := by
  simp [rowsSent, rowsIn, List.flatMap_map]

/-! ### All interleavings -/

theorem inIngest_next (rows : List Row) : inIngest (.next rows) = rows := by cases rows <;> rfl

structure Inv (steps : List Step) (s : State) : Prop where
  memory : (keys s.memory).Nodup
  disk : (keys s.disk).Nodup
  conserved : ∀ a, (received steps).count a = s.compressed.count a + (kept s).count a + s.lost.count a

/-- What is not changed when a thread spills. -/
structure Same (s s' : State) : Prop where
  channel : s'.channel = s.channel
  compressing : s'.compressing = s.compressing
  compressed : s'.compressed = s.compressed
  ingest : s'.ingest = s.ingest
  request : s'.request = s.request
  aborted : s'.aborted = s.aborted
  index : s'.index = s.index

/-- The rows in the maps and those that are lost. -/
def shared (s : State) (a : Row) : Nat := (rowsIn s.memory).count a + (rowsIn s.disk).count a + s.lost.count a

/-- Spilling keeps the rows. -/
def NextKeeps (s : State) (v : Spiller) : Next → Prop
  | .spiller v' s' => Same s s' ∧ (keys s'.memory).Nodup ∧ (keys s'.disk).Nodup ∧
      ∀ a, shared s a + (inSpiller v).count a = shared s' a + (inSpiller v').count a
  | .finished s' => Same s s' ∧ (keys s'.memory).Nodup ∧ (keys s'.disk).Nodup ∧ ∀ a, shared s a + (inSpiller v).count a = shared s' a
  | .failed s' => Same s s' ∧ (keys s'.memory).Nodup ∧ (keys s'.disk).Nodup ∧ ∀ a, shared s a + (inSpiller v).count a = shared s' a
  | .aborted => True

theorem spill_keeps {env : Env} {s : State} {pick : Nat} {io : Bool} {v : Spiller} {n : Next} (hm : (keys s.memory).Nodup) (hd : (keys s.disk).Nodup)
    (h : s.spill env pick io v = some n) : NextKeeps s v n := by
  have same : Same s s := ⟨rfl, rfl, rfl, rfl, rfl, rfl, rfl⟩
  cases v with
  | picking =>
    simp only [State.spill] at h
    split at h
    · cases h
      exact ⟨same, hm, hd, fun a => by simp [inSpiller]⟩
    · obtain ⟨e, _, h⟩ := Option.map_eq_some_iff.mp h
      subst h
      exact ⟨same, hm, hd, fun a => by simp [inSpiller]⟩
  | removing k =>
    simp only [State.spill] at h
    split at h
    · cases h; trivial
    · next b hb =>
      cases h
      refine ⟨⟨rfl, rfl, rfl, rfl, rfl, rfl, rfl⟩, nodup_without hm, hd, fun a => ?_⟩
      have := count_rowsIn a k hm
      rw [found_of_lookup hb] at this
      simp only [shared, inSpiller, List.count_nil]
      omega
  | writing k b =>
    simp only [State.spill] at h
    split at h
    · cases h; trivial
    · split at h
      · cases h
        exact ⟨same, hm, hd, fun a => by simp [inSpiller]⟩
      · cases h
        refine ⟨⟨rfl, rfl, rfl, rfl, rfl, rfl, rfl⟩, hm, hd, fun a => ?_⟩
        simp only [shared, inSpiller, List.count_append, List.count_nil]
        omega
  | storing k b =>
    simp only [State.spill] at h
    cases h
    refine ⟨⟨rfl, rfl, rfl, rfl, rfl, rfl, rfl⟩, hm, nodup_put hd, fun a => ?_⟩
    have := count_rowsIn a k hd
    simp only [shared, inSpiller, List.count_append, List.count_nil, count_put]
    omega
  | restoring k u =>
    simp only [State.spill] at h
    cases h
    refine ⟨⟨rfl, rfl, rfl, rfl, rfl, rfl, rfl⟩, nodup_put hm, hd, fun a => ?_⟩
    have := count_rowsIn a k hm
    simp only [shared, inSpiller, List.count_append, List.count_nil, count_put]
    omega
  | returning k =>
    simp only [State.spill] at h
    cases h
    exact ⟨⟨rfl, rfl, rfl, rfl, rfl, rfl, rfl⟩, hm, hd, fun a => by simp [shared, inSpiller]⟩

/-- The rows in a state. -/
theorem kept_eq (s : State) (a : Row) :
    (kept s).count a = (rowsSent s.channel).count a + (rowsSent s.compressing.toList).count a + (rowsIn s.memory).count a + (rowsIn s.disk).count a +
      (inIngest s.ingest).count a + (inRequest s.request).count a := by
  simp only [kept, List.count_append]

/-- All rows. -/
def total (s : State) (a : Row) : Nat := s.compressed.count a + (kept s).count a + s.lost.count a

theorem ingest_keeps {env : Env} {s s' : State} {pick : Nat} {io : Bool} (hm : (keys s.memory).Nodup) (hd : (keys s.disk).Nodup)
    (h : s.ingestStep env pick io = some s') : (keys s'.memory).Nodup ∧ (keys s'.disk).Nodup ∧ ∀ a, total s a = total s' a := by
  unfold State.ingestStep at h
  split at h
  · cases h
  · next row rest hi =>
    split at h
    · cases h
      exact ⟨hm, hd, fun a => by simp only [total, kept_eq, hi, inIngest]⟩
    · next b hb =>
      cases h
      refine ⟨nodup_put hm, hd, fun a => ?_⟩
      have h1 := count_rowsIn a row.series hm
      rw [found_of_lookup hb] at h1
      have h2 : (inIngest (if (b.rows ++ [row]).length = env.capacity then .sending row.series rest else .next rest)) = rest := by
        split
        · rfl
        · exact inIngest_next _
      simp only [total, kept_eq, hi, h2]
      simp only [inIngest, count_put, List.count_append, List.count_cons, List.count_nil]
      omega
  · next row rest hi =>
    split at h
    · cases h
      exact ⟨hm, hd, fun a => by simp only [total, kept_eq, hi, inIngest]⟩
    · split at h
      · cases h
        exact ⟨hm, hd, fun a => by simp only [total, kept_eq, hi, inIngest, inSpiller, List.append_nil]⟩
      · cases h
  · next row rest v hi =>
    obtain ⟨n, hn, h⟩ := Option.map_eq_some_iff.mp h
    have hk := spill_keeps hm hd hn
    cases n with
    | spiller v' s₁ =>
      subst h
      obtain ⟨hs, hm', hd', hk⟩ := hk
      refine ⟨hm', hd', fun a => ?_⟩
      have := hk a
      simp only [shared] at this
      simp only [total, kept_eq, hi, inIngest, hs.channel, hs.compressing, hs.compressed, hs.request, List.count_append]
      omega
    | finished s₁ =>
      subst h
      obtain ⟨hs, hm', hd', hk⟩ := hk
      refine ⟨hm', hd', fun a => ?_⟩
      have := hk a
      simp only [shared] at this
      simp only [total, kept_eq, hi, inIngest, hs.channel, hs.compressing, hs.compressed, hs.request, List.count_append]
      omega
    | failed s₁ =>
      subst h
      obtain ⟨hs, hm', hd', hk⟩ := hk
      refine ⟨hm', hd', fun a => ?_⟩
      have := hk a
      simp only [shared] at this
      simp only [total, kept_eq, hi, inIngest, hs.channel, hs.compressing, hs.compressed, hs.request, List.count_append]
      omega
    | aborted =>
      subst h
      exact ⟨hm, hd, fun a => rfl⟩
  · next row rest hi =>
    split at h
    · cases h
      exact ⟨hm, hd, fun a => by simp only [total, kept_eq, hi, inIngest]; simp⟩
    · next b hb =>
      split at h
      · cases h
        refine ⟨hm, nodup_put hd, fun a => ?_⟩
        have h1 := count_rowsIn a row.series hd
        rw [found_of_lookup hb] at h1
        simp only [total, kept_eq, hi, inIngest, count_put, List.count_append, List.count_cons, List.count_nil]
        omega
      · cases h
        exact ⟨hm, hd, fun a => by simp only [total, kept_eq, hi, inIngest]⟩
  · next k rest b hi =>
    cases h
    refine ⟨hm, nodup_without hd, fun a => ?_⟩
    have h1 := count_rowsIn a k hd
    simp only [total, kept_eq, hi, inIngest, List.count_append]
    omega
  · next k rest b full hi =>
    cases h
    refine ⟨nodup_put hm, hd, fun a => ?_⟩
    have h1 := count_rowsIn a k hm
    have h2 : (inIngest (if full then .sending k rest else .next rest)) = rest := by
      split
      · rfl
      · exact inIngest_next _
    simp only [total, kept_eq, hi, h2]
    simp only [inIngest, count_put, List.count_append]
    omega
  · next k rest hi =>
    split at h
    · cases h
      exact ⟨hm, hd, fun a => rfl⟩
    · next b hb =>
      cases h
      refine ⟨nodup_without hm, hd, fun a => ?_⟩
      have h1 := count_rowsIn a k hm
      rw [found_of_lookup hb] at h1
      simp only [total, kept_eq, hi, inIngest_next, count_rowsSent]
      simp only [inIngest]
      omega
  · next hi =>
    cases h
    exact ⟨hm, hd, fun a => by simp only [total, kept_eq, hi, inIngest]⟩
  · next k ks current hi =>
    split at h
    · cases h
      exact ⟨hm, hd, fun a => rfl⟩
    · next b hb =>
      cases h
      refine ⟨nodup_without hm, hd, fun a => ?_⟩
      have h1 := count_rowsIn a k hm
      rw [found_of_lookup hb] at h1
      simp only [total, kept_eq, hi, inIngest, count_rowsSent]
      omega
  · next current hi =>
    cases h
    exact ⟨hm, hd, fun a => by simp only [total, kept_eq, hi, inIngest]⟩
  · next k ks hi =>
    split at h
    · cases h
      exact ⟨hm, hd, fun a => rfl⟩
    · next b hb =>
      cases h
      refine ⟨hm, nodup_without hd, fun a => ?_⟩
      have h1 := count_rowsIn a k hd
      rw [found_of_lookup hb] at h1
      simp only [total, kept_eq, hi, inIngest, count_rowsSent]
      omega
  · next hi =>
    cases h
    exact ⟨hm, hd, fun a => by simp only [total, kept_eq, hi, inIngest]⟩
  · cases h

theorem request_keeps {env : Env} {s s' : State} {pick : Nat} {io : Bool} (hm : (keys s.memory).Nodup) (hd : (keys s.disk).Nodup)
    (h : s.requestStep env pick io = some s') : (keys s'.memory).Nodup ∧ (keys s'.disk).Nodup ∧ ∀ a, total s a = total s' a := by
  unfold State.requestStep at h
  split at h
  · cases h
  · next c hr =>
    split at h <;> cases h <;> exact ⟨hm, hd, fun a => by simp only [total, kept_eq, hr, inRequest, inSpiller]⟩
  · next c v hr =>
    obtain ⟨n, hn, h⟩ := Option.map_eq_some_iff.mp h
    have hk := spill_keeps hm hd hn
    cases n with
    | spiller v' s₁ =>
      subst h
      obtain ⟨hs, hm', hd', hk⟩ := hk
      refine ⟨hm', hd', fun a => ?_⟩
      have := hk a
      simp only [shared] at this
      simp only [total, kept_eq, hr, inRequest, hs.channel, hs.compressing, hs.compressed, hs.ingest]
      omega
    | finished s₁ =>
      subst h
      obtain ⟨hs, hm', hd', hk⟩ := hk
      refine ⟨hm', hd', fun a => ?_⟩
      have := hk a
      simp only [shared] at this
      simp only [total, kept_eq, hr, inRequest, hs.channel, hs.compressing, hs.compressed, hs.ingest, List.count_nil]
      omega
    | failed s₁ =>
      subst h
      obtain ⟨hs, hm', hd', hk⟩ := hk
      refine ⟨hm', hd', fun a => ?_⟩
      have := hk a
      simp only [shared] at this
      simp only [total, kept_eq, hr, inRequest, hs.channel, hs.compressing, hs.compressed, hs.ingest, List.count_nil]
      omega
    | aborted =>
      subst h
      exact ⟨hm, hd, fun a => rfl⟩

theorem step_inv {env : Env} {steps : List Step} {s s' : State} {x : Step} (hi : Inv steps s) (h : s.step env x = some s') : Inv (steps ++ [x]) s' := by
  have hc := hi.conserved
  have key : ∀ a, (received (steps ++ [x])).count a = total s a + (rowsOf x).count a := by
    intro a
    have := hc a
    simp only [received, List.flatMap_append, List.flatMap_cons, List.flatMap_nil, List.append_nil, List.count_append] at this ⊢
    simp only [total]
    omega
  suffices hs : (keys s'.memory).Nodup ∧ (keys s'.disk).Nodup ∧ ∀ a, total s a + (rowsOf x).count a = total s' a from
    ⟨hs.1, hs.2.1, fun a => by rw [key a, hs.2.2 a]; rfl⟩
  unfold State.step at h
  split at h
  · cases h
  · cases x with
    | batch rows =>
      dsimp only at h
      split at h
      · next hw =>
        cases h
        refine ⟨hi.memory, hi.disk, fun a => ?_⟩
        simp only [total, kept_eq, hw, inIngest_next]
        simp only [inIngest, rowsOf, List.count_nil]
        omega
      · cases h
    | flush =>
      dsimp only at h
      split at h
      · next hw =>
        cases h
        refine ⟨by simp [State.flush, keys], by simp [State.flush, keys], fun a => ?_⟩
        have h1 : ∀ x y z : List Sent, (rowsSent (x ++ y ++ z)).count a = (rowsSent x).count a + (rowsSent y).count a + (rowsSent z).count a := by
          intro x y z
          simp only [rowsSent, List.flatMap_append, List.count_append]
        simp only [total, kept_eq, State.flush, h1, rowsSent_map, rowsOf, List.count_nil, rowsIn, List.flatMap_nil]
        omega
      · cases h
    | ingest pick io =>
      obtain ⟨h1, h2, h3⟩ := ingest_keeps hi.memory hi.disk h
      exact ⟨h1, h2, fun a => by simp [rowsOf, h3 a]⟩
    | take =>
      dsimp only at h
      split at h
      · next sent channel hn hch =>
        cases h
        refine ⟨hi.memory, hi.disk, fun a => ?_⟩
        simp only [total, kept_eq, hn, hch, rowsOf, List.count_nil, Option.toList, rowsSent, List.flatMap_cons, List.flatMap_nil, List.count_append]
        omega
      · cases h
    | compress =>
      dsimp only at h
      split at h
      · cases h
      · next sent hn =>
        cases h
        refine ⟨hi.memory, hi.disk, fun a => ?_⟩
        simp only [total, kept_eq, hn, rowsOf, List.count_nil, Option.toList, rowsSent, List.flatMap_cons, List.flatMap_nil, List.count_append]
        omega
    | change c =>
      dsimp only at h
      split at h
      · next hr =>
        cases h
        refine ⟨hi.memory, hi.disk, fun a => ?_⟩
        simp only [total, kept_eq, hr, rowsOf, List.count_nil, inRequest]
        omega
      · cases h
    | request pick io =>
      obtain ⟨h1, h2, h3⟩ := request_keeps hi.memory hi.disk h
      exact ⟨h1, h2, fun a => by simp [rowsOf, h3 a]⟩
    | cancel =>
      dsimp only at h
      split at h
      · next c k b hr =>
        cases h
        refine ⟨hi.memory, hi.disk, fun a => ?_⟩
        simp only [total, kept_eq, hr, rowsOf, List.count_nil, inRequest, inSpiller, List.count_append]
        omega
      · cases h

theorem inv_reached {env : Env} {memory : Nat} {steps : List Step} {s : State} (h : Reached env memory steps s) : Inv steps s :=
  reached_induction (P := Inv) ⟨by simp [State.start, keys], by simp [State.start, keys], fun a => by simp [received, State.start, kept, rowsSent, rowsIn, inIngest, inRequest]⟩
    (fun _ _ _ _ _ hi h => step_inv hi h) h

/-! ### Threads that do not meet -/

/-- What holds where a thread spills. -/
def SpillerOk (memory disk : Buffers) : Spiller → Prop
  | .removing k => k ∈ keys memory
  | .writing k b => k ∉ keys memory ∧ k ∉ keys disk ∧ b.rows ≠ []
  | .storing k b => k ∉ keys memory ∧ k ∉ keys disk ∧ b.rows ≠ []
  | .restoring _ _ => False
  | _ => True

/-- What holds where the ingestion thread is. -/
def IngestOk (memory disk : Buffers) : Ingest → Prop
  | .reserving row _ => row.series ∉ keys memory
  | .spilling row _ v => row.series ∉ keys memory ∧ SpillerOk memory disk v
  | .reading row _ => row.series ∉ keys memory
  | .dropping k _ b => k ∉ keys memory ∧ found disk k = [] ∧ b.rows ≠ []
  | .putting k _ b _ => k ∉ keys memory ∧ k ∉ keys disk ∧ b.rows ≠ []
  | .sending k _ => k ∈ keys memory
  | .finishing ks _ => ks.Nodup ∧ ∀ k ∈ ks, k ∈ keys memory
  | .finishingDisk ks => ks.Nodup ∧ ∀ k ∈ ks, k ∈ keys disk
  | _ => True

/-- What holds where a request is. -/
def RequestOk (memory disk : Buffers) : Option Request → Prop
  | some ⟨_, some v⟩ => SpillerOk memory disk v
  | _ => True

/-- What holds for the maps. -/
structure Sound (s : State) : Prop where
  lost : s.lost = []
  memory : (keys s.memory).Nodup
  disk : (keys s.disk).Nodup
  apart : ∀ k ∈ keys s.memory, k ∉ keys s.disk
  filled : ∀ e ∈ s.memory, e.2.rows ≠ []

structure Ordered (s : State) : Prop extends Sound s where
  running : s.aborted = false
  ingest : IngestOk s.memory s.disk s.ingest
  request : RequestOk s.memory s.disk s.request

theorem filled_without {m : Buffers} {k : Nat} (h : ∀ e ∈ m, e.2.rows ≠ []) : ∀ e ∈ without m k, e.2.rows ≠ [] :=
  fun e he => h e (List.mem_of_mem_filter he)

theorem filled_put {m : Buffers} {k : Nat} {b : Buffer} (h : ∀ e ∈ m, e.2.rows ≠ []) (hb : b.rows ≠ []) : ∀ e ∈ put m k b, e.2.rows ≠ [] := by
  intro e he
  rcases List.mem_append.mp he with he | he
  · exact filled_without h e he
  · cases List.mem_singleton.mp he
    exact hb

theorem lookup_put {m : Buffers} {k : Nat} {b : Buffer} : (put m k b).lookup k = some b := by
  unfold put
  rw [List.lookup_append, lookup_none.mpr (fun h => (mem_keys_without.mp h).2 rfl)]
  simp

/-- What spilling does if the threads do not meet. -/
def NextSound (s : State) : Next → Prop
  | .spiller v s' => Same s s' ∧ Sound s' ∧ SpillerOk s'.memory s'.disk v ∧ ∀ k ∈ keys s'.memory, k ∈ keys s.memory
  | .finished s' => Same s s' ∧ Sound s' ∧ ∀ k ∈ keys s'.memory, k ∈ keys s.memory
  | .failed s' => s' = s
  | .aborted => False

theorem spill_sound {env : Env} {s : State} {pick : Nat} {v : Spiller} {n : Next} (hs : Sound s) (hv : SpillerOk s.memory s.disk v)
    (h : s.spill env pick true v = some n) : NextSound s n := by
  have same : Same s s := ⟨rfl, rfl, rfl, rfl, rfl, rfl, rfl⟩
  cases v with
  | picking =>
    simp only [State.spill] at h
    split at h
    · cases h
      rfl
    · obtain ⟨e, he, h⟩ := Option.map_eq_some_iff.mp h
      subst h
      exact ⟨same, hs, List.mem_map_of_mem (List.mem_of_getElem? he), fun _ h => h⟩
  | removing k =>
    simp only [State.spill] at h
    split at h
    · next hn => exact absurd hv (lookup_none.mp hn)
    · next b hb =>
      cases h
      have hmem := lookup_some_mem hb
      refine ⟨⟨rfl, rfl, rfl, rfl, rfl, rfl, rfl⟩, ⟨hs.lost, nodup_without hs.memory, hs.disk, fun k' hk' => hs.apart k' (mem_keys_without.mp hk').1,
        filled_without hs.filled⟩, ⟨fun h => (mem_keys_without.mp h).2 rfl, hs.apart k hv, hs.filled _ hmem⟩, fun k' h => (mem_keys_without.mp h).1⟩
  | writing k b =>
    simp only [State.spill] at h
    split at h
    · next hb => exact absurd hb hv.2.2
    · rw [if_pos trivial] at h
      cases h
      exact ⟨same, hs, hv, fun _ h => h⟩
  | storing k b =>
    simp only [State.spill] at h
    cases h
    refine ⟨⟨rfl, rfl, rfl, rfl, rfl, rfl, rfl⟩, ⟨?_, hs.memory, nodup_put hs.disk, fun k' hk' => ?_, hs.filled⟩, trivial, fun _ h => h⟩
    · show s.lost ++ found s.disk k = []
      rw [hs.lost, found_of_none (lookup_none.mpr hv.2.1)]
      rfl
    · intro h
      rcases mem_keys_put.mp h with h | h
      · exact hs.apart k' hk' h
      · rw [h] at hk'
        exact hv.1 hk'
  | restoring k u => exact absurd hv id
  | returning k =>
    simp only [State.spill] at h
    cases h
    exact ⟨⟨rfl, rfl, rfl, rfl, rfl, rfl, rfl⟩, ⟨hs.1, hs.2, hs.3, hs.4, hs.5⟩, fun _ h => h⟩

theorem ingestOk_next (memory disk : Buffers) (rows : List Row) : IngestOk memory disk (.next rows) := by cases rows <;> trivial

theorem requestOk_of_not_spills {s : State} (h : ¬Spills s) (memory disk : Buffers) : RequestOk memory disk s.request := by
  cases hr : s.request with
  | none => trivial
  | some r =>
    obtain ⟨c, v⟩ := r
    cases v with
    | none => trivial
    | some v => exact absurd ⟨c, v, hr⟩ h

theorem keys_filter_nodup {m : Buffers} (p : Nat × Buffer → Bool) (h : (keys m).Nodup) : ((m.filter p).map Prod.fst).Nodup :=
  h.sublist (List.Sublist.map _ List.filter_sublist)

theorem keys_filter_mem {m : Buffers} (p : Nat × Buffer → Bool) : ∀ k ∈ (m.filter p).map Prod.fst, k ∈ keys m := by
  intro k hk
  obtain ⟨e, he, rfl⟩ := List.mem_map.mp hk
  exact List.mem_map_of_mem (List.mem_of_mem_filter he)

theorem ingest_ordered {env : Env} {s s' : State} {pick : Nat} (ho : Ordered s) (hx : ¬Spills s) (h : s.ingestStep env pick true = some s') : Ordered s' := by
  have hr := requestOk_of_not_spills hx
  have hin := ho.ingest
  have hs := ho.toSound
  unfold State.ingestStep at h
  split at h
  · cases h
  · next row rest hi =>
    split at h
    · next hn =>
      cases h
      exact ⟨⟨hs.1, hs.2, hs.3, hs.4, hs.5⟩, ho.running, lookup_none.mp hn, ho.request⟩
    · next b hb =>
      cases h
      have hk : row.series ∈ keys s.memory := List.mem_map_of_mem (f := Prod.fst) (lookup_some_mem hb)
      refine ⟨⟨hs.lost, nodup_put hs.memory, hs.disk, fun k hk' => ?_, filled_put hs.filled (by simp)⟩, ho.running, ?_, hr _ _⟩
      · rcases mem_keys_put.mp hk' with h | h
        · exact hs.apart k h
        · rw [h]; exact hs.apart _ hk
      · dsimp only
        split
        · exact mem_keys_put.mpr (Or.inr rfl)
        · exact ingestOk_next _ _ _
  · next row rest hi =>
    rw [hi] at hin
    split at h
    · cases h
      exact ⟨⟨hs.1, hs.2, hs.3, hs.4, hs.5⟩, ho.running, hin, ho.request⟩
    · split at h
      · cases h
        exact ⟨⟨hs.1, hs.2, hs.3, hs.4, hs.5⟩, ho.running, ⟨hin, trivial⟩, ho.request⟩
      · cases h
  · next row rest v hi =>
    rw [hi] at hin
    obtain ⟨n, hn, h⟩ := Option.map_eq_some_iff.mp h
    have hk := spill_sound hs hin.2 hn
    cases n with
    | spiller v' s₁ =>
      subst h
      obtain ⟨hsame, hs', hv', hsub⟩ := hk
      refine ⟨⟨hs'.1, hs'.2, hs'.3, hs'.4, hs'.5⟩, hsame.aborted.trans ho.running, ⟨fun h => hin.1 (hsub _ h), hv'⟩, ?_⟩
      show RequestOk _ _ s₁.request
      rw [hsame.request]
      exact hr _ _
    | finished s₁ =>
      subst h
      obtain ⟨hsame, hs', hsub⟩ := hk
      refine ⟨⟨hs'.1, hs'.2, hs'.3, hs'.4, hs'.5⟩, hsame.aborted.trans ho.running, fun h => hin.1 (hsub _ h), ?_⟩
      show RequestOk _ _ s₁.request
      rw [hsame.request]
      exact hr _ _
    | failed s₁ =>
      subst h
      cases hk
      exact ⟨⟨hs.1, hs.2, hs.3, hs.4, hs.5⟩, ho.running, trivial, ho.request⟩
    | aborted => exact absurd hk id
  · next row rest hi =>
    rw [hi] at hin
    split at h
    · next hn =>
      cases h
      exact ⟨⟨hs.1, hs.2, hs.3, hs.4, hs.5⟩, ho.running, ⟨hin, lookup_none.mp hn, by simp⟩, ho.request⟩
    · next b hb =>
      rw [if_pos rfl] at h
      cases h
      have hk : row.series ∈ keys s.disk := List.mem_map_of_mem (f := Prod.fst) (lookup_some_mem hb)
      refine ⟨⟨hs.lost, hs.memory, nodup_put hs.disk, fun k hk' h => ?_, hs.filled⟩, ho.running, ⟨hin, found_of_lookup lookup_put, by simp⟩, hr _ _⟩
      rcases mem_keys_put.mp h with h | h
      · exact hs.apart k hk' h
      · rw [h] at hk'
        exact hin hk'
  · next k rest b hi =>
    rw [hi] at hin
    cases h
    refine ⟨⟨?_, hs.memory, nodup_without hs.disk, fun k hk' h => hs.apart k hk' (mem_keys_without.mp h).1, hs.filled⟩, ho.running,
      ⟨hin.1, fun h => (mem_keys_without.mp h).2 rfl, hin.2.2⟩, hr _ _⟩
    show s.lost ++ found s.disk k = []
    rw [hs.lost, hin.2.1]
    rfl
  · next k rest b full hi =>
    rw [hi] at hin
    cases h
    refine ⟨⟨?_, nodup_put hs.memory, hs.disk, fun k' hk' => ?_, filled_put hs.filled hin.2.2⟩, ho.running, ?_, hr _ _⟩
    · show s.lost ++ found s.memory k = []
      rw [hs.lost, found_of_none (lookup_none.mpr hin.1)]
      rfl
    · rcases mem_keys_put.mp hk' with h | h
      · exact hs.apart k' h
      · rw [h]; exact hin.2.1
    · dsimp only
      split
      · exact mem_keys_put.mpr (Or.inr rfl)
      · exact ingestOk_next _ _ _
  · next k rest hi =>
    rw [hi] at hin
    split at h
    · next hn => exact absurd hin (lookup_none.mp hn)
    · cases h
      exact ⟨⟨hs.lost, nodup_without hs.memory, hs.disk, fun k' hk' => hs.apart k' (mem_keys_without.mp hk').1, filled_without hs.filled⟩, ho.running,
        ingestOk_next _ _ _, hr _ _⟩
  · cases h
    exact ⟨⟨hs.1, hs.2, hs.3, hs.4, hs.5⟩, ho.running, ⟨keys_filter_nodup _ hs.memory, keys_filter_mem _⟩, ho.request⟩
  · next k ks current hi =>
    rw [hi] at hin
    split at h
    · next hn => exact absurd (hin.2 k List.mem_cons_self) (lookup_none.mp hn)
    · cases h
      have hnd := List.nodup_cons.mp hin.1
      exact ⟨⟨hs.lost, nodup_without hs.memory, hs.disk, fun k' hk' => hs.apart k' (mem_keys_without.mp hk').1, filled_without hs.filled⟩, ho.running,
        ⟨hnd.2, fun k' hk' => mem_keys_without.mpr ⟨hin.2 k' (List.mem_cons_of_mem _ hk'), fun h => hnd.1 (h ▸ hk')⟩⟩, hr _ _⟩
  · cases h
    exact ⟨⟨hs.1, hs.2, hs.3, hs.4, hs.5⟩, ho.running, ⟨keys_filter_nodup _ hs.disk, keys_filter_mem _⟩, ho.request⟩
  · next k ks hi =>
    rw [hi] at hin
    split at h
    · next hn => exact absurd (hin.2 k List.mem_cons_self) (lookup_none.mp hn)
    · cases h
      have hnd := List.nodup_cons.mp hin.1
      exact ⟨⟨hs.lost, hs.memory, nodup_without hs.disk, fun k' hk' h => hs.apart k' hk' (mem_keys_without.mp h).1, hs.filled⟩, ho.running,
        ⟨hnd.2, fun k' hk' => mem_keys_without.mpr ⟨hin.2 k' (List.mem_cons_of_mem _ hk'), fun h => hnd.1 (h ▸ hk')⟩⟩, hr _ _⟩
  · cases h
    exact ⟨⟨hs.1, hs.2, hs.3, hs.4, hs.5⟩, ho.running, trivial, ho.request⟩
  · cases h

theorem ingestOk_of_idle {i : Ingest} (h : Idle i) (memory disk : Buffers) : IngestOk memory disk i := by
  cases i <;> trivial

theorem request_ordered {env : Env} {s s' : State} {pick : Nat} (ho : Ordered s) (hx : Spills s → Idle s.ingest)
    (h : s.requestStep env pick true = some s') : Ordered s' := by
  have hs := ho.toSound
  have hq := ho.request
  unfold State.requestStep at h
  split at h
  · cases h
  · split at h <;> cases h <;> exact ⟨⟨hs.1, hs.2, hs.3, hs.4, hs.5⟩, ho.running, ho.ingest, trivial⟩
  · next c v hr =>
    rw [hr] at hq
    have hid := ingestOk_of_idle (hx ⟨c, v, hr⟩)
    obtain ⟨n, hn, h⟩ := Option.map_eq_some_iff.mp h
    have hk := spill_sound hs hq hn
    cases n with
    | spiller v' s₁ =>
      subst h
      obtain ⟨hsame, hs', hv', _⟩ := hk
      refine ⟨⟨hs'.1, hs'.2, hs'.3, hs'.4, hs'.5⟩, hsame.aborted.trans ho.running, ?_, hv'⟩
      show IngestOk _ _ s₁.ingest
      rw [hsame.ingest]
      exact hid _ _
    | finished s₁ =>
      subst h
      obtain ⟨hsame, hs', _⟩ := hk
      refine ⟨⟨hs'.1, hs'.2, hs'.3, hs'.4, hs'.5⟩, hsame.aborted.trans ho.running, ?_, trivial⟩
      show IngestOk _ _ s₁.ingest
      rw [hsame.ingest]
      exact hid _ _
    | failed s₁ =>
      subst h
      cases hk
      exact ⟨⟨hs.1, hs.2, hs.3, hs.4, hs.5⟩, ho.running, hid _ _, trivial⟩
    | aborted => exact absurd hk id

theorem step_ordered {env : Env} {s s' : State} {x : Step} (ho : Ordered s) (hx : Spills s → Idle s.ingest)
    (hio : ∀ pick io, (x = .ingest pick io ∨ x = .request pick io) → io = true) (hc : x ≠ .cancel) (h : s.step env x = some s') : Ordered s' := by
  have hs := ho.toSound
  unfold State.step at h
  split at h
  · cases h
  · cases x with
    | batch rows =>
      dsimp only at h
      split at h
      · cases h
        exact ⟨⟨hs.1, hs.2, hs.3, hs.4, hs.5⟩, ho.running, ingestOk_next _ _ _, ho.request⟩
      · cases h
    | flush =>
      dsimp only at h
      split at h
      · next hw =>
        cases h
        refine ⟨⟨hs.lost, by simp [State.flush, keys], by simp [State.flush, keys], by simp [State.flush, keys], by simp [State.flush]⟩, ho.running, ?_, ?_⟩
        · show IngestOk _ _ s.ingest
          rw [hw.1]
          trivial
        · show RequestOk _ _ s.request
          rw [hw.2]
          trivial
      · cases h
    | ingest pick io =>
      cases hio pick io (Or.inl rfl)
      by_cases hsp : Spills s
      · have hid := hx hsp
        dsimp only at h
        unfold State.ingestStep at h
        cases hi : s.ingest <;> rw [hi] at hid <;> first | (exact absurd hid id) | (rw [hi] at h; cases h)
      · exact ingest_ordered ho hsp h
    | take =>
      dsimp only at h
      split at h
      · cases h
        exact ⟨⟨hs.1, hs.2, hs.3, hs.4, hs.5⟩, ho.running, ho.ingest, ho.request⟩
      · cases h
    | compress =>
      dsimp only at h
      split at h
      · cases h
      · cases h
        exact ⟨⟨hs.1, hs.2, hs.3, hs.4, hs.5⟩, ho.running, ho.ingest, ho.request⟩
    | change c =>
      dsimp only at h
      split at h
      · cases h
        exact ⟨⟨hs.1, hs.2, hs.3, hs.4, hs.5⟩, ho.running, ho.ingest, trivial⟩
      · cases h
    | request pick io =>
      cases hio pick io (Or.inr rfl)
      exact request_ordered ho hx h
    | cancel => exact absurd rfl hc

theorem ordered_reached {env : Env} {memory : Nat} {steps : List Step} {s : State} (h : Reached env memory steps s) (hf : NoFailures steps)
    (hx : Exclusive env memory steps) : Ordered s := by
  induction steps using List.reverseRecOn generalizing s with
  | nil =>
    cases h
    exact ⟨⟨rfl, by simp [State.start, keys], by simp [State.start, keys], by simp [State.start, keys], by simp [State.start]⟩, rfl, trivial, trivial⟩
  | append_singleton steps x ih =>
    unfold Reached at h
    rw [run_snoc] at h
    obtain ⟨s₁, h1, h2⟩ := Option.bind_eq_some_iff.mp h
    have ho := ih h1 ⟨fun p io h => hf.1 p io (h.imp (List.mem_append_left _) (List.mem_append_left _)), fun h => hf.2 (List.mem_append_left _ h)⟩
      fun before after s he hr => hx before (after ++ [x]) s (by rw [he, List.append_assoc]) hr
    refine step_ordered ho (hx steps [x] s₁ rfl h1) (fun p io h => hf.1 p io ?_) (fun h => hf.2 (by simp [h])) h2
    rcases h with h | h <;> simp [h]

/-! ### The memory that remains -/

/-- What holds for the memory. -/
structure Remains (s : State) : Prop where
  none : s.request = none → 0 ≤ s.remaining
  more : ∀ c v, s.request = some ⟨c, v⟩ → 0 ≤ c → v = Option.none ∧ 0 ≤ s.remaining
  less : ∀ c v, s.request = some ⟨c, v⟩ → c < 0 → 0 ≤ s.remaining - c

/-- Spilling does not reduce the memory. -/
def NextMore (s : State) : Next → Prop
  | .spiller _ s' => s'.request = s.request ∧ s.remaining ≤ s'.remaining
  | .finished s' => s'.request = s.request ∧ s.remaining ≤ s'.remaining
  | .failed s' => s'.request = s.request ∧ s.remaining ≤ s'.remaining
  | .aborted => True

theorem spill_more {env : Env} {s : State} {pick : Nat} {io : Bool} {v : Spiller} {n : Next} (h : s.spill env pick io v = some n) : NextMore s n := by
  cases v with
  | picking =>
    simp only [State.spill] at h
    split at h
    · cases h; exact ⟨rfl, Int.le_refl _⟩
    · obtain ⟨e, _, h⟩ := Option.map_eq_some_iff.mp h
      subst h
      exact ⟨rfl, Int.le_refl _⟩
  | removing k =>
    simp only [State.spill] at h
    split at h <;> cases h
    · trivial
    · exact ⟨rfl, Int.le_refl _⟩
  | writing k b =>
    simp only [State.spill] at h
    split at h
    · cases h; trivial
    · split at h <;> cases h <;> exact ⟨rfl, Int.le_refl _⟩
  | storing k b =>
    simp only [State.spill] at h
    cases h; exact ⟨rfl, Int.le_refl _⟩
  | restoring k u =>
    simp only [State.spill] at h
    cases h; exact ⟨rfl, Int.le_refl _⟩
  | returning k =>
    simp only [State.spill] at h
    cases h
    refine ⟨rfl, ?_⟩
    show s.remaining ≤ s.remaining + env.size k
    omega

theorem Remains.of_le {s s' : State} (h : Remains s) (hr : s'.request = s.request) (hle : s.remaining ≤ s'.remaining) : Remains s' :=
  ⟨fun hn => Int.le_trans (h.none (hr ▸ hn)) hle, fun c v hc h0 => ⟨(h.more c v (hr ▸ hc) h0).1, Int.le_trans (h.more c v (hr ▸ hc) h0).2 hle⟩,
    fun c v hc h0 => by have := h.less c v (hr ▸ hc) h0; omega⟩

/-- Memory is only reserved if there is enough. -/
theorem Remains.of_reserved {s s' : State} (h : Remains s) (hr : s'.request = s.request) (hle : 0 ≤ s'.remaining) : Remains s' :=
  ⟨fun _ => hle, fun c v hc h0 => ⟨(h.more c v (hr ▸ hc) h0).1, hle⟩, fun c v _ h0 => by omega⟩

theorem ingest_remaining {env : Env} {s s' : State} {pick : Nat} {io : Bool} (h : s.ingestStep env pick io = some s') :
    s'.request = s.request ∧ (s.remaining ≤ s'.remaining ∨ 0 ≤ s'.remaining) := by
  unfold State.ingestStep at h
  split at h
  · cases h
  · split at h <;> cases h <;> exact ⟨rfl, Or.inl (Int.le_refl _)⟩
  · split at h
    · next hle =>
      cases h
      refine ⟨rfl, Or.inr ?_⟩
      dsimp only
      omega
    · split at h <;> cases h
      exact ⟨rfl, Or.inl (Int.le_refl _)⟩
  · obtain ⟨n, hn, h⟩ := Option.map_eq_some_iff.mp h
    have := spill_more hn
    cases n <;> subst h
    · exact ⟨this.1, Or.inl this.2⟩
    · exact ⟨this.1, Or.inl this.2⟩
    · exact ⟨this.1, Or.inl this.2⟩
    · exact ⟨rfl, Or.inl (Int.le_refl _)⟩
  · split at h
    · cases h; exact ⟨rfl, Or.inl (Int.le_refl _)⟩
    · split at h <;> cases h <;> exact ⟨rfl, Or.inl (Int.le_refl _)⟩
  · cases h; exact ⟨rfl, Or.inl (Int.le_refl _)⟩
  · cases h; exact ⟨rfl, Or.inl (Int.le_refl _)⟩
  · split at h <;> cases h <;> exact ⟨rfl, Or.inl (Int.le_refl _)⟩
  · cases h; exact ⟨rfl, Or.inl (Int.le_refl _)⟩
  · split at h <;> cases h <;> exact ⟨rfl, Or.inl (Int.le_refl _)⟩
  · cases h; exact ⟨rfl, Or.inl (Int.le_refl _)⟩
  · split at h <;> cases h <;> exact ⟨rfl, Or.inl (Int.le_refl _)⟩
  · cases h; exact ⟨rfl, Or.inl (Int.le_refl _)⟩
  · cases h

theorem request_remains {env : Env} {s s' : State} {pick : Nat} {io : Bool} (hr : Remains s) (h : s.requestStep env pick io = some s') : Remains s' := by
  unfold State.requestStep at h
  split at h
  · cases h
  · next c hq =>
    split at h
    · next hneg =>
      cases h
      have hc : c < 0 := by
        by_contra hc
        have := (hr.more c none hq (by omega)).2
        omega
      exact ⟨nofun, fun c' v he h0 => (by cases he; omega), fun c' v he h0 => (by cases he; exact hr.less c none hq hc)⟩
    · next hpos =>
      cases h
      exact ⟨fun _ => by show 0 ≤ s.remaining; omega, nofun, nofun⟩
  · next c v hq =>
    have hc : c < 0 := by
      by_contra hc
      cases (hr.more c (some v) hq (by omega)).1
    have hl := hr.less c (some v) hq hc
    obtain ⟨n, hn, h⟩ := Option.map_eq_some_iff.mp h
    have hk := spill_more hn
    cases n with
    | spiller v' s₁ =>
      subst h
      refine ⟨nofun, fun c' v he h0 => (by cases he; omega), fun c' v he h0 => ?_⟩
      cases he
      have := hk.2
      show 0 ≤ s₁.remaining - c
      omega
    | finished s₁ =>
      subst h
      refine ⟨nofun, fun c' v he h0 => (by cases he; omega), fun c' v he h0 => ?_⟩
      cases he
      have := hk.2
      show 0 ≤ s₁.remaining - c
      omega
    | failed s₁ =>
      subst h
      refine ⟨fun _ => ?_, nofun, nofun⟩
      have := hk.2
      show 0 ≤ s₁.remaining - c
      omega
    | aborted =>
      subst h
      exact hr.of_le rfl (Int.le_refl _)

theorem remains_reached {env : Env} {memory : Nat} {steps : List Step} {s : State} (h : Reached env memory steps s) (hc : Step.cancel ∉ steps) : Remains s := by
  have := reached_induction (P := fun steps s => Step.cancel ∉ steps → Remains s) (fun _ => ⟨fun _ => by simp [State.start], nofun, nofun⟩) ?_ h
  · exact this hc
  intro steps x s s' _ ih h hc
  have hr := ih fun h => hc (List.mem_append_left _ h)
  unfold State.step at h
  split at h
  · cases h
  · cases x with
    | batch rows =>
      dsimp only at h
      split at h
      · cases h; exact hr.of_le rfl (Int.le_refl _)
      · cases h
    | flush =>
      dsimp only at h
      split at h
      · cases h; exact hr.of_le rfl (Int.le_refl _)
      · cases h
    | ingest pick io =>
      obtain ⟨h1, h2 | h2⟩ := ingest_remaining h
      · exact hr.of_le h1 h2
      · exact hr.of_reserved h1 h2
    | take =>
      dsimp only at h
      split at h
      · cases h; exact hr.of_le rfl (Int.le_refl _)
      · cases h
    | compress =>
      dsimp only at h
      split at h
      · cases h
      · cases h
        refine hr.of_le rfl ?_
        dsimp only
        split <;> omega
    | change c =>
      dsimp only at h
      split at h
      · next hn =>
        cases h
        have h0 := hr.none hn
        refine ⟨nofun, fun c' v he hc => ?_, fun c' v he hc => ?_⟩
        · cases he
          exact ⟨rfl, by show 0 ≤ s.remaining + c; omega⟩
        · cases he
          show 0 ≤ s.remaining + c - c
          omega
      · cases h
    | request pick io => exact request_remains hr h
    | cancel => exact absurd (by simp) hc

end ModelarDB.UncompressedMemory
