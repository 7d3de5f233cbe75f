import Verif.Spec.Snapshots
import Mathlib.Data.List.Induction
/-
Helper lemmas for C95.
-/
namespace ModelarDB.Lemmas.Snapshots
open Model.Snapshots Spec.Snapshots

variable {ρ : Type} {content : Nat → List ρ}

theorem run_append (a b : List Step) (st : State ρ) : st.run content (a ++ b) = (st.run content a).bind fun st' => st'.run content b := by
  induction a generalizing st with
  | nil => rfl
  | cons s a ih =>
    simp only [List.cons_append, State.run]
    cases st.step content s with
    | none => rfl
    | some st1 => simpa using ih st1

theorem run_split {a b : List Step} {st st' : State ρ} (h : st.run content (a ++ b) = some st') :
    ∃ mid, st.run content a = some mid ∧ mid.run content b = some st' := by
  rw [run_append] at h; exact Option.bind_eq_some_iff.mp h

theorem run_one {st st' : State ρ} {s : Step} (h : st.run content [s] = some st') : st.step content s = some st' := by
  simp only [State.run, Option.bind_eq_some_iff] at h
  obtain ⟨x, hx, e⟩ := h
  cases e; exact hx

theorem run_snoc {a : List Step} {s : Step} {st mid st' : State ρ} (h1 : st.run content a = some mid) (h2 : mid.step content s = some st') :
    st.run content (a ++ [s]) = some st' := by
  rw [run_append, h1]; simp [State.run, h2]

theorem run_cons {a : List Step} {s : Step} {st st' : State ρ} (h : st.run content (s :: a) = some st') :
    ∃ mid, st.step content s = some mid ∧ mid.run content a = some st' := Option.bind_eq_some_iff.mp h

/-- What a step does to a query. -/
inductive Effect (content : Nat → List ρ) (q : Nat) (st : State ρ) : Step → State ρ → Prop
  | same {s st'} (h : st'.query q = st.query q) : Effect content q st s st'
  | ask {n st'} (h : st.query q = .idle) (h' : st'.query q = .planning n []) : Effect content q st (.ask q n) st'
  | scan {todo plans st'} (h : st.query q = .planning (todo + 1) plans) (hd : st.dropped = false) (h' : st'.query q = .planning todo (plans ++ [st.active])) :
      Effect content q st (.scan q) st'
  | scanFailed {st'} (hd : st.dropped = true) (h' : st'.query q = .failed) : Effect content q st (.scan q) st'
  | execute {plans st'} (h : st.query q = .planning 0 plans) (h' : st'.query q = nextScan [] plans) : Effect content q st (.execute q) st'
  | readEnd {complete current rest st'} (h : st.query q = .reading complete current [] rest) (h' : st'.query q = nextScan (complete ++ [current]) rest) :
      Effect content q st (.read q) st'
  | read {complete current f files rest st'} (h : st.query q = .reading complete current (f :: files) rest) (hf : f ∈ st.store)
      (h' : st'.query q = .reading complete (current ++ content f) files rest) : Effect content q st (.read q) st'
  | readFailed {complete current f files rest st'} (h : st.query q = .reading complete current (f :: files) rest) (hf : f ∉ st.store)
      (h' : st'.query q = .failed) : Effect content q st (.read q) st'

theorem setQuery_self (st : State ρ) (q : Nat) (x : Query ρ) : (st.setQuery q x).query q = x := by simp [State.setQuery]

theorem setQuery_other (st : State ρ) {p q : Nat} (h : q ≠ p) (x : Query ρ) : (st.setQuery p x).query q = st.query q := by simp [State.setQuery, h]

theorem effect (q : Nat) {st st' : State ρ} {s : Step} (h : st.step content s = some st') : Effect content q st s st' := by
  cases s with
  | ask p n =>
    simp only [State.step] at h
    split at h
    · rename_i hm
      cases h
      by_cases e : q = p
      · subst e
        cases hq : st.query q <;> simp [hq] at hm
        exact .ask hq (setQuery_self ..)
      · exact .same (setQuery_other _ e _)
    · cases h
  | scan p =>
    simp only [State.step] at h
    split at h
    · rename_i todo plans hm
      cases h
      by_cases e : q = p
      · subst e
        cases hd : st.dropped
        · exact .scan hm hd (by simp [setQuery_self])
        · exact .scanFailed hd (by simp [setQuery_self])
      · exact .same (setQuery_other _ e _)
    · cases h
  | execute p =>
    simp only [State.step] at h
    split at h
    · rename_i plans hm
      cases h
      by_cases e : q = p
      · subst e; exact .execute hm (setQuery_self ..)
      · exact .same (setQuery_other _ e _)
    · cases h
  | read p =>
    simp only [State.step] at h
    split at h
    · rename_i complete current rest hm
      cases h
      by_cases e : q = p
      · subst e; exact .readEnd hm (setQuery_self ..)
      · exact .same (setQuery_other _ e _)
    · rename_i complete current f files rest hm
      cases h
      by_cases e : q = p
      · subst e
        by_cases hf : f ∈ st.store
        · exact .read hm hf (by simp [setQuery_self, hf])
        · exact .readFailed hm hf (by simp [setQuery_self, hf])
      · exact .same (setQuery_other _ e _)
    · cases h
  | tick n => cases h; exact .same rfl
  | drop => cases h; exact .same rfl
  | write => simp only [State.step] at h; split at h <;> cases h; exact .same rfl
  | commit files => simp only [State.step] at h; split at h <;> cases h; exact .same rfl
  | rollback f => simp only [State.step] at h; split at h <;> cases h; exact .same rfl
  | abandon f => simp only [State.step] at h; split at h <;> cases h; exact .same rfl
  | remove c files => simp only [State.step] at h; split at h <;> cases h; exact .same rfl
  | checkpoint c => simp only [State.step] at h; split at h <;> cases h; exact .same rfl
  | vacuum c r => simp only [State.step] at h; split at h <;> cases h; exact .same rfl
  | delete f => simp only [State.step] at h; split at h <;> cases h; exact .same rfl
  | deleteDropped f => simp only [State.step] at h; split at h <;> cases h; exact .same rfl

/-- Steps of queries change nothing else. -/
def Step.ofQuery : Step → Bool
  | .ask _ _ | .scan _ | .execute _ | .read _ => true
  | _ => false

theorem query_step {st st' : State ρ} {s : Step} (hs : Step.ofQuery s = true) (h : st.step content s = some st') : ∃ q x, st' = st.setQuery q x := by
  cases s <;> simp only [Step.ofQuery] at hs <;> first | (cases hs; done) | skip
  all_goals
    simp only [State.step] at h
    split at h <;> cases h <;> exact ⟨_, _, rfl⟩

/-! ### Moments of scans -/

/-- The files of the table at some moment after the query was sent. -/
def Moment (content : Nat → List ρ) (st : State ρ) (steps : List Step) (q : Nat) (files : List Nat) : Prop :=
  ∃ before after mid, steps = before ++ after ∧ (∃ n, Step.ask q n ∈ before) ∧ st.run content before = some mid ∧ files = mid.active

theorem Moment.later {st : State ρ} {steps : List Step} {q : Nat} {files : List Nat} (h : Moment content st steps q files) (s : Step) :
    Moment content st (steps ++ [s]) q files := by
  obtain ⟨a, b, mid, e, hq, hr, hf⟩ := h
  exact ⟨a, b ++ [s], mid, by rw [e, List.append_assoc], hq, hr, hf⟩

/-- What is known about a query. -/
def Traced (content : Nat → List ρ) (st : State ρ) (steps : List Step) (q : Nat) (scans : Nat) : Query ρ → Prop
  | .idle => True
  | .planning todo plans => todo + plans.length = scans ∧ ∀ plan ∈ plans, Moment content st steps q plan
  | .reading complete current files rest =>
    complete.length + 1 + rest.length = scans ∧ (∀ r ∈ complete, ∃ plan, Moment content st steps q plan ∧ r = plan.flatMap content) ∧
      (∃ plan, Moment content st steps q plan ∧ current ++ files.flatMap content = plan.flatMap content) ∧ ∀ plan ∈ rest, Moment content st steps q plan
  | .done results => results.length = scans ∧ ∀ r ∈ results, ∃ plan, Moment content st steps q plan ∧ r = plan.flatMap content
  | .failed => True

theorem Traced.later {st : State ρ} {steps : List Step} {q scans : Nat} {x : Query ρ} (h : Traced content st steps q scans x) (s : Step) :
    Traced content st (steps ++ [s]) q scans x := by
  cases x with
  | idle => trivial
  | failed => trivial
  | planning todo plans => exact ⟨h.1, fun p hp => (h.2 p hp).later s⟩
  | reading complete current files rest =>
    obtain ⟨h0, h1, ⟨p, hp, e⟩, h3⟩ := h
    exact ⟨h0, fun r hr => (h1 r hr).imp fun _ x => ⟨x.1.later s, x.2⟩, ⟨p, hp.later s, e⟩, fun p hp => (h3 p hp).later s⟩
  | done results => exact ⟨h.1, fun r hr => (h.2 r hr).imp fun _ x => ⟨x.1.later s, x.2⟩⟩

theorem traced_next {st : State ρ} {steps : List Step} {q scans : Nat} {complete : List (List ρ)} {plans : List (List Nat)}
    (hl : complete.length + plans.length = scans)
    (h1 : ∀ r ∈ complete, ∃ plan, Moment content st steps q plan ∧ r = plan.flatMap content) (h2 : ∀ plan ∈ plans, Moment content st steps q plan) :
    Traced content st steps q scans (nextScan complete plans) := by
  cases plans with
  | nil => exact ⟨hl, h1⟩
  | cons p rest =>
    exact ⟨by simp only [List.length_cons] at hl; omega, h1, ⟨p, h2 p List.mem_cons_self, rfl⟩, fun x hx => h2 x (List.mem_cons_of_mem _ hx)⟩

/-- A query that has not been sent when the steps begin. -/
theorem traced {st : State ρ} {q : Nat} (h0 : st.query q = .idle) (steps : List Step) :
    ∀ {st' : State ρ}, st.run content steps = some st' →
      (st'.query q = .idle) ∨ ∃ n, Step.ask q n ∈ steps ∧ Traced content st steps q n (st'.query q) := by
  induction steps using List.reverseRecOn with
  | nil => intro st' h; cases h; exact .inl h0
  | append_singleton steps s ih =>
    intro st' h
    obtain ⟨mid, hm, h2⟩ := run_split h
    have hs := run_one h2
    have key := ih hm
    have hmem : ∀ {n}, Step.ask q n ∈ steps → Step.ask q n ∈ steps ++ [s] := fun h => List.mem_append_left _ h
    cases effect q hs with
    | same e =>
      rw [e]
      exact key.imp id fun ⟨n, hn, ht⟩ => ⟨n, hmem hn, ht.later s⟩
    | ask e e' =>
      refine .inr ⟨_, List.mem_append_right _ List.mem_cons_self, ?_⟩
      rw [e']
      exact ⟨by simp, fun p hp => by cases hp⟩
    | scan e hd e' =>
      rcases key with key | ⟨n, hn, ht⟩
      · rw [key] at e; cases e
      rw [e] at ht; rw [e']
      refine .inr ⟨n, hmem hn, by have := ht.1; simp only [List.length_append, List.length_cons, List.length_nil]; omega, fun p hp => ?_⟩
      rcases List.mem_append.mp hp with hp | hp
      · exact (ht.2 p hp).later _
      · cases List.mem_singleton.mp hp
        exact ⟨steps, [Step.scan q], mid, rfl, ⟨n, hn⟩, hm, rfl⟩
    | scanFailed hd e' =>
      rcases key with key | ⟨n, hn, ht⟩
      · -- a query that was not sent is not scanned
        exfalso
        simp [State.step, key] at hs
      · exact .inr ⟨n, hmem hn, by rw [e']; trivial⟩
    | execute e e' =>
      rcases key with key | ⟨n, hn, ht⟩
      · rw [key] at e; cases e
      rw [e] at ht; rw [e']
      exact .inr ⟨n, hmem hn, (traced_next (by have := ht.1; simp only [List.length_nil]; omega) (fun r hr => by cases hr) (fun p hp => (ht.2 p hp).later _))⟩
    | readEnd e e' =>
      rcases key with key | ⟨n, hn, ht⟩
      · rw [key] at e; cases e
      rw [e] at ht; rw [e']
      obtain ⟨hl, h1, ⟨p, hp, ep⟩, h3⟩ := ht
      refine .inr ⟨n, hmem hn, traced_next (by simp only [List.length_append, List.length_cons, List.length_nil]; omega) (fun r hr => ?_) (fun p hp => (h3 p hp).later _)⟩
      rcases List.mem_append.mp hr with hr | hr
      · exact (h1 r hr).imp fun _ x => ⟨x.1.later _, x.2⟩
      · cases List.mem_singleton.mp hr
        exact ⟨p, hp.later _, by simpa using ep⟩
    | read e hf e' =>
      rcases key with key | ⟨n, hn, ht⟩
      · rw [key] at e; cases e
      rw [e] at ht; rw [e']
      obtain ⟨hl, h1, ⟨p, hp, ep⟩, h3⟩ := ht
      exact .inr ⟨n, hmem hn, hl, fun r hr => (h1 r hr).imp fun _ x => ⟨x.1.later _, x.2⟩,
        ⟨p, hp.later _, by rw [← ep]; simp⟩, fun p hp => (h3 p hp).later _⟩
    | readFailed e hf e' =>
      rcases key with key | ⟨n, hn, ht⟩
      · rw [key] at e; cases e
      · exact .inr ⟨n, hmem hn, by rw [e']; trivial⟩

/-! ### Files that exist -/

/-- Files of the table and of writers exist, and VACUUM never deletes them. -/
structure Kept (st : State ρ) : Prop where
  active : ∀ f ∈ st.active, f ∈ st.store
  pending : ∀ f ∈ st.pending, f ∈ st.store
  apart : ∀ f ∈ st.active, f ∉ st.pending
  tombs : ∀ x ∈ st.tombs, x.1 ∉ st.active ∧ x.1 ∉ st.pending
  doomed : ∀ f ∈ st.doomed, f ∉ st.active ∧ f ∉ st.pending
  known : ∀ f ∈ st.store, f < st.next
  old : ∀ x ∈ st.tombs, x.1 < st.next
  dead : ∀ f ∈ st.doomed, f < st.next

theorem Kept.new : Kept (State.new : State ρ) := by
  constructor <;> intro x h <;> cases h

theorem mem_stale {st : State ρ} {c : Int} {r : Nat} {f : Nat} (h : f ∈ st.stale c r) :
    f ∈ st.store ∧ f ∉ st.active ∧ ∃ t, (f, t) ∈ st.tombs ∧ t < c - r := by
  simp only [State.stale, List.mem_filter, Bool.and_eq_true, List.any_eq_true, decide_eq_true_eq] at h
  obtain ⟨h1, ⟨⟨a, t⟩, hx, e, ht⟩, h3⟩ := h
  cases e
  exact ⟨h1, h3, t, hx, ht⟩

theorem Kept.step {st st' : State ρ} {s : Step} (k : Kept st) (hs : st.step content s = some st') (hd : st'.dropped = false) : Kept st' := by
  by_cases hq : Step.ofQuery s = true
  · obtain ⟨q, x, rfl⟩ := query_step hq hs
    exact ⟨k.active, k.pending, k.apart, k.tombs, k.doomed, k.known, k.old, k.dead⟩
  cases s with
  | ask => simp [Step.ofQuery] at hq
  | scan => simp [Step.ofQuery] at hq
  | execute => simp [Step.ofQuery] at hq
  | read => simp [Step.ofQuery] at hq
  | tick n => cases hs; exact ⟨k.active, k.pending, k.apart, k.tombs, k.doomed, k.known, k.old, k.dead⟩
  | drop => cases hs; cases hd
  | write =>
    simp only [State.step] at hs
    split at hs <;> cases hs
    have lt : ∀ f ∈ st.active, f < st.next := fun f hf => k.known f (k.active f hf)
    refine ⟨fun f hf => List.mem_append_left _ (k.active f hf), fun f hf => ?_, fun f hf hp => ?_, fun x hx => ⟨(k.tombs x hx).1, fun hp => ?_⟩,
      fun x hx => ⟨(k.doomed x hx).1, fun hp => ?_⟩, fun f hf => ?_, fun x hx => ?_, fun x hx => ?_⟩
    · rcases List.mem_append.mp hf with h | h
      · exact List.mem_append_left _ (k.pending f h)
      · exact List.mem_append_right _ h
    · rcases List.mem_append.mp hp with h | h
      · exact k.apart f hf h
      · have := lt f hf; have := List.mem_singleton.mp h; omega
    · rcases List.mem_append.mp hp with h | h
      · exact (k.tombs x hx).2 h
      · have := k.old x hx; have := List.mem_singleton.mp h; omega
    · rcases List.mem_append.mp hp with h | h
      · exact (k.doomed x hx).2 h
      · have := k.dead x hx; have := List.mem_singleton.mp h; omega
    · show f < st.next + 1
      rcases List.mem_append.mp hf with h | h
      · have := k.known f h; omega
      · have := List.mem_singleton.mp h; omega
    · exact Nat.lt_succ_of_lt (k.old x hx)
    · exact Nat.lt_succ_of_lt (k.dead x hx)
  | commit files =>
    simp only [State.step] at hs
    split at hs <;> cases hs
    rename_i hc
    obtain ⟨_, _, hp⟩ := hc
    refine ⟨fun f hf => ?_, fun f hf => k.pending f (List.mem_filter.mp hf).1, fun f hf h2 => ?_, fun x hx => ⟨fun h => ?_, fun h => (k.tombs x hx).2 (List.mem_filter.mp h).1⟩,
      fun x hx => ⟨fun h => ?_, fun h => (k.doomed x hx).2 (List.mem_filter.mp h).1⟩, k.known, k.old, k.dead⟩
    · rcases List.mem_append.mp hf with h | h
      · exact k.active f h
      · exact k.pending f (hp f h)
    · have h3 := List.mem_filter.mp h2
      rcases List.mem_append.mp hf with h | h
      · exact k.apart f h h3.1
      · simp [h] at h3
    · rcases List.mem_append.mp h with h | h
      · exact (k.tombs x hx).1 h
      · exact (k.tombs x hx).2 (hp _ h)
    · rcases List.mem_append.mp h with h | h
      · exact (k.doomed x hx).1 h
      · exact (k.doomed x hx).2 (hp _ h)
  | rollback g =>
    simp only [State.step] at hs
    split at hs <;> cases hs
    rename_i hg
    refine ⟨fun f hf => List.mem_filter.mpr ⟨k.active f hf, ?_⟩, fun f hf => List.mem_filter.mpr ⟨k.pending f (List.mem_filter.mp hf).1, (List.mem_filter.mp hf).2⟩,
      fun f hf h => k.apart f hf (List.mem_filter.mp h).1, fun x hx => ⟨(k.tombs x hx).1, fun h => (k.tombs x hx).2 (List.mem_filter.mp h).1⟩,
      fun x hx => ⟨(k.doomed x hx).1, fun h => (k.doomed x hx).2 (List.mem_filter.mp h).1⟩, fun f hf => k.known f (List.mem_filter.mp hf).1, k.old, k.dead⟩
    simp only [decide_eq_true_eq]
    rintro rfl
    exact k.apart _ hf hg
  | abandon g =>
    simp only [State.step] at hs
    split at hs <;> cases hs
    exact ⟨k.active, fun f hf => k.pending f (List.mem_filter.mp hf).1, fun f hf h => k.apart f hf (List.mem_filter.mp h).1,
      fun x hx => ⟨(k.tombs x hx).1, fun h => (k.tombs x hx).2 (List.mem_filter.mp h).1⟩,
      fun x hx => ⟨(k.doomed x hx).1, fun h => (k.doomed x hx).2 (List.mem_filter.mp h).1⟩, k.known, k.old, k.dead⟩
  | remove c files =>
    simp only [State.step] at hs
    split at hs <;> cases hs
    rename_i hc
    obtain ⟨_, ha⟩ := hc
    refine ⟨fun f hf => k.active f (List.mem_filter.mp hf).1, k.pending, fun f hf => k.apart f (List.mem_filter.mp hf).1, fun x hx => ?_,
      fun x hx => ⟨fun h => (k.doomed x hx).1 (List.mem_filter.mp h).1, (k.doomed x hx).2⟩, k.known, fun x hx => ?_, k.dead⟩
    · rcases List.mem_append.mp hx with h | h
      · exact ⟨fun h' => (k.tombs x h).1 (List.mem_filter.mp h').1, (k.tombs x h).2⟩
      · obtain ⟨f, hf, rfl⟩ := List.mem_map.mp h
        refine ⟨fun h' => ?_, k.apart f (ha f hf)⟩
        have := (List.mem_filter.mp h').2
        simp [hf] at this
    · rcases List.mem_append.mp hx with h | h
      · exact k.old x h
      · obtain ⟨f, hf, rfl⟩ := List.mem_map.mp h
        exact k.known f (k.active f (ha f hf))
  | checkpoint c =>
    simp only [State.step] at hs
    split at hs <;> cases hs
    exact ⟨k.active, k.pending, k.apart, fun x hx => k.tombs x (List.mem_filter.mp hx).1, k.doomed, k.known, fun x hx => k.old x (List.mem_filter.mp hx).1, k.dead⟩
  | vacuum c r =>
    simp only [State.step] at hs
    split at hs <;> cases hs
    refine ⟨k.active, k.pending, k.apart, k.tombs, fun f hf => ?_, k.known, k.old, fun f hf => ?_⟩
    · rcases List.mem_append.mp hf with h | h
      · exact k.doomed f h
      · obtain ⟨h1, h2, t, h3, _⟩ := mem_stale h
        exact ⟨h2, (k.tombs _ h3).2⟩
    · rcases List.mem_append.mp hf with h | h
      · exact k.dead f h
      · exact k.known f (mem_stale h).1
  | delete g =>
    simp only [State.step] at hs
    split at hs <;> cases hs
    rename_i hg
    refine ⟨fun f hf => List.mem_filter.mpr ⟨k.active f hf, ?_⟩, fun f hf => List.mem_filter.mpr ⟨k.pending f hf, ?_⟩,
      k.apart, k.tombs, fun x hx => k.doomed x (List.mem_filter.mp hx).1, fun f hf => k.known f (List.mem_filter.mp hf).1, k.old, fun x hx => k.dead x (List.mem_filter.mp hx).1⟩
    · simp only [decide_eq_true_eq]; rintro rfl; exact (k.doomed _ hg).1 hf
    · simp only [decide_eq_true_eq]; rintro rfl; exact (k.doomed _ hg).2 hf
  | deleteDropped g =>
    simp only [State.step] at hs
    split at hs <;> cases hs
    rename_i hc
    exact absurd hd (by simp [hc])

/-- A table that was dropped stays so. -/
theorem dropped_step {st st' : State ρ} {s : Step} (hs : st.step content s = some st') (hd : st'.dropped = false) : st.dropped = false := by
  by_cases hq : Step.ofQuery s = true
  · obtain ⟨q, x, rfl⟩ := query_step hq hs
    exact hd
  cases s with
  | ask => simp [Step.ofQuery] at hq
  | scan => simp [Step.ofQuery] at hq
  | execute => simp [Step.ofQuery] at hq
  | read => simp [Step.ofQuery] at hq
  | drop => cases hs; cases hd
  | tick n => cases hs; exact hd
  | write => simp only [State.step] at hs; split at hs <;> cases hs; exact hd
  | commit files => simp only [State.step] at hs; split at hs <;> cases hs; exact hd
  | rollback f => simp only [State.step] at hs; split at hs <;> cases hs; exact hd
  | abandon f => simp only [State.step] at hs; split at hs <;> cases hs; exact hd
  | remove c files => simp only [State.step] at hs; split at hs <;> cases hs; exact hd
  | checkpoint c => simp only [State.step] at hs; split at hs <;> cases hs; exact hd
  | vacuum c r => simp only [State.step] at hs; split at hs <;> cases hs; exact hd
  | delete f => simp only [State.step] at hs; split at hs <;> cases hs; exact hd
  | deleteDropped f => simp only [State.step] at hs; split at hs <;> cases hs; exact hd

theorem Kept.run {steps : List Step} : ∀ {st st' : State ρ}, Kept st → st.run content steps = some st' → st'.dropped = false → Kept st' := by
  induction steps using List.reverseRecOn with
  | nil => intro st st' k h _; cases h; exact k
  | append_singleton steps s ih =>
    intro st st' k h hd
    obtain ⟨mid, hm, h2⟩ := run_split h
    have hs := run_one h2
    exact (ih k hm (dropped_step hs hd)).step hs hd

/-! ### Files of a query -/

/-- Files the query has yet to read. -/
def unread : Query ρ → List Nat
  | .planning _ plans => plans.flatten
  | .reading _ _ files rest => files ++ rest.flatten
  | _ => []

theorem unread_next (complete : List (List ρ)) (plans : List (List Nat)) : unread (nextScan complete plans) = plans.flatten := by
  cases plans <;> rfl

theorem next_ne_failed (complete : List (List ρ)) (plans : List (List Nat)) : nextScan complete plans ≠ .failed := by
  cases plans <;> nofun

/-- A file that was in the table at the time `start` or later and is not deleted. -/
def SafeFile (start : Nat) (skew : Nat) (st : State ρ) (f : Nat) : Prop :=
  f ∈ st.store ∧ f ∉ st.doomed ∧ f ∉ st.pending ∧ f < st.next ∧ ∀ t, (f, t) ∈ st.tombs → (start : Int) - skew ≤ t

theorem safe_active {st : State ρ} (k : Kept st) {f : Nat} (h : f ∈ st.active) (start skew : Nat) : SafeFile start skew st f :=
  ⟨k.active f h, fun h' => (k.doomed f h').1 h, k.apart f h, k.known f (k.active f h), fun _ ht => absurd h (k.tombs _ ht).1⟩

theorem SafeFile.step {st st' : State ρ} {s : Step} {start skew D : Nat} {f : Nat} (h : SafeFile start skew st f)
    (hs : st.step content s = some st') (hd : st'.dropped = false) (hnow : start ≤ st.now) (hend : st.now ≤ start + D)
    (hc : ∀ c, clockOf s = some c → (st.now : Int) - skew ≤ c ∧ c ≤ st.now + skew) (hr : ∀ c r, s = .vacuum c r → D + 2 * skew ≤ r) :
    SafeFile start skew st' f := by
  obtain ⟨h1, h2, h3, h4, h5⟩ := h
  by_cases hq : Step.ofQuery s = true
  · obtain ⟨q, x, rfl⟩ := query_step hq hs
    exact ⟨h1, h2, h3, h4, h5⟩
  cases s with
  | ask => simp [Step.ofQuery] at hq
  | scan => simp [Step.ofQuery] at hq
  | execute => simp [Step.ofQuery] at hq
  | read => simp [Step.ofQuery] at hq
  | tick n => cases hs; exact ⟨h1, h2, h3, h4, h5⟩
  | drop => cases hs; cases hd
  | write =>
    simp only [State.step] at hs
    split at hs <;> cases hs
    refine ⟨List.mem_append_left _ h1, h2, fun h => ?_, Nat.lt_succ_of_lt h4, h5⟩
    rcases List.mem_append.mp h with h | h
    · exact h3 h
    · have := List.mem_singleton.mp h; omega
  | commit files =>
    simp only [State.step] at hs
    split at hs <;> cases hs
    exact ⟨h1, h2, fun h => h3 (List.mem_filter.mp h).1, h4, h5⟩
  | rollback g =>
    simp only [State.step] at hs
    split at hs <;> cases hs
    rename_i hg
    refine ⟨List.mem_filter.mpr ⟨h1, ?_⟩, h2, fun h => h3 (List.mem_filter.mp h).1, h4, h5⟩
    simp only [decide_eq_true_eq]; rintro rfl; exact h3 hg
  | abandon g =>
    simp only [State.step] at hs
    split at hs <;> cases hs
    exact ⟨h1, h2, fun h => h3 (List.mem_filter.mp h).1, h4, h5⟩
  | remove c files =>
    simp only [State.step] at hs
    split at hs <;> cases hs
    refine ⟨h1, h2, h3, h4, fun t ht => ?_⟩
    rcases List.mem_append.mp ht with h | h
    · exact h5 t h
    · obtain ⟨g, hg, e⟩ := List.mem_map.mp h
      cases e
      have := (hc c rfl).1
      omega
  | checkpoint c =>
    simp only [State.step] at hs
    split at hs <;> cases hs
    exact ⟨h1, h2, h3, h4, fun t ht => h5 t (List.mem_filter.mp ht).1⟩
  | vacuum c r =>
    simp only [State.step] at hs
    split at hs <;> cases hs
    refine ⟨h1, fun h => ?_, h3, h4, h5⟩
    rcases List.mem_append.mp h with h | h
    · exact h2 h
    · obtain ⟨_, _, t, ht, hlt⟩ := mem_stale h
      have a := h5 t ht
      have b := (hc c rfl).2
      have d := hr c r rfl
      omega
  | delete g =>
    simp only [State.step] at hs
    split at hs <;> cases hs
    rename_i hg
    refine ⟨List.mem_filter.mpr ⟨h1, ?_⟩, fun h => h2 (List.mem_filter.mp h).1, h3, h4, h5⟩
    simp only [decide_eq_true_eq]; rintro rfl; exact h2 hg
  | deleteDropped g =>
    simp only [State.step] at hs
    split at hs <;> cases hs
    rename_i hdr
    exact absurd hd (by simp [hdr])

theorem now_step {st st' : State ρ} {s : Step} (hs : st.step content s = some st') : st.now ≤ st'.now := by
  by_cases hq : Step.ofQuery s = true
  · obtain ⟨q, x, rfl⟩ := query_step hq hs
    exact Nat.le_refl _
  cases s with
  | ask => simp [Step.ofQuery] at hq
  | scan => simp [Step.ofQuery] at hq
  | execute => simp [Step.ofQuery] at hq
  | read => simp [Step.ofQuery] at hq
  | drop => cases hs; exact Nat.le_refl _
  | tick n => cases hs; exact Nat.le_add_right _ _
  | write => simp only [State.step] at hs; split at hs <;> cases hs; exact Nat.le_refl _
  | commit files => simp only [State.step] at hs; split at hs <;> cases hs; exact Nat.le_refl _
  | rollback f => simp only [State.step] at hs; split at hs <;> cases hs; exact Nat.le_refl _
  | abandon f => simp only [State.step] at hs; split at hs <;> cases hs; exact Nat.le_refl _
  | remove c files => simp only [State.step] at hs; split at hs <;> cases hs; exact Nat.le_refl _
  | checkpoint c => simp only [State.step] at hs; split at hs <;> cases hs; exact Nat.le_refl _
  | vacuum c r => simp only [State.step] at hs; split at hs <;> cases hs; exact Nat.le_refl _
  | delete f => simp only [State.step] at hs; split at hs <;> cases hs; exact Nat.le_refl _
  | deleteDropped f => simp only [State.step] at hs; split at hs <;> cases hs; exact Nat.le_refl _

/-- A query that is not too long does not fail. -/
theorem safe_run {q start skew D : Nat} {a : State ρ} (ka : Kept a) (ha : a.query q ≠ .failed)
    (hsafe : ∀ f ∈ unread (a.query q), SafeFile start skew a f) (hstart : start ≤ a.now) (steps : List Step) :
    ∀ {b : State ρ}, a.run content steps = some b → b.dropped = false → b.now ≤ start + D → ClocksWithin content skew a steps →
      RetainAtLeast (D + 2 * skew) steps → b.query q ≠ .failed ∧ (∀ f ∈ unread (b.query q), SafeFile start skew b f) ∧ start ≤ b.now := by
  induction steps using List.reverseRecOn with
  | nil => intro b h _ _ _ _; cases h; exact ⟨ha, hsafe, hstart⟩
  | append_singleton steps s ih =>
    intro b h hd hend hclock hretain
    obtain ⟨mid, hm, h2⟩ := run_split h
    have hs := run_one h2
    have hn := now_step hs
    have hd1 := dropped_step hs hd
    have km := ka.run hm hd1
    obtain ⟨i1, i2, i3⟩ := ih hm hd1 (by omega)
      (fun x t y m c e => hclock x t (y ++ [s]) m c (by rw [e]; simp)) (fun c r hv => hretain c r (List.mem_append_left _ hv))
    have up : ∀ f, SafeFile start skew mid f → SafeFile start skew b f := fun f hf =>
      hf.step (D := D) hs hd i3 (by omega) (fun c hc => hclock steps s [] mid c rfl hm hc)
        (fun c r e => hretain c r (by rw [e]; exact List.mem_append_right _ List.mem_cons_self))
    refine ⟨?_, fun f hf => ?_, by omega⟩
    · cases effect q hs with
      | same e => rw [e]; exact i1
      | ask e e' => rw [e']; nofun
      | scan e hdd e' => rw [e']; nofun
      | scanFailed hdd e' => rw [hd1] at hdd; cases hdd
      | execute e e' => rw [e']; exact next_ne_failed _ _
      | readEnd e e' => rw [e']; exact next_ne_failed _ _
      | read e hf e' => rw [e']; nofun
      | readFailed e hf e' =>
        refine absurd (i2 _ ?_).1 hf
        rw [e]
        exact List.mem_append_left _ List.mem_cons_self
    · cases effect q hs with
      | same e => rw [e] at hf; exact up f (i2 f hf)
      | ask e e' => rw [e'] at hf; cases hf
      | scan e hdd e' =>
        rw [e'] at hf
        simp only [unread, List.flatten_append, List.mem_append] at hf
        rcases hf with hf | hf
        · exact up f (i2 f (by rw [e]; exact hf))
        · exact up f (safe_active km (by simpa using hf) start skew)
      | scanFailed hdd e' => rw [hd1] at hdd; cases hdd
      | execute e e' => rw [e', unread_next] at hf; exact up f (i2 f (by rw [e]; exact hf))
      | readEnd e e' => rw [e', unread_next] at hf; exact up f (i2 f (by rw [e]; exact List.mem_append_right _ hf))
      | read e _ e' =>
        rw [e'] at hf
        refine up f (i2 f ?_)
        rw [e]
        simp only [unread, List.cons_append] at hf ⊢
        exact List.mem_cons_of_mem _ hf
      | readFailed e _ e' => rw [e'] at hf; cases hf

/-! ### Files that are deleted -/

theorem stale_of {st : State ρ} {c : Int} {r f : Nat} {t : Int} (k : Kept st) (hs : f ∈ st.store) (ht : (f, t) ∈ st.tombs) (hlt : t < c - r) : f ∈ st.stale c r := by
  simp only [State.stale, List.mem_filter, Bool.and_eq_true, List.any_eq_true, decide_eq_true_eq]
  exact ⟨hs, ⟨_, ht, rfl, hlt⟩, (k.tombs _ ht).1⟩

/-- A file that was removed stays in the log until a checkpoint is added after a week. -/
theorem tomb_step {st st' : State ρ} {s : Step} {f : Nat} {t : Int} (ht : (f, t) ∈ st.tombs) (hs : st.step content s = some st') (hd : st'.dropped = false)
    (hc : ∀ c, s = .checkpoint c → c - week ≤ t) : (f, t) ∈ st'.tombs := by
  by_cases hq : Step.ofQuery s = true
  · obtain ⟨q, x, rfl⟩ := query_step hq hs
    exact ht
  cases s with
  | ask => simp [Step.ofQuery] at hq
  | scan => simp [Step.ofQuery] at hq
  | execute => simp [Step.ofQuery] at hq
  | read => simp [Step.ofQuery] at hq
  | drop => cases hs; cases hd
  | tick n => cases hs; exact ht
  | write => simp only [State.step] at hs; split at hs <;> cases hs; exact ht
  | commit files => simp only [State.step] at hs; split at hs <;> cases hs; exact ht
  | rollback f => simp only [State.step] at hs; split at hs <;> cases hs; exact ht
  | abandon f => simp only [State.step] at hs; split at hs <;> cases hs; exact ht
  | remove c files => simp only [State.step] at hs; split at hs <;> cases hs; exact List.mem_append_left _ ht
  | checkpoint c =>
    simp only [State.step] at hs; split at hs <;> cases hs
    exact List.mem_filter.mpr ⟨ht, by simpa using hc c rfl⟩
  | vacuum c r => simp only [State.step] at hs; split at hs <;> cases hs; exact ht
  | delete f => simp only [State.step] at hs; split at hs <;> cases hs; exact ht
  | deleteDropped f => simp only [State.step] at hs; split at hs <;> cases hs; exact ht

theorem dropped_run {steps : List Step} : ∀ {st st' : State ρ}, st.run content steps = some st' → st'.dropped = false → st.dropped = false := by
  induction steps with
  | nil => intro st st' h hd; cases h; exact hd
  | cons s steps ih =>
    intro st st' h hd
    obtain ⟨mid, hm, h2⟩ := run_cons h
    exact dropped_step hm (ih h2 hd)

theorem tomb_run {steps : List Step} {f : Nat} {t : Int} : ∀ {st st' : State ρ}, (f, t) ∈ st.tombs → st.run content steps = some st' → st'.dropped = false →
    (∀ c, Step.checkpoint c ∈ steps → c - week ≤ t) → (f, t) ∈ st'.tombs := by
  induction steps with
  | nil => intro st st' ht h _ _; cases h; exact ht
  | cons s steps ih =>
    intro st st' ht h hd hc
    obtain ⟨mid, hm, h2⟩ := run_cons h
    exact ih (tomb_step ht hm (dropped_run h2 hd) (fun c e => hc c (by rw [e]; exact List.mem_cons_self))) h2 hd
      (fun c hx => hc c (List.mem_cons_of_mem _ hx))

/-- A file that VACUUM is to delete, or that does not exist, stays so. -/
theorem doomed_step {st st' : State ρ} {s : Step} {f : Nat} (hn : f < st.next) (h : f ∈ st.doomed ∨ f ∉ st.store) (hs : st.step content s = some st') :
    f < st'.next ∧ (f ∈ st'.doomed ∨ f ∉ st'.store) := by
  by_cases hq : Step.ofQuery s = true
  · obtain ⟨q, x, rfl⟩ := query_step hq hs
    exact ⟨hn, h⟩
  cases s with
  | ask => simp [Step.ofQuery] at hq
  | scan => simp [Step.ofQuery] at hq
  | execute => simp [Step.ofQuery] at hq
  | read => simp [Step.ofQuery] at hq
  | drop => cases hs; exact ⟨hn, h⟩
  | tick n => cases hs; exact ⟨hn, h⟩
  | write =>
    simp only [State.step] at hs; split at hs <;> cases hs
    refine ⟨Nat.lt_succ_of_lt hn, h.imp id fun h h' => ?_⟩
    rcases List.mem_append.mp h' with h' | h'
    · exact h h'
    · have := List.mem_singleton.mp h'; omega
  | commit files => simp only [State.step] at hs; split at hs <;> cases hs; exact ⟨hn, h⟩
  | rollback g => simp only [State.step] at hs; split at hs <;> cases hs; exact ⟨hn, h.imp id fun h h' => h (List.mem_filter.mp h').1⟩
  | abandon g => simp only [State.step] at hs; split at hs <;> cases hs; exact ⟨hn, h⟩
  | remove c files => simp only [State.step] at hs; split at hs <;> cases hs; exact ⟨hn, h⟩
  | checkpoint c => simp only [State.step] at hs; split at hs <;> cases hs; exact ⟨hn, h⟩
  | vacuum c r => simp only [State.step] at hs; split at hs <;> cases hs; exact ⟨hn, h.imp (List.mem_append_left _) id⟩
  | delete g =>
    simp only [State.step] at hs; split at hs <;> cases hs
    refine ⟨hn, ?_⟩
    by_cases e : f = g
    · subst e; exact .inr fun h' => by simpa using (List.mem_filter.mp h').2
    · exact h.imp (fun h => List.mem_filter.mpr ⟨h, by simpa using e⟩) (fun h h' => h (List.mem_filter.mp h').1)
  | deleteDropped g => simp only [State.step] at hs; split at hs <;> cases hs; exact ⟨hn, h.imp id fun h h' => h (List.mem_filter.mp h').1⟩

theorem doomed_run {steps : List Step} {f : Nat} : ∀ {st st' : State ρ}, f < st.next → (f ∈ st.doomed ∨ f ∉ st.store) → st.run content steps = some st' →
    f ∈ st'.doomed ∨ f ∉ st'.store := by
  induction steps with
  | nil => intro st st' _ h e; cases e; exact h
  | cons s steps ih =>
    intro st st' hn h e
    obtain ⟨mid, hm, h2⟩ := run_cons e
    obtain ⟨a, b⟩ := doomed_step hn h hm
    exact ih a b h2

/-- A file that belongs to no one. -/
structure Lost (st : State ρ) (f : Nat) : Prop where
  store : f ∈ st.store
  active : f ∉ st.active
  pending : f ∉ st.pending
  tombs : ∀ t, (f, t) ∉ st.tombs
  doomed : f ∉ st.doomed
  known : f < st.next

theorem Lost.step {st st' : State ρ} {s : Step} {f : Nat} (h : Lost st f) (hs : st.step content s = some st') (hd : st'.dropped = false) : Lost st' f := by
  obtain ⟨h1, h2, h3, h4, h5, h6⟩ := h
  by_cases hq : Step.ofQuery s = true
  · obtain ⟨q, x, rfl⟩ := query_step hq hs
    exact ⟨h1, h2, h3, h4, h5, h6⟩
  cases s with
  | ask => simp [Step.ofQuery] at hq
  | scan => simp [Step.ofQuery] at hq
  | execute => simp [Step.ofQuery] at hq
  | read => simp [Step.ofQuery] at hq
  | drop => cases hs; cases hd
  | tick n => cases hs; exact ⟨h1, h2, h3, h4, h5, h6⟩
  | write =>
    simp only [State.step] at hs; split at hs <;> cases hs
    refine ⟨List.mem_append_left _ h1, h2, fun h => ?_, h4, h5, Nat.lt_succ_of_lt h6⟩
    rcases List.mem_append.mp h with h | h
    · exact h3 h
    · have := List.mem_singleton.mp h; omega
  | commit files =>
    simp only [State.step] at hs; split at hs <;> cases hs
    rename_i hc
    refine ⟨h1, fun h => ?_, fun h => h3 (List.mem_filter.mp h).1, h4, h5, h6⟩
    rcases List.mem_append.mp h with h | h
    · exact h2 h
    · exact h3 (hc.2.2 f h)
  | rollback g =>
    simp only [State.step] at hs; split at hs <;> cases hs
    rename_i hg
    refine ⟨List.mem_filter.mpr ⟨h1, ?_⟩, h2, fun h => h3 (List.mem_filter.mp h).1, h4, h5, h6⟩
    simp only [decide_eq_true_eq]; rintro rfl; exact h3 hg
  | abandon g =>
    simp only [State.step] at hs; split at hs <;> cases hs
    exact ⟨h1, h2, fun h => h3 (List.mem_filter.mp h).1, h4, h5, h6⟩
  | remove c files =>
    simp only [State.step] at hs; split at hs <;> cases hs
    rename_i hc
    refine ⟨h1, fun h => h2 (List.mem_filter.mp h).1, h3, fun t ht => ?_, h5, h6⟩
    rcases List.mem_append.mp ht with h | h
    · exact h4 t h
    · obtain ⟨g, hg, e⟩ := List.mem_map.mp h
      cases e
      exact h2 (hc.2 _ hg)
  | checkpoint c =>
    simp only [State.step] at hs; split at hs <;> cases hs
    exact ⟨h1, h2, h3, fun t ht => h4 t (List.mem_filter.mp ht).1, h5, h6⟩
  | vacuum c r =>
    simp only [State.step] at hs; split at hs <;> cases hs
    refine ⟨h1, h2, h3, h4, fun h => ?_, h6⟩
    rcases List.mem_append.mp h with h | h
    · exact h5 h
    · obtain ⟨_, _, t, ht, _⟩ := mem_stale h
      exact h4 t ht
  | delete g =>
    simp only [State.step] at hs; split at hs <;> cases hs
    rename_i hg
    refine ⟨List.mem_filter.mpr ⟨h1, ?_⟩, h2, h3, h4, fun h => h5 (List.mem_filter.mp h).1, h6⟩
    simp only [decide_eq_true_eq]; rintro rfl; exact h5 hg
  | deleteDropped g =>
    simp only [State.step] at hs; split at hs <;> cases hs
    rename_i hdr
    exact absurd hd (by simp [hdr])

theorem Lost.run {steps : List Step} {f : Nat} : ∀ {st st' : State ρ}, Lost st f → st.run content steps = some st' → st'.dropped = false → Lost st' f := by
  induction steps with
  | nil => intro st st' h e _; cases e; exact h
  | cons s steps ih =>
    intro st st' h e hd
    obtain ⟨mid, hm, h2⟩ := run_cons e
    exact ih (h.step hm (dropped_run h2 hd)) h2 hd

/-! ### Clocks of a given sequence of steps -/

/-- `ClocksWithin` can be evaluated. -/
def clocksOk (content : Nat → List ρ) (skew : Nat) (st : State ρ) : List Step → Bool
  | [] => true
  | s :: rest =>
    (clockOf s).all (fun c => (st.now : Int) - skew ≤ c ∧ c ≤ st.now + skew) && (st.step content s).all fun st' => clocksOk content skew st' rest

theorem clocksWithin_of_ok {skew : Nat} {steps : List Step} : ∀ {st : State ρ}, clocksOk content skew st steps = true → ClocksWithin content skew st steps := by
  induction steps with
  | nil => intro st _ x s y mid c e; simp at e
  | cons s steps ih =>
    intro st h x t y mid c e hr hc
    simp only [clocksOk, Bool.and_eq_true] at h
    cases x with
    | nil =>
      simp only [List.nil_append, List.cons.injEq] at e
      obtain ⟨rfl, _⟩ := e
      cases hr
      have h1 := h.1
      rw [hc] at h1
      simpa using h1
    | cons u x =>
      simp only [List.cons_append, List.cons.injEq] at e
      obtain ⟨rfl, e⟩ := e
      obtain ⟨m, hm, hr⟩ := run_cons hr
      have h2 := h.2
      rw [hm] at h2
      exact ih (by simpa using h2) x t y mid c e hr hc

end ModelarDB.Lemmas.Snapshots
