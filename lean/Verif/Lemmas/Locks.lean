import Verif.Spec.Locks
import Mathlib.Algebra.BigOperators.Fin
import Mathlib.Algebra.Order.BigOperators.Group.Finset
import Mathlib.Data.Finset.Max
import Mathlib.Data.Fintype.BigOperators
/-
Lemmas about tasks that take locks.
-/
namespace ModelarDB.Lemmas.Locks
open Model.Locks Spec.Locks

variable {n : Nat} {L : Type} [DecidableEq L]

omit [DecidableEq L] in
theorem set_self (st : State n L) (t : Fin n) (x : Worker L) : (st.set t x).task t = x := by simp [State.set]

omit [DecidableEq L] in
theorem set_ne (st : State n L) {t u : Fin n} (x : Worker L) (h : u ≠ t) : (st.set t x).task u = st.task u := by simp [State.set, h]

/-! ### Termination -/

/-- The number of steps a task can still make. -/
def stepsLeft (t : Worker L) : Nat := 2 * t.rest.length + if t.ticket = none then 1 else 0

/-- The number of steps all tasks can still make. -/
def allStepsLeft (st : State n L) : Nat := ∑ t, stepsLeft (st.task t)

omit [DecidableEq L] in
theorem allStepsLeft_lt {st st' : State n L} {t : Fin n} (hlt : stepsLeft (st'.task t) < stepsLeft (st.task t))
    (hne : ∀ u, u ≠ t → st'.task u = st.task u) : allStepsLeft st' < allStepsLeft st := by
  refine Finset.sum_lt_sum (fun u _ => ?_) ⟨t, Finset.mem_univ t, hlt⟩
  by_cases hu : u = t
  · subst hu; exact hlt.le
  · rw [hne u hu]

theorem step_lt {st st' : State n L} {s : Step n} (h : step st s = some st') : allStepsLeft st' < allStepsLeft st := by
  cases s with
  | ask t =>
    simp only [step] at h
    split at h <;> cases h
    next l m rest hr ht =>
      refine allStepsLeft_lt (t := t) ?_ fun u hu => set_ne st _ hu
      show stepsLeft ((st.set t _).task t) < _
      rw [set_self]
      simp [stepsLeft, ht]
  | grant t =>
    simp only [step] at h
    split at h
    next l m rest k hr ht =>
      split at h <;> cases h
      refine allStepsLeft_lt (t := t) ?_ fun u hu => set_ne st _ hu
      rw [set_self]
      simp [stepsLeft, ht, hr]
      omega
    · cases h
  | go t =>
    simp only [step] at h
    split at h <;> cases h
    next rest hr =>
      refine allStepsLeft_lt (t := t) ?_ fun u hu => set_ne st _ hu
      rw [set_self]
      simp [stepsLeft, hr]
    next l m rest hr =>
      refine allStepsLeft_lt (t := t) ?_ fun u hu => set_ne st _ hu
      rw [set_self]
      simp [stepsLeft, hr]
  | abandon t =>
    simp only [step] at h
    split at h <;> cases h
    next hr =>
      refine allStepsLeft_lt (t := t) ?_ fun u hu => set_ne st _ hu
      rw [set_self]
      have := List.length_pos_of_ne_nil hr
      simp [stepsLeft]
      omega

theorem run_le {steps : List (Step n)} : ∀ {st st' : State n L}, run st steps = some st' →
    steps.length + allStepsLeft st' ≤ allStepsLeft st := by
  induction steps with
  | nil => intro st st' h; cases h; simp
  | cons s rest ih =>
    intro st st' h
    simp only [run, Option.bind_eq_some_iff] at h
    obtain ⟨st₁, h₁, h₂⟩ := h
    have := step_lt h₁
    have := ih h₂
    simp only [List.length_cons]
    omega

/-! ### Order of locks -/

/-- A task takes locks that are written in the order of `rank`, and releases all locks. -/
def Ordered (written : L → Prop) (rank : L → Nat) : List (L × Mode) → List (Action L) → Prop
  | held, [] => held = []
  | held, .work :: rest => Ordered written rank held rest
  | held, .acquire l m :: rest =>
    (m = .write → written l) ∧ (written l → ∀ p ∈ held, written p.1 → rank p.1 < rank l) ∧ Ordered written rank ((l, m) :: held) rest
  | held, .release l m :: rest => (l, m) ∈ held ∧ Ordered written rank (held.erase (l, m)) rest

/-- All tasks take locks in order, and a lock that is held for writing is one of those that are written. -/
structure AllOrdered (written : L → Prop) (rank : L → Nat) (st : State n L) : Prop where
  ordered : ∀ t, Ordered written rank (st.task t).held (st.task t).rest
  write : ∀ t, ∀ p ∈ (st.task t).held, p.2 = .write → written p.1

variable {written : L → Prop} {rank : L → Nat}

theorem AllOrdered.set {st : State n L} (h : AllOrdered written rank st) {t : Fin n} {x : Worker L}
    (h1 : Ordered written rank x.held x.rest) (h2 : ∀ p ∈ x.held, p.2 = .write → written p.1) : AllOrdered written rank (st.set t x) := by
  constructor
  · intro u
    by_cases hu : u = t
    · subst hu; rw [set_self]; exact h1
    · rw [set_ne st x hu]; exact h.ordered u
  · intro u
    by_cases hu : u = t
    · subst hu; rw [set_self]; exact h2
    · rw [set_ne st x hu]; exact h.write u

theorem AllOrdered.step {st st' : State n L} (h : AllOrdered written rank st) {s : Step n} (hs : step st s = some st') :
    AllOrdered written rank st' := by
  cases s with
  | ask t =>
    simp only [Model.Locks.step] at hs
    split at hs <;> cases hs
    have h' := h.set (t := t) (x := { st.task t with ticket := some st.clock }) (h.ordered t) (h.write t)
    exact ⟨h'.ordered, h'.write⟩
  | grant t =>
    simp only [Model.Locks.step] at hs
    split at hs
    next l m rest k hr ht =>
      split at hs <;> cases hs
      have ho := h.ordered t
      rw [hr] at ho
      refine h.set ho.2.2 fun p hp hw => ?_
      rcases List.mem_cons.mp hp with rfl | hp
      · exact ho.1 hw
      · exact h.write t p hp hw
    · cases hs
  | go t =>
    simp only [Model.Locks.step] at hs
    have ho := h.ordered t
    split at hs <;> cases hs
    next rest hr =>
      rw [hr] at ho
      exact h.set ho (h.write t)
    next l m rest hr =>
      rw [hr] at ho
      exact h.set ho.2 fun p hp hw => h.write t p (List.mem_of_mem_erase hp) hw
  | abandon t =>
    simp only [Model.Locks.step] at hs
    split at hs <;> cases hs
    exact h.set rfl (by simp)

theorem AllOrdered.run {steps : List (Step n)} : ∀ {st st' : State n L}, AllOrdered written rank st → run st steps = some st' →
    AllOrdered written rank st' := by
  induction steps with
  | nil => intro st st' h hs; cases hs; exact h
  | cons s rest ih =>
    intro st st' h hs
    simp only [Model.Locks.run, Option.bind_eq_some_iff] at hs
    obtain ⟨st₁, h₁, h₂⟩ := hs
    exact ih (h.step h₁) h₂

/-- Of the tasks that wait for a lock one waits the longest. -/
theorem exists_first {st : State n L} {t : Fin n} {l : L} {m : Mode} {k : Nat} (h : (st.task t).waitsFor = some (l, m, k)) :
    ∃ u m' k', (st.task u).waitsFor = some (l, m', k') ∧ first st l k' = true := by
  induction k using Nat.strong_induction_on generalizing t m with
  | _ k ih =>
    by_cases hf : first st l k = true
    · exact ⟨t, m, k, h, hf⟩
    · simp only [first, decide_eq_true_eq, not_forall] at hf
      obtain ⟨u, w, hw, hl, hk⟩ := hf
      obtain ⟨l', m', k'⟩ := w
      dsimp only at hl hk
      subst hl
      exact ih k' (by omega) (Option.mem_def.mp hw)

omit [DecidableEq L] in
theorem waitsFor_some {t : Worker L} {l : L} {m : Mode} {k : Nat} (h : t.waitsFor = some (l, m, k)) :
    ∃ rest, t.rest = .acquire l m :: rest ∧ t.ticket = some k := by
  simp only [Worker.waitsFor] at h
  split at h <;> cases h
  next hr ht => exact ⟨_, hr, ht⟩

/-- If nothing can be done, a task that has not finished waits for a lock. -/
theorem waits_of_halted {st : State n L} (h : Halted st) {t : Fin n} (ht : (st.task t).rest ≠ []) :
    ∃ l m k, (st.task t).waitsFor = some (l, m, k) := by
  have h1 := h (.ask t) trivial
  have h2 := h (.go t) trivial
  simp only [step] at h1 h2
  rcases hr : (st.task t).rest with _ | ⟨a, rest⟩
  · exact absurd hr ht
  · rw [hr] at h1 h2
    cases a with
    | work => simp at h2
    | release l m => simp at h2
    | acquire l m =>
      rcases hk : (st.task t).ticket with _ | k
      · rw [hk] at h1; simp at h1
      · exact ⟨l, m, k, by simp [Worker.waitsFor, hr, hk]⟩

/-- If nothing can be done, a lock that is waited for is held. -/
theorem held_of_halted {st : State n L} (h : Halted st) {t : Fin n} {l : L} {m : Mode} {k : Nat}
    (ht : (st.task t).waitsFor = some (l, m, k)) :
    ∃ m' u m'', (∃ v k', (st.task v).waitsFor = some (l, m', k')) ∧ (l, m'') ∈ (st.task u).held ∧ m''.compatible m' = false := by
  obtain ⟨u, m', k', hu, hf⟩ := exists_first ht
  obtain ⟨rest, hr, hk⟩ := waitsFor_some hu
  have h1 := h (.grant u) trivial
  simp only [step, hr, hk, hf, Bool.and_true] at h1
  split at h1
  · cases h1
  · next hfree =>
    simp only [free, decide_eq_true_eq, not_forall] at hfree
    obtain ⟨v, p, hp, hl, hc⟩ := hfree
    obtain ⟨l', m''⟩ := p
    dsimp only at hl hc
    subst hl
    exact ⟨m', v, m'', ⟨u, k', hu⟩, hp, by simpa using hc⟩

/-- Tasks that take locks in order all finish. -/
theorem AllOrdered.finished {st : State n L} (h : AllOrdered written rank st) (hh : Halted st) (t : Fin n) : Finished st t := by
  classical
  by_contra hne
  -- A task that waits for a lock that is written and has the largest rank.
  have key : ∀ d, ∀ t l m k, (st.task t).waitsFor = some (l, m, k) → written l →
      ((Finset.univ.filter fun u => ∃ l' m' k', (st.task u).waitsFor = some (l', m', k')).sup
        fun u => match (st.task u).waitsFor with | some w => rank w.1 | none => 0) - rank l = d → False := by
    intro d
    induction d using Nat.strong_induction_on with
    | _ d ih =>
      intro t l m k ht hw hd
      obtain ⟨m', u, m'', hv, hu, hc⟩ := held_of_halted hh ht
      have hune : (st.task u).rest ≠ [] := by
        intro h0
        have := h.ordered u
        rw [h0] at this
        have h1 : (st.task u).held = [] := this
        rw [h1] at hu
        cases hu
      obtain ⟨l', n', k', hu'⟩ := waits_of_halted hh hune
      obtain ⟨rest, hr, hk⟩ := waitsFor_some hu'
      by_cases hw' : written l'
      · have ho := h.ordered u
        rw [hr] at ho
        have hlt := ho.2.1 hw' _ hu hw
        dsimp only at hlt
        have hle : rank l' ≤ ((Finset.univ.filter fun u => ∃ l' m' k', (st.task u).waitsFor = some (l', m', k')).sup
            fun u => match (st.task u).waitsFor with | some w => rank w.1 | none => 0) := by
          have := Finset.le_sup (s := Finset.univ.filter fun u => ∃ l' m' k', (st.task u).waitsFor = some (l', m', k'))
            (f := fun u => match (st.task u).waitsFor with | some w => rank w.1 | none => 0) (b := u)
            (by simp only [Finset.mem_filter, Finset.mem_univ, true_and]; exact ⟨_, _, _, hu'⟩)
          simp only [hu'] at this
          exact this
        exact ih _ (by omega) u l' n' k' hu' hw' rfl
      · obtain ⟨m₁, v, m₂, ⟨x, k₁, hx⟩, hv', hc'⟩ := held_of_halted hh hu'
        obtain ⟨rest', hr', -⟩ := waitsFor_some hx
        have ho := h.ordered x
        rw [hr'] at ho
        have h1 : m₁ ≠ .write := fun hm => hw' (ho.1 hm)
        have h2 : m₂ ≠ .write := fun hm => hw' (h.write v _ hv' hm)
        exact absurd hc' (by cases m₁ <;> cases m₂ <;> first | exact absurd rfl h1 | exact absurd rfl h2 | decide)
  obtain ⟨l, m, k, ht⟩ := waits_of_halted hh hne
  by_cases hw : written l
  · exact key _ t l m k ht hw rfl
  · obtain ⟨m₁, v, m₂, ⟨x, k₁, hx⟩, hv', hc'⟩ := held_of_halted hh ht
    obtain ⟨rest', hr', -⟩ := waitsFor_some hx
    have ho := h.ordered x
    rw [hr'] at ho
    have h1 : m₁ ≠ .write := fun hm => hw (ho.1 hm)
    have h2 : m₂ ≠ .write := fun hm => hw (h.write v _ hv' hm)
    exact absurd hc' (by cases m₁ <;> cases m₂ <;> first | exact absurd rfl h1 | exact absurd rfl h2 | decide)

theorem AllOrdered.allFinish {st : State n L} (h : AllOrdered written rank st) : AllFinish st :=
  ⟨⟨allStepsLeft st, fun _ _ hs => (Nat.le_add_right _ _).trans (run_le hs)⟩, fun _ _ hs hh t => (h.run hs).finished hh t⟩

/-! ### Deadlocks -/

/-- Each task in `s` waits for a lock that a task in `s` holds or waits for longer. -/
def Deadlocked (st : State n L) (s : Fin n → Prop) : Prop :=
  ∀ t, s t → ∃ l m k, (st.task t).waitsFor = some (l, m, k) ∧ ∃ u, s u ∧
    ((∃ m', (l, m') ∈ (st.task u).held ∧ m'.compatible m = false) ∨ ∃ m' k', (st.task u).waitsFor = some (l, m', k') ∧ k' < k)

omit [DecidableEq L] in
theorem Deadlocked.congr {st st' : State n L} {s : Fin n → Prop} (h : Deadlocked st s) (he : ∀ t, s t → st'.task t = st.task t) :
    Deadlocked st' s := by
  intro t ht
  obtain ⟨l, m, k, hw, u, hu, h'⟩ := h t ht
  exact ⟨l, m, k, by rw [he t ht]; exact hw, u, hu, by rw [he u hu]; exact h'⟩

theorem Deadlocked.step {st st' : State n L} {s : Fin n → Prop} (h : Deadlocked st s) {x : Step n} (hk : Keeps s x)
    (hs : step st x = some st') : Deadlocked st' s := by
  have hset : ∀ {t w}, ¬ s t → ∀ u, s u → (st.set t w).task u = st.task u := fun {t w} ht u hu =>
    set_ne st w fun e => ht (e ▸ hu)
  cases x with
  | ask t =>
    simp only [Model.Locks.step] at hs
    split at hs <;> cases hs
    next hr hn =>
      refine h.congr (hset fun ht => ?_)
      obtain ⟨l, m, k, hw, -⟩ := h t ht
      obtain ⟨rest, -, hk'⟩ := waitsFor_some hw
      rw [hn] at hk'; cases hk'
  | grant t =>
    simp only [Model.Locks.step] at hs
    split at hs
    next l m rest k hr hn =>
      split at hs <;> cases hs
      next hc =>
        rw [Bool.and_eq_true] at hc
        simp only [free, first, decide_eq_true_eq] at hc
        refine h.congr (hset fun ht => ?_)
        obtain ⟨l', m', k', hw, u, hu, h'⟩ := h t ht
        obtain ⟨rest', hr', hk'⟩ := waitsFor_some hw
        rw [hr] at hr'; rw [hn] at hk'
        cases hr'; cases hk'
        rcases h' with ⟨m', hm, hc'⟩ | ⟨m', k', hw', hlt⟩
        · exact absurd (hc.1 u _ hm rfl) (by simp [hc'])
        · have := hc.2 u _ (Option.mem_def.mpr hw') rfl
          dsimp only at this
          omega
    · cases hs
  | go t =>
    simp only [Model.Locks.step] at hs
    have hnot : ∀ act rest, (st.task t).rest = act :: rest → (∀ l m, act ≠ .acquire l m) → ¬ s t := by
      intro act rest hr hne ht
      obtain ⟨l, m, k, hw, -⟩ := h t ht
      obtain ⟨rest', hr', -⟩ := waitsFor_some hw
      rw [hr] at hr'
      cases hr'
      exact hne _ _ rfl
    split at hs <;> cases hs
    next rest hr => exact h.congr (hset (hnot _ _ hr nofun))
    next l m rest hr => exact h.congr (hset (hnot _ _ hr nofun))
  | abandon t =>
    simp only [Model.Locks.step] at hs
    split at hs <;> cases hs
    exact h.congr (hset hk)

theorem Deadlocked.neverFinish {st : State n L} {s : Fin n → Prop} (h : Deadlocked st s) : NeverFinish st s := by
  intro steps
  induction steps generalizing st with
  | nil =>
    intro st' _ hs t ht hf
    cases hs
    obtain ⟨l, m, k, hw, -⟩ := h t ht
    obtain ⟨rest, hr, -⟩ := waitsFor_some hw
    rw [Finished, hr] at hf
    cases hf
  | cons x rest ih =>
    intro st' hkeep hs
    simp only [Model.Locks.run, Option.bind_eq_some_iff] at hs
    obtain ⟨st₁, h₁, h₂⟩ := hs
    exact ih (h.step (hkeep x List.mem_cons_self) h₁) st' (fun y hy => hkeep y (List.mem_cons_of_mem _ hy)) h₂

/-! ### Exclusion -/

theorem Exclusive.step {st st' : State n L} (h : Exclusive st) {x : Step n} (hs : step st x = some st') : Exclusive st' := by
  have hsub : ∀ {t w}, (∀ p ∈ w.held, p ∈ (st.task t).held) → Exclusive (st.set t w) := by
    intro t w hw
    have hm : ∀ u p, p ∈ ((st.set t w).task u).held → p ∈ (st.task u).held := by
      intro u p hp
      by_cases hu : u = t
      · subst hu; rw [set_self] at hp; exact hw p hp
      · rwa [set_ne st w hu] at hp
    exact fun u v l m hne h1 h2 => h u v l m hne (hm _ _ h1) (hm _ _ h2)
  cases x with
  | ask t =>
    simp only [Model.Locks.step] at hs
    split at hs <;> cases hs
    exact hsub (t := t) (w := { st.task t with ticket := some st.clock }) fun p hp => hp
  | grant t =>
    simp only [Model.Locks.step] at hs
    split at hs
    next l m rest k hr hn =>
      split at hs <;> cases hs
      next hc =>
        rw [Bool.and_eq_true] at hc
        simp only [free, decide_eq_true_eq] at hc
        intro u v l' m' hne h1 h2
        by_cases hu : u = t
        · subst hu
          rw [set_self] at h1
          rw [set_ne st _ (Ne.symm hne)] at h2
          rcases List.mem_cons.mp h1 with h1 | h1
          · cases h1
            exact absurd (hc.1 v _ h2 rfl) (by cases m' <;> simp [Mode.compatible])
          · exact h u v l' m' hne h1 h2
        · rw [set_ne st _ hu] at h1
          by_cases hv : v = t
          · subst hv
            rw [set_self] at h2
            rcases List.mem_cons.mp h2 with h2 | h2
            · cases h2
              exact absurd (hc.1 u _ h1 rfl) (by cases m <;> simp [Mode.compatible])
            · exact h u v l' m' hne h1 h2
          · rw [set_ne st _ hv] at h2
            exact h u v l' m' hne h1 h2
    · cases hs
  | go t =>
    simp only [Model.Locks.step] at hs
    split at hs <;> cases hs
    · exact hsub fun p hp => hp
    · exact hsub fun p hp => List.mem_of_mem_erase hp
  | abandon t =>
    simp only [Model.Locks.step] at hs
    split at hs <;> cases hs
    exact hsub fun p hp => nomatch hp

theorem Exclusive.run {steps : List (Step n)} : ∀ {st st' : State n L}, Exclusive st → run st steps = some st' → Exclusive st' := by
  induction steps with
  | nil => intro st st' h hs; cases hs; exact h
  | cons s rest ih =>
    intro st st' h hs
    simp only [Model.Locks.run, Option.bind_eq_some_iff] at hs
    obtain ⟨st₁, h₁, h₂⟩ := hs
    exact ih (Exclusive.step h h₁) h₂

/-! ### Blocks of actions -/

/-- Actions that can be done while `held` is held, and after which the same locks are held. -/
def Block (written : L → Prop) (rank : L → Nat) (held : List (L × Mode)) (p : List (Action L)) : Prop :=
  ∀ rest, Ordered written rank held rest → Ordered written rank held (p ++ rest)

theorem Block.nil {held : List (L × Mode)} : Block written rank held [] := fun _ h => h

theorem Block.work {held : List (L × Mode)} : Block written rank held [.work] := fun _ h => h

theorem Block.append {held : List (L × Mode)} {p q : List (Action L)} (hp : Block written rank held p) (hq : Block written rank held q) :
    Block written rank held (p ++ q) := fun rest h => by
  rw [List.append_assoc]
  exact hp _ (hq _ h)

theorem Block.cons_work {held : List (L × Mode)} {p : List (Action L)} (hp : Block written rank held p) :
    Block written rank held (.work :: p) := fun rest h => hp rest h

theorem Block.flatMap {α : Type} {held : List (L × Mode)} {f : α → List (Action L)} :
    ∀ {l : List α}, (∀ a ∈ l, Block written rank held (f a)) → Block written rank held (l.flatMap f)
  | [], _ => Block.nil
  | a :: l, h => by
    rw [List.flatMap_cons]
    exact (h a List.mem_cons_self).append (Block.flatMap fun b hb => h b (List.mem_cons_of_mem _ hb))

theorem Block.ite {held : List (L × Mode)} {b : Bool} {p q : List (Action L)} (hp : b = true → Block written rank held p)
    (hq : Block written rank held q) : Block written rank held (if b then p else q) := by
  cases b
  · exact hq
  · exact hp rfl

theorem Block.bracket {held : List (L × Mode)} {l : L} {m : Mode} {p : List (Action L)} (hw : m = .write → written l)
    (ho : written l → ∀ q ∈ held, written q.1 → rank q.1 < rank l) (hp : Block written rank ((l, m) :: held) p) :
    Block written rank held (.acquire l m :: p ++ [.release l m]) := fun rest h => by
  simp only [List.cons_append, List.append_assoc, List.nil_append]
  refine ⟨hw, ho, hp _ ⟨List.mem_cons_self, ?_⟩⟩
  rw [List.erase_cons_head]
  exact h

theorem Block.ordered {p : List (Action L)} (h : Block written rank [] p) : Ordered written rank [] p := by
  have := h [] rfl
  rwa [List.append_nil] at this

end ModelarDB.Lemmas.Locks

namespace ModelarDB.Lemmas.Locks
open Model.Locks Spec.Locks

variable {written : Nat × Lock → Prop} {rank : Nat × Lock → Nat} {held : List ((Nat × Lock) × Mode)}

theorem Block.holding {u : Nat} {l : Lock} {m : Mode} {p : Program} (hw : m = .write → written (u, l))
    (ho : written (u, l) → ∀ q ∈ held, written q.1 → rank q.1 < rank (u, l))
    (hp : Block written rank (((u, l), m) :: held) p) : Block written rank held (holding u l m p) := Block.bracket hw ho hp

theorem Block.times {p : Program} (hp : Block written rank held p) : ∀ k, Block written rank held (times k p)
  | 0 => Block.nil
  | k + 1 => hp.append (Block.times hp k)

end ModelarDB.Lemmas.Locks
